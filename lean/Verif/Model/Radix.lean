import Verif.Model.DivWord
/-! Model of /repo/src/radix.rs. -/
namespace Ibig

/-- /repo/src/radix.rs:14 `MAX_RADIX` -/
def maxRadix : Nat := 36

/-- /repo/src/radix.rs:18-20 `is_radix_valid` -/
def isRadixValid (radix : Nat) : Bool := decide (2 ≤ radix) && decide (radix ≤ maxRadix)

/-- /repo/src/radix.rs:24-28 `check_radix_valid` -/
def checkRadixValid (radix : Nat) : R Unit :=
  if !isRadixValid radix then .error .radixOutOfRange else .ok ()

/-- /repo/src/radix.rs:35-39 `enum DigitCase` -/
inductive DigitCase where
  | noLetters
  | lower
  | upper
deriving DecidableEq, Repr

/-- /repo/src/radix.rs:35-39 the representation of `DigitCase` as `u8` -/
def DigitCase.offset : DigitCase → Nat
  | .noLetters => 0
  | .lower => 97 - 48 - 10
  | .upper => 65 - 48 - 10

/-- /repo/src/radix.rs:43-48 the value of a digit byte -/
def digitByteValue (byte : Nat) : Option Nat :=
  if 48 ≤ byte ∧ byte ≤ 57 then some (byte - 48)
  else if 97 ≤ byte ∧ byte ≤ 122 then some (byte - 97 + 10)
  else if 65 ≤ byte ∧ byte ≤ 90 then some (byte - 65 + 10)
  else none

/-- /repo/src/radix.rs:42-54 `digit_from_utf8_byte` -/
def digitFromByte (byte radix : Nat) : Option Nat :=
  match digitByteValue byte with
  | some res => if res < radix then some res else none
  | none => none

/-- `u32::is_power_of_two` -/
def isRadixPow2 (radix : Nat) : Bool := isPow2Word radix

/-- `u32::trailing_zeros` -/
def logRadix (radix : Nat) : Nat := trailingZerosAux 32 radix

/-- /repo/src/radix.rs:61-75 `struct RadixInfo` -/
structure RadixInfo where
  digitsPerWord : Nat
  rangePerWord : Nat
  fastDivRadix : FastDivideSmall
  fastDivRange : FastDivideNormalized

/-- /repo/src/radix.rs:95-100 the loop of `RadixInfo::for_radix` (`checked_mul` fails when the product is
not a word), bounded by the first number -/
def rangeLoop (W radix : Nat) : Nat → Nat → Nat → R (Nat × Nat)
  | 0, _, _ => .error .fuel
  | fuel + 1, digits, range =>
    if range * radix < base W then rangeLoop W radix fuel (digits + 1) (range * radix)
    else .ok (digits, range)

/-- /repo/src/radix.rs:85-110 `RadixInfo::for_radix` (evaluated at compile time for the table) -/
def RadixInfo.forRadix (W radix : Nat) : R RadixInfo := do
  let fdr ← FastDivideSmall.new W radix
  if isRadixPow2 radix then
    .ok ⟨W / logRadix radix, 0, fdr, ⟨0, 0⟩⟩
  else do
    let (digits, range) ← rangeLoop W radix (W + 1) 0 1
    let shift := leadingZeros W range
    let fd ← FastDivideNormalized.new W (range * 2 ^ shift % base W)
    .ok ⟨digits, range, fdr, fd⟩

/-- /repo/src/radix.rs:79-82, 115-131 `radix_info`: looks up the table built by `for_radix` -/
def radixInfo (W radix : Nat) : R RadixInfo := do
  assertR (isRadixValid radix = true)
  RadixInfo.forRadix W radix

/-- /repo/src/radix.rs:57 `MAX_WORD_DIGITS_NON_POW_2` -/
def maxWordDigits (W : Nat) : R Nat := do
  let info ← RadixInfo.forRadix W 3
  .ok (info.digitsPerWord + 1)

end Ibig
