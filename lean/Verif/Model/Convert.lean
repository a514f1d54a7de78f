import Verif.Model.Bytes
/-! Model of the conversions between big numbers and primitive integers
(/repo/src/convert.rs, /repo/src/primitive.rs). -/
namespace Ibig

/-- The primitive integer types for which the conversions and operators are instantiated by the macros
(/repo/src/convert.rs:334-339, 379-384, 415-420, 458-463): `uN`/`usize` and `iN`/`isize`, given by their
number of bits. -/
inductive PTy where
  | u (bits : Nat)
  | i (bits : Nat)
deriving DecidableEq, Repr

/-- The widths of the primitive integer types (`usize` is 16, 32 or 64 bits wide). -/
def PTy.Valid : PTy → Prop
  | .u b => b = 8 ∨ b = 16 ∨ b = 32 ∨ b = 64 ∨ b = 128
  | .i b => b = 8 ∨ b = 16 ∨ b = 32 ∨ b = 64 ∨ b = 128

/-- The values of the primitive type. -/
def PTy.InRange : PTy → Int → Prop
  | .u b, z => 0 ≤ z ∧ z < 2 ^ b
  | .i b, z => -2 ^ (b - 1) ≤ z ∧ z < 2 ^ (b - 1)

/-- `x as uN` for `x : iN` -/
def asUnsigned (bits : Nat) (z : Int) : Nat := (z % 2 ^ bits).toNat

/-- `x as iN` for `x : uN` -/
def asSigned (bits : Nat) (x : Nat) : Int := if x < 2 ^ (bits - 1) then x else (x : Int) - 2 ^ bits

/-- `uN::wrapping_neg` -/
def wrappingNegBits (bits x : Nat) : Nat := (2 ^ bits - x) % 2 ^ bits

/-- /repo/src/primitive.rs:103-109 `to_sign_magnitude` -/
def toSignMagnitude (bits : Nat) (z : Int) : Sign × Nat :=
  if 0 ≤ z then (.pos, asUnsigned bits z) else (.neg, wrappingNegBits bits (asUnsigned bits z))

/-- /repo/src/primitive.rs:112-127 `try_from_sign_magnitude`; `mag.try_into()` from `uN` to `iN` succeeds
exactly below `2^(N-1)` -/
def tryFromSignMagnitude (bits : Nat) (sign : Sign) (mag : Nat) : Option Int :=
  match sign with
  | .pos => if mag < 2 ^ (bits - 1) then some mag else none
  | .neg =>
    let x := asSigned bits (wrappingNegBits bits mag)
    if x ≤ 0 then some x else none

/-- /repo/src/convert.rs:521-529 `try_from_signed`; `T::Unsigned::try_from(x)` succeeds exactly for
`x >= 0` -/
def UBig.tryFromSigned (cfg : Cfg) (bits : Nat) (z : Int) : R (Option UBig) :=
  if 0 ≤ z then do
    let u ← UBig.fromUnsigned cfg bits z.toNat
    .ok (some u)
  else .ok none

/-- /repo/src/convert.rs:576-597 `unsigned_from_words`. The loop copying the words into the byte array of
the primitive is written as one concatenation; copying beyond the array is the index panic. -/
def unsignedFromWords (cfg : Cfg) (bits : Nat) (words : List Nat) : R (Option Nat) := do
  assertR (2 ≤ words.length)
  let tWords := bits / 8 / (cfg.W / 8)
  if tWords ≤ 1 ∨ tWords < words.length then .ok none
  else do
    assertR (bits % cfg.W = 0)
    let bytes := words.flatMap (toLeBytesN (cfg.W / 8))
    if bytes.length ≤ bits / 8 then
      .ok (some (leBytesVal (bytes ++ List.replicate (bits / 8 - bytes.length) 0)))
    else .error .index

/-- /repo/src/convert.rs:533-544 `try_to_unsigned`; `T::try_from(w)` succeeds exactly below `2^N` -/
def UBig.tryToUnsigned (cfg : Cfg) (bits : Nat) : UBig → R (Option Nat)
  | .small w => .ok (if w < 2 ^ bits then some w else none)
  | .large b => unsignedFromWords cfg bits b.words

/-- /repo/src/convert.rs:548-559 `try_to_signed` -/
def UBig.tryToSigned (cfg : Cfg) (bits : Nat) : UBig → R (Option Int)
  | .small w => .ok (if w < 2 ^ (bits - 1) then some (w : Int) else none)
  | .large b => do
    let u ← unsignedFromWords cfg bits b.words
    match u with
    | none => .ok none
    | some u => .ok (if u < 2 ^ (bits - 1) then some (u : Int) else none)

/-- /repo/src/convert.rs:602-604 `IBig::from_unsigned` -/
def IBig.fromUnsigned (cfg : Cfg) (bits x : Nat) : R IBig := do
  let u ← UBig.fromUnsigned cfg bits x
  .ok (.ofUBig u)

/-- /repo/src/convert.rs:608-611 `IBig::from_signed` -/
def IBig.fromSigned (cfg : Cfg) (bits : Nat) (z : Int) : R IBig := do
  let (sign, mag) := toSignMagnitude bits z
  let u ← UBig.fromUnsigned cfg bits mag
  .ok (.fromSignMagnitude sign u)

/-- /repo/src/convert.rs:615-620 `IBig::try_to_unsigned` -/
def IBig.tryToUnsigned (cfg : Cfg) (bits : Nat) (x : IBig) : R (Option Nat) :=
  match x.sign with
  | .pos => x.mag.tryToUnsigned cfg bits
  | .neg => .ok none

/-- /repo/src/convert.rs:624-627 `IBig::try_to_signed` -/
def IBig.tryToSigned (cfg : Cfg) (bits : Nat) (x : IBig) : R (Option Int) := do
  let u ← x.mag.tryToUnsigned cfg bits
  match u with
  | none => .ok none
  | some u => .ok (tryFromSignMagnitude bits x.sign u)

/-- /repo/src/convert.rs:386-463 `From<$t> for IBig` -/
def IBig.fromPrim (cfg : Cfg) : PTy → Int → R IBig
  | .u b, z => IBig.fromUnsigned cfg b z.toNat
  | .i b, z => IBig.fromSigned cfg b z

/-- /repo/src/convert.rs:305-312, 348-357 `From<$t> for UBig` (unsigned, never `none`) and
`TryFrom<$t> for UBig` (signed) -/
def UBig.tryFromPrim (cfg : Cfg) : PTy → Int → R (Option UBig)
  | .u b, z => do
    let u ← UBig.fromUnsigned cfg b z.toNat
    .ok (some u)
  | .i b, z => UBig.tryFromSigned cfg b z

/-- an unsigned result as an integer (for stating both kinds of types together) -/
def natResult (x : R (Option Nat)) : R (Option Int) := do
  let u ← x
  .ok (u.map Int.ofNat)

/-- /repo/src/convert.rs:314-330, 359-375 `TryFrom<UBig> for $t`, `TryFrom<&UBig> for $t` -/
def UBig.tryToPrim (cfg : Cfg) (x : UBig) : PTy → R (Option Int)
  | .u b => natResult (x.tryToUnsigned cfg b)
  | .i b => x.tryToSigned cfg b

/-- /repo/src/convert.rs:395-411, 438-454 `TryFrom<IBig> for $t`, `TryFrom<&IBig> for $t` -/
def IBig.tryToPrim (cfg : Cfg) (x : IBig) : PTy → R (Option Int)
  | .u b => natResult (x.tryToUnsigned cfg b)
  | .i b => x.tryToSigned cfg b

/-- /repo/src/convert.rs:341-346 `From<bool> for UBig` -/
def UBig.fromBool (cfg : Cfg) (b : Bool) : R UBig := UBig.fromUnsigned cfg 8 b.toNat

/-- /repo/src/convert.rs:422-427 `From<bool> for IBig` -/
def IBig.fromBool (cfg : Cfg) (b : Bool) : R IBig := IBig.fromUnsigned cfg 8 b.toNat

end Ibig
