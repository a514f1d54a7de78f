import Verif.Spec.Radix
import Verif.Model.Parse
/-!
# What parsing should do (specification)
-/
namespace Ibig

/-- Splits an optional leading `'+'` off. -/
def splitPlus : List Nat → List Nat
  | [] => []
  | c :: s => if c = '+'.toNat then s else c :: s

/-- Splits an optional leading `'+'` or `'-'` off: is it negative, and the rest. -/
def splitSign : List Nat → Bool × List Nat
  | [] => (false, [])
  | c :: s => if c = '-'.toNat then (true, s) else if c = '+'.toNat then (false, s) else (false, c :: s)

/-- Splits an optional `0b`, `0o`, `0x` prefix off: the radix (10 without a prefix) and the rest. -/
def splitRadix : List Nat → Nat × List Nat
  | c :: d :: s =>
    if c = '0'.toNat ∧ d = 'b'.toNat then (2, s)
    else if c = '0'.toNat ∧ d = 'o'.toNat then (8, s)
    else if c = '0'.toNat ∧ d = 'x'.toNat then (16, s)
    else (10, c :: d :: s)
  | s => (10, s)

/-- `z` with the sign given by `neg`. -/
def signed (neg : Bool) (n : Nat) : Int := if neg then -(n : Int) else n

/-- `x` is the result of reading the unsigned numeral `text`:
 * no characters at all: the error "no digits";
 * a numeral: its value (a panic "number too large" if the value is beyond the size limit);
 * some other character occurs: the error "invalid digit" (for a text so long that no numeral of its length
   fits into the size limit, possibly a panic "number too large" instead). -/
structure ReadsUBig (cfg : Cfg) (radix : Nat) (text : List Nat) (x : R (PRes UBig)) : Prop where
  empty : text = [] → x = .ok (.error .noDigits)
  numeral : ∀ ds, text ≠ [] → IsNumeral radix text ds → Fits cfg (digitsValue radix ds) →
    ∃ c, x = .ok (.ok c) ∧ c.WF cfg ∧ c.value cfg = digitsValue radix ds
  tooLarge : ∀ ds, IsNumeral radix text ds → ¬Fits cfg (digitsValue radix ds) → x = .error .tooLarge
  bad : HasBadDigit radix text → x = .ok (.error .invalidDigit) ∨
    (x = .error .tooLarge ∧ ¬Fits cfg (radix ^ (dropZeros text).length))

/-- The same for a number with a sign. -/
structure ReadsIBig (cfg : Cfg) (radix : Nat) (neg : Bool) (text : List Nat) (x : R (PRes IBig)) : Prop where
  empty : text = [] → x = .ok (.error .noDigits)
  numeral : ∀ ds, text ≠ [] → IsNumeral radix text ds → Fits cfg (digitsValue radix ds) →
    ∃ c, x = .ok (.ok c) ∧ c.WF cfg ∧ c.value cfg = signed neg (digitsValue radix ds)
  tooLarge : ∀ ds, IsNumeral radix text ds → ¬Fits cfg (digitsValue radix ds) → x = .error .tooLarge
  bad : HasBadDigit radix text → x = .ok (.error .invalidDigit) ∨
    (x = .error .tooLarge ∧ ¬Fits cfg (radix ^ (dropZeros text).length))

/-- The bytes of an ASCII string (for examples). -/
def asciiBytes (s : String) : List Nat := s.toList.map Char.toNat

end Ibig
