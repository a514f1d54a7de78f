import Mathlib.Data.List.Forall2
import Verif.Spec.Number
/-!
# Numerals in a radix (specification)

Text is a list of character codes. -/
namespace Ibig

/-- The digits in lower case: the character for digit `d` is at position `d`. -/
def lowerDigits : List Nat := "0123456789abcdefghijklmnopqrstuvwxyz".toList.map Char.toNat

/-- The digits in upper case. -/
def upperDigits : List Nat := "0123456789ABCDEFGHIJKLMNOPQRSTUVWXYZ".toList.map Char.toNat

/-- The character `c` is a digit of the given radix with value `d` (in either case). -/
def IsDigit (radix c d : Nat) : Prop :=
  d < radix ∧ (lowerDigits[d]? = some c ∨ upperDigits[d]? = some c)

/-- `text` is the sequence of digits `ds` (most significant first) in the given radix. -/
def IsNumeral (radix : Nat) (text ds : List Nat) : Prop := List.Forall₂ (IsDigit radix) text ds

/-- Some character of `text` is not a digit of the given radix. -/
def HasBadDigit (radix : Nat) (text : List Nat) : Prop := ∃ c ∈ text, ∀ d, ¬IsDigit radix c d

/-- The positional value of a digit sequence (most significant digit first). -/
def digitsValue (radix : Nat) (ds : List Nat) : Nat := ds.foldl (fun a d => a * radix + d) 0

/-- `ds` is *the* numeral of `n`: digits of the radix, positional value `n`, and no leading zero (except
that zero is the single digit 0). -/
structure IsCanonicalNumeral (radix n : Nat) (ds : List Nat) : Prop where
  digits : ∀ d ∈ ds, d < radix
  value : digitsValue radix ds = n
  nonempty : ds ≠ []
  noLeadingZero : ds.head? = some 0 → ds = [0]

/-- The text without its leading zeros. -/
def dropZeros (text : List Nat) : List Nat := text.dropWhile (fun c => c == '0'.toNat)

end Ibig
