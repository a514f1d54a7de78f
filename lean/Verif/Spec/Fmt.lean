import Verif.Spec.Radix
import Verif.Model.Fmt
/-!
# What formatting should print (specification)
-/
namespace Ibig

/-- `text` is the digit sequence `ds`, in upper or lower case. -/
def IsPrinted (upper : Bool) (text ds : List Nat) : Prop :=
  List.Forall₂ (fun c d => (if upper then upperDigits else lowerDigits)[d]? = some c) text ds

/-- `digits` is the canonical numeral of `n`, as text. -/
def IsNumeralText (radix n : Nat) (upper : Bool) (digits : List Nat) : Prop :=
  ∃ ds, IsCanonicalNumeral radix n ds ∧ IsPrinted upper digits ds

/-- The sign to print: `-` for negative numbers, `+` otherwise if asked for. -/
def signText (neg plus : Bool) : List Nat :=
  if neg then ['-'.toNat] else if plus then ['+'.toNat] else []

/-- How much fill may be on the left and on the right. -/
def AlignOK : Option Align → Nat → Nat → Prop
  | some .left, l, _ => l = 0
  | some .right, _, r => r = 0
  | none, _, r => r = 0
  | some .center, l, r => l ≤ r ∧ r ≤ l + 1

/-- `text` is the number made of `sign`, `pre` and `digits`, padded as the flags ask for:
 * no width: no padding;
 * otherwise the text is as long as the width, or as long as the number if that is longer;
 * with the `0` flag, the padding is zeros between the prefix and the digits;
 * otherwise it is the fill character, on the side(s) given by the alignment (right-aligned by default). -/
def Padded (f : FmtFlags) (sign pre digits text : List Nat) : Prop :=
  match f.width with
  | none => text = sign ++ pre ++ digits
  | some w =>
    text.length = max w (sign ++ pre ++ digits).length ∧
    if f.zero then ∃ n, text = sign ++ pre ++ List.replicate n '0'.toNat ++ digits
    else ∃ l r, text = List.replicate l f.fill ++ (sign ++ pre ++ digits) ++ List.replicate r f.fill ∧
      AlignOK f.align l r

/-- `x` succeeds and prints the number with sign `neg` and magnitude `n`. -/
def Prints (f : FmtFlags) (radix : Nat) (upper neg : Bool) (n : Nat) (pre : List Nat) (x : R (List Nat)) : Prop :=
  ∃ text digits, x = .ok text ∧ IsNumeralText radix n upper digits ∧
    Padded f (signText neg f.plus) pre digits text

/-- The prefix of each trait with the `#` flag. -/
def traitPrefix : FmtTrait → String
  | .display => ""
  | .binary => "0b"
  | .octal => "0o"
  | .lowerHex => "0x"
  | .upperHex => "0x"

/-- The radix of each trait. -/
def traitRadix : FmtTrait → Nat
  | .display => 10
  | .binary => 2
  | .octal => 8
  | .lowerHex => 16
  | .upperHex => 16

end Ibig
