import Verif.Spec.Examples
import Verif.Spec.Parse
import Verif.Model.Fmt
/-!
The crate's own tests (/repo/tests), run on the model by the kernel.

These are tests, not proofs: they compare the model with what the authors of the crate expect, on three builds
(16, 32 and 64-bit words).  Where a test of the crate tries all combinations of values and references, so do these.
Left out are some inputs with thousands of words, and what is not modelled or not a statement about results.
-/
namespace Ibig.Tests
open Ibig

/-- The words of `n`. -/
def wordsOf (W : Nat) : Nat → Nat → List Nat
  | 0, _ => []
  | fuel + 1, n => if n = 0 then [] else n % base W :: wordsOf W fuel (n / base W)

/-- The number `n`. -/
def mkU (cfg : Cfg) (n : Nat) : UBig :=
  if n < base cfg.W then .small n else bigOf (wordsOf cfg.W (bitLen n) n)

/-- The integer `z`. -/
def mkI (cfg : Cfg) (z : Int) : IBig := ⟨if z < 0 then .neg else .pos, mkU cfg z.natAbs⟩

/-- The result is the number `n`. -/
def isU (cfg : Cfg) (n : Nat) : R UBig → Bool
  | .ok x => x.beq (mkU cfg n)
  | .error _ => false

/-- The result is the integer `z`. -/
def isI (cfg : Cfg) (z : Int) : R IBig → Bool
  | .ok x => x.beq (mkI cfg z)
  | .error _ => false

/-- The result is `a`. -/
def isV {α : Type} [DecidableEq α] (a : α) : R α → Bool
  | .ok x => decide (x = a)
  | .error _ => false

/-- The results are the numbers `q` and `r`. -/
def isUU (cfg : Cfg) (q r : Nat) : R (UBig × UBig) → Bool
  | .ok (x, y) => x.beq (mkU cfg q) && y.beq (mkU cfg r)
  | .error _ => false

/-- The results are the integers `q` and `r`. -/
def isII (cfg : Cfg) (q r : Int) : R (IBig × IBig) → Bool
  | .ok (x, y) => x.beq (mkI cfg q) && y.beq (mkI cfg r)
  | .error _ => false

/-- The results are the number `q` and the primitive `r`. -/
def isUV {α : Type} [DecidableEq α] (cfg : Cfg) (q : Nat) (r : α) : R (UBig × α) → Bool
  | .ok (x, y) => x.beq (mkU cfg q) && decide (y = r)
  | .error _ => false

/-- The results are the integer `q` and the primitive `r`. -/
def isIV {α : Type} [DecidableEq α] (cfg : Cfg) (q : Int) (r : α) : R (IBig × α) → Bool
  | .ok (x, y) => x.beq (mkI cfg q) && decide (y = r)
  | .error _ => false

/-- `#[should_panic]`, with the expected panic -/
def panics {α : Type} (p : Panic) : R α → Bool
  | .ok _ => false
  | .error q => decide (p = q)

/-- On all builds. -/
def onAll (p : Cfg → Bool) : Bool := p cfg16 && p cfg32 && p cfg64

/-- For values and references. -/
def owns (p : Own → Bool) : Bool := p .val && p .ref

/-- For all combinations of values and references. -/
def owns2 (p : Own → Own → Bool) : Bool := owns fun o => owns fun o' => p o o'

/-- The integers from `lo` on. -/
def ints (lo : Int) : Nat → List Int
  | 0 => []
  | n + 1 => lo :: ints (lo + 1) n

/-- Decimal number at the front of a text. -/
def specWidth : Nat → List Nat → Option Nat → Option Nat × List Nat
  | 0, l, w => (w, l)
  | _, [], w => (w, [])
  | fuel + 1, c :: l, w =>
    if 48 ≤ c ∧ c ≤ 57 then specWidth fuel l (some (w.getD 0 * 10 + (c - 48))) else (w, c :: l)

/-- Trait at the end of a format specification. -/
def specTrait : List Nat → FmtTrait
  | [98] => .binary
  | [111] => .octal
  | [120] => .lowerHex
  | [88] => .upperHex
  | _ => .display

/-- The flags `+`, `#`, `0` and the width. -/
def specFlags (fill : Nat) (align : Option Align) (l : List Nat) : FmtTrait × FmtFlags :=
  let plus := l.head? = some 43
  let l := if plus then l.tail else l
  let alternate := l.head? = some 35
  let l := if alternate then l.tail else l
  let zero := l.head? = some 48
  let l := if zero then l.tail else l
  let (width, l) := specWidth l.length l none
  (specTrait l, ⟨width, fill, align, plus, alternate, zero⟩)

/-- An alignment character. -/
def specAlign : Nat → Option Align
  | 60 => some .left
  | 62 => some .right
  | 94 => some .center
  | _ => none

/-- What stands after the colon in `{:...}`. -/
def spec (s : String) : FmtTrait × FmtFlags :=
  match asciiBytes s with
  | c :: d :: l =>
    match specAlign d with
    | some a => specFlags c (some a) l
    | none =>
      match specAlign c with
      | some a => specFlags 32 (some a) (d :: l)
      | none => specFlags 32 none (c :: d :: l)
  | l => specFlags 32 none l

/-- `format!("{:...}", ...)` -/
def format (s : String) (fmt : FmtTrait → FmtFlags → R (List Nat)) : R (List Nat) := fmt (spec s).1 (spec s).2

end Ibig.Tests
