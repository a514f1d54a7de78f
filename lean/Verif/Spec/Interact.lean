import Verif.Model.Interact
import Verif.Spec.ModUnwind
import Verif.Spec.Gcd
import Verif.Spec.Number
import Mathlib.Data.Nat.Digits.Defs
/-!
# What a program that reacts to what it sees should do (specification)

The same programs over the mathematical numbers and rings.  Where the documentation does not determine the result (the
coefficients of `extended_gcd`, random numbers), every result it permits is allowed.
-/
namespace Ibig

/-- `c.May cfg v out`: the instruction `c` with the variables `v` is permitted to have the outcome `out`: new
variables and what is seen, or a panic. -/
inductive XInstr.May (cfg : Cfg) (v : MathState) : XInstr → R (MathState × List Obs) → Prop
  /-- An instruction of programs with rings. -/
  | base {c : MInstr} {w : MathState} {o : List Obs} : c.math (cfg.maxLen * cfg.W) v = .ok (w, o) →
      XInstr.May cfg v (.base c) (.ok (w, o))
  /-- A documented panic, which the instruction should cause. -/
  | panic {c : MInstr} {e : Panic} : c.math (cfg.maxLen * cfg.W) v = .error e → DocumentedM e →
      XInstr.May cfg v (.base c) (.error e)
  /-- A limit of the build. -/
  | limit {c : MInstr} {e : Panic} : ¬c.Room cfg v → e = .tooLarge ∨ e = .outOfMemory →
      XInstr.May cfg v (.base c) (.error e)
  /-- A variable that holds nothing.  (The Rust compiler rejects this.) -/
  | undefined {c : MInstr} : ¬c.Defined v → XInstr.May cfg v (.base c) (.error .unwrap)
  /-- Some coefficients within the documented bounds. -/
  | uextGcd {d x y a b g : Nat} {p q : Int} : ¬(v.n.u a = 0 ∧ v.n.u b = 0) → Bezout g p q (v.n.u a) (v.n.u b) →
      XInstr.May cfg v (.uextGcd d x y a b) (.ok ({ v with n := ((v.n.setU d g).setI x p).setI y q }, []))
  | uextGcdZero {d x y a b : Nat} : v.n.u a = 0 → v.n.u b = 0 →
      XInstr.May cfg v (.uextGcd d x y a b) (.error .gcdZero)
  | uextGcdLimit {d x y a b : Nat} : ¬Fits cfg (2 * max (v.n.u a) (v.n.u b)) →
      XInstr.May cfg v (.uextGcd d x y a b) (.error .tooLarge)
  | iextGcd {d x y a b : Nat} {p q : Int} : ¬(v.n.i a = 0 ∧ v.n.i b = 0) →
      p * v.n.i a + q * v.n.i b = Int.gcd (v.n.i a) (v.n.i b) →
      p.natAbs ≤ max (v.n.i b).natAbs 1 → q.natAbs ≤ max (v.n.i a).natAbs 1 →
      XInstr.May cfg v (.iextGcd d x y a b)
        (.ok ({ v with n := ((v.n.setI d (Int.gcd (v.n.i a) (v.n.i b))).setI x p).setI y q }, []))
  | iextGcdZero {d x y a b : Nat} : v.n.i a = 0 → v.n.i b = 0 →
      XInstr.May cfg v (.iextGcd d x y a b) (.error .gcdZero)
  | iextGcdLimit {d x y a b : Nat} : ¬Fits cfg (2 * max (v.n.i a).natAbs (v.n.i b).natAbs) →
      XInstr.May cfg v (.iextGcd d x y a b) (.error .tooLarge)
  /-- Writing and reading back copies a number; its base-`2^64` digits are seen. -/
  | userde {k : Bool} {d a : Nat} :
      XInstr.May cfg v (.userde k d a) (.ok ({ v with n := v.n.setU d (v.n.u a) },
        [.nat (Nat.digits (2 ^ 64) (v.n.u a)).length, .list (Nat.digits (2 ^ 64) (v.n.u a))]))
  | iserde {k : Bool} {d a : Nat} :
      XInstr.May cfg v (.iserde k d a) (.ok ({ v with n := v.n.setI d (v.n.i a) },
        [.bool (decide (v.n.i a < 0)), .nat (Nat.digits (2 ^ 64) (v.n.i a).natAbs).length,
         .list (Nat.digits (2 ^ 64) (v.n.i a).natAbs)]))
  /-- Data from elsewhere. -/
  | uread {k : Bool} {d : Nat} {es : List Nat} :
      XInstr.May cfg v (.uread k d es) (.ok ({ v with n := v.n.setU d (Nat.ofDigits (2 ^ 64) es) }, []))
  | ureadLimit {k : Bool} {d : Nat} {es : List Nat} :
      ¬Fits cfg (Nat.ofDigits (2 ^ 64) es) ∨ cfg.maxLen + 4 < es.length * (64 / cfg.W) →
      XInstr.May cfg v (.uread k d es) (.error .tooLarge)
  | iread {k : Bool} {d : Nat} {sign : Sign} {es : List Nat} :
      XInstr.May cfg v (.iread k d sign es)
        (.ok ({ v with n := v.n.setI d (sign.toInt * (Nat.ofDigits (2 ^ 64) es : Nat)) }, []))
  | ireadLimit {k : Bool} {d : Nat} {sign : Sign} {es : List Nat} :
      ¬Fits cfg (Nat.ofDigits (2 ^ 64) es) ∨ cfg.maxLen + 4 < es.length * (64 / cfg.W) →
      XInstr.May cfg v (.iread k d sign es) (.error .tooLarge)
  /-- A number in the range. -/
  | urand {k : Bool} {d low high n : Nat} : v.n.u low ≤ n → n < v.n.u high + (if k then 1 else 0) →
      XInstr.May cfg v (.urand k d low high) (.ok ({ v with n := v.n.setU d n }, []))
  | irand {k : Bool} {d low high : Nat} {z : Int} : v.n.i low ≤ z → z < v.n.i high + (if k then 1 else 0) →
      XInstr.May cfg v (.irand k d low high) (.ok ({ v with n := v.n.setI d z }, []))
  /-- An empty range. -/
  | urandEmpty {d low high : Nat} : v.n.u low = v.n.u high → XInstr.May cfg v (.urand false d low high) (.error .emptyRange)
  | urandNegative {k : Bool} {d low high : Nat} : v.n.u high < v.n.u low →
      XInstr.May cfg v (.urand k d low high) (.error .negativeUBig)
  | irandEmpty {k : Bool} {d low high : Nat} : v.n.i high + (if k then 1 else 0) ≤ v.n.i low →
      XInstr.May cfg v (.irand k d low high) (.error .emptyRange)
  /-- A range with more elements than the largest number. -/
  | urandLimit {d low high : Nat} : ¬Fits cfg (v.n.u high - v.n.u low + 1) →
      XInstr.May cfg v (.urand true d low high) (.error .tooLarge)
  | irandLimit {k : Bool} {d low high : Nat} :
      ¬Fits cfg (v.n.i high - v.n.i low).natAbs ∨ k = true ∧ ¬Fits cfg (v.n.i high - v.n.i low + 1).natAbs →
      XInstr.May cfg v (.irand k d low high) (.error .tooLarge)

/-- The variables after a panic. -/
def XInstr.mathLeaves (v : MathState) : XInstr → MathState
  | .base c => c.mathLeaves v
  | _ => v

/-- `MathRun cfg next v tr w`: the program that decides by `next`, started with the variables `v`, is permitted to do `tr`
and then have the variables `w`. -/
inductive MathRun (cfg : Cfg) (next : List Event → XInstr → Prop) (v : MathState) : List Event → MathState → Prop
  | start : MathRun cfg next v [] v
  | step {tr : List Event} {w w' : MathState} {c : XInstr} {o : List Obs} : MathRun cfg next v tr w → next tr c →
      c.May cfg w (.ok (w', o)) → MathRun cfg next v (tr ++ [⟨c, o, none⟩]) w'
  | panic {tr : List Event} {w : MathState} {c : XInstr} {e : Panic} : MathRun cfg next v tr w → next tr c →
      c.May cfg w (.error e) → MathRun cfg next v (tr ++ [⟨c, [], some e⟩]) (c.mathLeaves w)

/-- The arguments are values of their types. -/
def XInstr.OK (cfg : Cfg) : XInstr → Prop
  | .base c => c.OK cfg
  | .uread _ _ es | .iread _ _ _ es => ∀ e ∈ es, e < 2 ^ 64
  | _ => True

end Ibig
