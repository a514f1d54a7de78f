import Verif.Model.Rand
import Mathlib.Algebra.BigOperators.Group.Finset.Basic
import Mathlib.Data.Rat.Defs
import Mathlib.Algebra.Order.Ring.Rat
import Mathlib.Algebra.BigOperators.Fin
/-!
# Specification: probabilities

The meaning of a random computation: each draw below `m` takes each of the `m` values with probability `1/m`,
independently of the others.
-/
namespace Ibig

open Finset in
/-- The expected value of `f` of the result (a panic counts as 0). -/
def Draw.exp {α : Type} (f : α → ℚ) : Draw α → ℚ
  | .ret a => f a
  | .fail _ => 0
  | .draw m k => (∑ n ∈ range m, (k n).exp f) / m

open Classical in
/-- The probability that the computation returns a result in `S`. -/
noncomputable def Draw.prob {α : Type} (d : Draw α) (S : α → Prop) : ℚ := d.exp fun a => if S a then 1 else 0

/-- Whatever numbers are drawn, the computation does not panic, never asks for a number from an empty range,
and returns a result in `P`. -/
def Draw.All {α : Type} (P : α → Prop) : Draw α → Prop
  | .ret a => P a
  | .fail _ => False
  | .draw m k => 0 < m ∧ ∀ n < m, (k n).All P

/-- `sample t` is a random computation that gives up (`none`) after `t` failed attempts.  It is uniform on the
integers `v` with `low ≤ v < high` if
- it never panics and every result is well-formed and in the range,
- an attempt fails with the same probability `q ≤ 1/2` every time, independently: the probability of not having
  finished after `t` attempts is `q^t`,
- all numbers in the range have the same probability (so `(1 - q^t) / (high - low)` each). -/
def UniformOn {α : Type} (sample : Nat → Draw (Option α)) (wf : α → Prop) (value : α → Int) (low high : Int) : Prop :=
  ∃ q : ℚ, 0 ≤ q ∧ q ≤ 1 / 2 ∧ ∀ t, 1 ≤ t →
    (sample t).All (fun o => ∀ y, o = some y → wf y ∧ low ≤ value y ∧ value y < high) ∧
    (sample t).prob (fun o => o = none) = q ^ t ∧
    ∀ v, low ≤ v → v < high →
      (sample t).prob (fun o => ∃ y, o = some y ∧ value y = v) = (1 - q ^ t) / (high - low)

end Ibig
