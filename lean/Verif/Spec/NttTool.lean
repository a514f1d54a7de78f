import Mathlib.Data.Nat.Prime.Basic
import Mathlib.Data.Finset.Filter
import Mathlib.Data.ZMod.Basic
import Mathlib.GroupTheory.OrderOfElement
import Mathlib.Order.Interval.Finset.Nat
import Verif.Spec.Number
/-! # Specification: which primes the program looks for -/
namespace Ibig

/-- The primes below `2^bits` of the form `k * 2^order + 1`. -/
def nttCandidates (bits order : Nat) : Finset Nat :=
  {p ∈ Finset.range (2 ^ bits) | p.Prime ∧ p % 2 ^ order = 1}

/-- `r` is the least positive number with `r^(2^(order-1)) = -1` modulo `p`. -/
def IsLeastRoot (p order r : Nat) : Prop :=
  1 ≤ r ∧ r ^ 2 ^ (order - 1) % p = p - 1 ∧ ∀ x, 1 ≤ x → x < r → x ^ 2 ^ (order - 1) % p ≠ p - 1

/-- `b` proves that `mult * 2^order + 1` is not prime: none of the numbers `b^mult`, `b^(2 mult)`, ...,
`b^(2^(order-1) mult)` is -1, and the first is not 1. -/
def IsWitness (mult order b : Nat) : Prop :=
  b ^ mult % (mult * 2 ^ order + 1) ≠ 1 ∧ ∀ j < order, b ^ (mult * 2 ^ j) % (mult * 2 ^ order + 1) ≠ mult * 2 ^ order

/-- All draws for the test of a candidate are in the range `1..n` from which they are drawn. -/
def DrawsOK (cfg : Cfg) (draw : Nat → UBig → Nat → UBig) : Prop :=
  ∀ (order : Nat) (mult : UBig) (i : Nat), mult.WF cfg → 1 ≤ mult.value cfg →
    (draw order mult i).WF cfg ∧ 1 ≤ (draw order mult i).value cfg ∧
    (draw order mult i).value cfg < mult.value cfg * 2 ^ order + 1

/-- Some candidate below `2^bits` was not decided within `t` draws: it is prime, and none of the draws was a generator
modulo that prime; or it is not prime, and none of the draws proves that. -/
def NotDecided (cfg : Cfg) (draw : Nat → UBig → Nat → UBig) (t bits : Nat) : Prop :=
  ∃ (order : Nat) (mult : UBig), 1 ≤ order ∧ order < bits ∧ mult.WF cfg ∧ mult.value cfg % 2 = 1 ∧
    mult.value cfg < 2 ^ (bits - order) ∧
    ((mult.value cfg * 2 ^ order + 1).Prime ∧ (∀ i < t,
        orderOf ((draw order mult i).value cfg : ZMod (mult.value cfg * 2 ^ order + 1)) ≠ mult.value cfg * 2 ^ order) ∨
      ¬(mult.value cfg * 2 ^ order + 1).Prime ∧ ∀ i < t,
        ¬IsWitness (mult.value cfg) order ((draw order mult i).value cfg))

end Ibig
