import Verif.Model.UBig
/-!
# Agreement between functions of the crate (specification)
-/
namespace Ibig

/-- Two computations agree: both panic, in the same way, or both return, and the results are equal by `==`. -/
def Agree (x y : R UBig) : Prop :=
  (∃ p, x = .error p ∧ y = .error p) ∨ ∃ c d, x = .ok c ∧ y = .ok d ∧ c.beq d = true

/-- Shorter sequences come before longer ones, and sequences of the same length are in lexicographic order. -/
def Precedes (s t : List Nat) : Prop := s.length < t.length ∨ s.length = t.length ∧ s < t

end Ibig
