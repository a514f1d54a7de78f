import Verif.Spec.Rand
/-! # Specification: the expected number of random words drawn -/
namespace Ibig

open Finset in
/-- The expected number of draws that a random computation makes. -/
def Draw.draws {α : Type} : Draw α → ℚ
  | .ret _ => 0
  | .fail _ => 0
  | .draw m k => 1 + (∑ n ∈ range m, (k n).draws) / m

end Ibig
