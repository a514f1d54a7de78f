import Verif.Spec.Rand
import Verif.Model.RandTime
/-! # Specification: the expected number of steps of a random computation -/
namespace Ibig

/-- The expected number of steps. -/
def TDraw.meanSteps {α : Type} (d : TDraw α) : ℚ := Draw.exp (fun p => (p.2 : ℚ)) d

end Ibig
