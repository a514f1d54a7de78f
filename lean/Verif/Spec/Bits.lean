import Mathlib.Algebra.Order.Ring.Int
import Mathlib.Tactic.Ring
import Mathlib.Tactic.Linarith
/-! Specification of two's complement bits. -/
namespace Ibig

/-- Bit `i` of the infinite two's complement representation of `z` (floor division). -/
def ibit (z : Int) (i : Nat) : Bool := decide (z / 2 ^ i % 2 = 1)

end Ibig
