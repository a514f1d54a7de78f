import Verif.Spec.Float
import Mathlib.Order.WithBot
import Mathlib.Algebra.Order.Ring.Int
/-!
# The number a floating point bit pattern stands for (specification)

The numbers are the rationals together with `⊤` (plus infinity) and `⊥` (minus infinity). -/
namespace Ibig

/-- The number represented by a bit pattern that is not a NaN: without the sign bit it is the rational of
`FloatFmt.toRat`, or plus infinity; with the sign bit it is the negative of that, or minus infinity. -/
def FloatFmt.number (f : FloatFmt) (bits : Nat) : WithBot (WithTop ℚ) :=
  if bits < f.signBit then
    if bits < f.inf then ((f.toRat bits : ℚ) : WithTop ℚ) else (⊤ : WithTop ℚ)
  else
    if bits - f.signBit < f.inf then ((-f.toRat (bits - f.signBit) : ℚ) : WithTop ℚ) else ⊥

/-- A rational as one of those numbers. -/
def ofRat (q : ℚ) : WithBot (WithTop ℚ) := (q : WithTop ℚ)

/-- The bit pattern of the float nearest to the integer `z`, ties to even, with the sign bit set exactly if
`z` is negative. -/
def FloatFmt.NearestInt (f : FloatFmt) (z : Int) (bits : Nat) : Prop :=
  ∃ b, bits = (if z < 0 then f.signBit + b else b) ∧ f.Nearest z.natAbs b

end Ibig
