import Mathlib.Algebra.Order.Field.Basic
import Mathlib.Algebra.Order.Field.Rat
import Mathlib.Algebra.Field.Rat
/-!
# IEEE 754 binary floating point (specification)

A non-negative float is given by its bit pattern (exponent field, then mantissa field). -/
namespace Ibig

/-- A binary interchange format: number of mantissa bits, and the exponent bias. -/
structure FloatFmt where
  mant : Nat
  bias : Nat
deriving DecidableEq, Repr

/-- `f32`: 1 sign bit, 8 exponent bits, 23 mantissa bits -/
def f32 : FloatFmt := ⟨23, 127⟩
/-- `f64`: 1 sign bit, 11 exponent bits, 52 mantissa bits -/
def f64 : FloatFmt := ⟨52, 1023⟩

/-- Bit pattern of `+∞`: the exponent field is all ones (`2*bias+1`), the mantissa is zero. Smaller bit
patterns are the finite non-negative floats. -/
def FloatFmt.inf (f : FloatFmt) : Nat := (2 * f.bias + 1) * 2 ^ f.mant

/-- Bit pattern of the sign bit. -/
def FloatFmt.signBit (f : FloatFmt) : Nat := (2 * f.bias + 2) * 2 ^ f.mant

/-- The number represented by a finite non-negative bit pattern: `m·2^(1-bias-mant)` for a zero exponent
field (subnormal), and `(2^mant + m)·2^(e-bias-mant)` otherwise. -/
def FloatFmt.toRat (f : FloatFmt) (bits : Nat) : ℚ :=
  if bits / 2 ^ f.mant = 0 then ((bits % 2 ^ f.mant : ℕ) : ℚ) * (2 : ℚ) ^ (1 - f.bias - f.mant : ℤ)
  else ((2 ^ f.mant + bits % 2 ^ f.mant : ℕ) : ℚ) *
    (2 : ℚ) ^ ((bits / 2 ^ f.mant : ℕ) - f.bias - f.mant : ℤ)

/-- The least number that rounds to infinity: halfway between the largest finite float,
`2^(bias+1) - 2^(bias-mant)`, and `2^(bias+1)`. -/
def FloatFmt.overflow (f : FloatFmt) : Nat := 2 ^ (f.bias + 1) - 2 ^ (f.bias - f.mant - 1)

/-- `bits` is the float nearest to `n`, ties going to the float with even last bit; infinity if `n` is at or
beyond the overflow threshold. -/
def FloatFmt.Nearest (f : FloatFmt) (n bits : Nat) : Prop :=
  (n < f.overflow → bits < f.inf ∧ ∀ b < f.inf, b ≠ bits →
    |f.toRat bits - n| < |f.toRat b - n| ∨ (|f.toRat bits - n| = |f.toRat b - n| ∧ bits % 2 = 0)) ∧
  (f.overflow ≤ n → bits = f.inf)

end Ibig
