import Mathlib.Data.Nat.GCD.Basic
/-! Specification of extended greatest common divisors. -/
namespace Ibig

/-- What the documentation of `extended_gcd` promises about `(g, x, y)` (/repo/src/gcd.rs:57-62):
`g` is the greatest common divisor, `x*a + y*b = g`, `|x| ≤ max(b, 1)` and `|y| ≤ max(a, 1)`. -/
structure Bezout (g : Nat) (x y : Int) (a b : Nat) : Prop where
  gcd : g = Nat.gcd a b
  eq : x * a + y * b = g
  x_le : x.natAbs ≤ max b 1
  y_le : y.natAbs ≤ max a 1

end Ibig
