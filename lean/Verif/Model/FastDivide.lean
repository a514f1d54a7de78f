import Verif.Model.Prim
/-! Model of /repo/src/fast_divide.rs. -/
namespace Ibig

/-- `Word::leading_zeros` -/
def leadingZeros (W x : Nat) : Nat := W - bitLen x

/-- /repo/src/math.rs:80-89 `ones_word`: `2^n - 1` for `n ≤ W` -/
def onesWord (W n : Nat) : Nat := if n = 0 then 0 else (base W - 1) / 2 ^ (W - n)

/-- /repo/src/fast_divide.rs:14-25 `struct FastDivideSmall` -/
structure FastDivideSmall where
  divisor : Nat
  shift : Nat
  m : Nat
deriving Repr, DecidableEq

/-- /repo/src/fast_divide.rs:29-57 `FastDivideSmall::new` -/
def FastDivideSmall.new (W divisor : Nat) : R FastDivideSmall := do
  assertR (1 < divisor)
  let n ← ceilLog2 divisor
  let x ← ckSub (onesWord W n) (divisor - 1)
  let (lo, _hi) := splitDoubleWord W (doubleWord W 0 x / divisor)
  let shift ← ckSub n 1
  let m ← ckAdd W lo 1
  .ok { divisor, shift, m }

/-- /repo/src/fast_divide.rs:61-82 `FastDivideSmall::div_rem`.
Simplification: the double-word arithmetic is not checked for overflow (see `C66_fast_divide_small`). -/
def FastDivideSmall.divRem (W : Nat) (fd : FastDivideSmall) (a : Nat) : R (Nat × Nat) := do
  let (_, t) := splitDoubleWord W (fd.m * a)
  let x ← ckSub a t
  let y ← ckAdd W t (x / 2)
  let q := y / 2 ^ fd.shift
  let z ← ckMul W q fd.divisor
  let r ← ckSub a z
  .ok (q, r)

/-- /repo/src/fast_divide.rs:101-107 `struct FastDivideNormalized` -/
structure FastDivideNormalized where
  divisor : Nat
  m : Nat
deriving Repr, DecidableEq

/-- /repo/src/fast_divide.rs:114-124 `FastDivideNormalized::new` -/
def FastDivideNormalized.new (W divisor : Nat) : R FastDivideNormalized := do
  assertR (leadingZeros W divisor = 0)
  let (m, hi) := splitDoubleWord W ((base W * base W - 1) / divisor)
  assertR (hi = 1)
  .ok { divisor, m }

/-- /repo/src/fast_divide.rs:127-133 `FastDivideNormalized::div_rem_word` -/
def FastDivideNormalized.divRemWord (fd : FastDivideNormalized) (a : Nat) : Nat × Nat :=
  if a < fd.divisor then (0, a) else (1, a - fd.divisor)

/-- `wrapping_sub` in a type with `M` values -/
def wrappingSub (M a b : Nat) : Nat := (a + M - b) % M

/-- /repo/src/fast_divide.rs:138-199 `FastDivideNormalized::div_rem`.
Simplification: the double-word arithmetic is not checked for overflow (see `C66_fast_divide_normalized`). -/
def FastDivideNormalized.divRem (W : Nat) (fd : FastDivideNormalized) (a : Nat) : R (Nat × Nat) := do
  let B := base W
  let d := fd.divisor
  let (a_lo, a_hi) := splitDoubleWord W a
  assertR (a_hi < d)
  let p ← ckAdd (2 * W) (fd.m * a_hi) a
  let (q0, q1) := splitDoubleWord W p
  let q := (q1 + 1) % B
  let r := wrappingSub B a_lo (q * d % B)
  let (_, decrease) := splitDoubleWord W (wrappingSub (B * B) q0 r)
  let q := (q + decrease) % B
  let r := (r + (decrease &&& d)) % B
  let (_, increase) := splitDoubleWord W (wrappingSub (B * B) r d)
  let increase := B - 1 - increase
  let q := wrappingSub B q increase
  let r := wrappingSub B r (increase &&& d)
  .ok (q, r)

end Ibig
