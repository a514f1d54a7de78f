import Verif.Model.MulOps
import Verif.Model.ShiftOps
import Verif.Model.Modular
/-! Second versions of the functions whose double-word arithmetic the model computes with unlimited integers: here each
operation is checked as in a build with overflow checks, and a shift loses the bits beyond the type, as in Rust.
`Props/Checked.lean` shows that they agree with the first versions. -/
namespace Ibig.Checked

/-- `x << s` in a double word: a shift by the width or more is an overflow; bits beyond the type are lost. -/
def shlDouble (W x s : Nat) : R Nat := if s < 2 * W then .ok (x * 2 ^ s % 2 ^ (2 * W)) else .error .overflow

/-- loop of /repo/src/mul/mod.rs:42-48: `extend_word(*a) * extend_word(rhs) + extend_word(carry)` -/
def mulWordLoop (W rhs : Nat) : List Nat → Nat → R (List Nat × Nat)
  | [], carry => .ok ([], carry)
  | a :: as, carry => do
    let p ← ckMul (2 * W) a rhs
    let v ← ckAdd (2 * W) p carry
    let (lo, hi) := splitDoubleWord W v
    let (r, c) ← mulWordLoop W rhs as hi
    .ok (lo :: r, c)

/-- loop of /repo/src/mul/mod.rs:58-67: `extend_word(*a) + extend_word(carry) + extend_word(mult) * extend_word(*b)` -/
def addMulWordLoop (W mult : Nat) : List Nat → List Nat → Nat → R (List Nat × Nat)
  | a :: as, b :: bs, carry => do
    let s ← ckAdd (2 * W) a carry
    let p ← ckMul (2 * W) mult b
    let v ← ckAdd (2 * W) s p
    let (lo, hi) := splitDoubleWord W v
    let (r, c) ← addMulWordLoop W mult as bs hi
    .ok (lo :: r, c)
  | as, _, carry => .ok (as, carry)

/-- loop of /repo/src/mul/mod.rs:93-106, with every operation checked -/
def subMulWordLoop (W mult : Nat) : List Nat → List Nat → Nat → R (List Nat × Nat)
  | a :: as, b :: bs, cpm => do
    let s ← ckAdd (2 * W) a cpm
    let m ← ckSub (doubleWord W 0 (base W - 1)) (base W - 1)
    let x ← ckAdd (2 * W) s m
    let p ← ckMul (2 * W) mult b
    let v ← ckSub x p
    let (lo, hi) := splitDoubleWord W v
    let (r, c) ← subMulWordLoop W mult as bs hi
    .ok (lo :: r, c)
  | as, _, cpm => .ok (as, cpm)

/-- loop of /repo/src/shift.rs:15-21: `extend_word(*word) << shift` -/
def shlLoop (W s : Nat) : List Nat → Nat → R (List Nat × Nat)
  | [], carry => .ok ([], carry)
  | w :: ws, carry => do
    let d ← shlDouble W w s
    let (newWord, newCarry) := splitDoubleWord W d
    let (r, c) ← shlLoop W s ws newCarry
    .ok ((newWord ||| carry) :: r, c)

/-- /repo/src/fast_divide.rs:61-82 `FastDivideSmall::div_rem`, with the product checked as well -/
def fastDivideSmall (W : Nat) (fd : FastDivideSmall) (a : Nat) : R (Nat × Nat) := do
  let p ← ckMul (2 * W) fd.m a
  let (_, t) := splitDoubleWord W p
  let x ← ckSub a t
  let h ← shrW W x 1
  let y ← ckAdd W t h
  let q ← shrW W y fd.shift
  let z ← ckMul W q fd.divisor
  let r ← ckSub a z
  .ok (q, r)

/-- /repo/src/fast_divide.rs:145: the product in `FastDivideNormalized::div_rem`, checked -/
def fastDivideProduct (W : Nat) (fd : FastDivideNormalized) (a : Nat) : R Nat := do
  let p ← ckMul (2 * W) fd.m (splitDoubleWord W a).2
  ckAdd (2 * W) p a

/-- `while` loop of /repo/src/div/simple.rs:65-71, with `extend_word(q) * extend_word(rhs1)` and `q -= 1` checked;
the first number bounds the iterations -/
def refineQ (W rhs0 rhs1 lhs2 : Nat) : Nat → Nat → Nat → R Nat
  | 0, _, _ => .error .fuel
  | fuel + 1, q, r => do
    let p ← ckMul (2 * W) q rhs1
    if doubleWord W lhs2 r < p then do
      let q ← ckSub q 1
      if r + rhs0 < base W then refineQ W rhs0 rhs1 lhs2 fuel q (r + rhs0) else .ok q
    else .ok q

/-- /repo/src/mul_ops.rs:304-306 `mul_word`: the product of two words as a double word, checked -/
def mulWord (cfg : Cfg) (a b : Nat) : R UBig := do
  let p ← ckMul (2 * cfg.W) a b
  UBig.fromUnsigned cfg (2 * cfg.W) p

/-- /repo/src/modular/mul.rs:83-90 `ModuloSmallRaw::mul`: multiplication in a ring with a modulus of one word, with the product checked -/
def ringSmallMul (W : Nat) (r : RingSmall) (a b : Nat) : R Nat := do
  assertR (r.isValid W a = true ∧ r.isValid W b = true)
  let x ← shrW W a r.shift
  let p ← ckMul (2 * W) x b
  let (_, rem) ← r.fd.divRem W p
  .ok rem

end Ibig.Checked
