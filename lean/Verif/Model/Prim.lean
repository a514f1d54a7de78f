/-!
# Primitive layer: panics, signs, words

Words are natural numbers `< 2^W`, where `W` is the number of bits of the build's `Word`
(16, 32 or 64, chosen in /repo/src/arch/mod.rs:11-67).  Slices are little-endian `List Nat`.
-/
namespace Ibig

/-- Every way in which a modelled function can fail instead of returning.
The first group are the crate's documented panics, the second group are internal failures which the
theorems show to be impossible. -/
inductive Panic where
  /-- /repo/src/ubig.rs `panic_negative`: "negative UBig" -/
  | negativeUBig
  /-- /repo/src/div_ops.rs:1646 `panic_divide_by_0` -/
  | divideByZero
  /-- /repo/src/ubig.rs `panic_number_too_large` -/
  | tooLarge
  /-- /repo/src/gcd.rs: "the greatest common divisor is not defined between zeros" -/
  | gcdZero
  /-- /repo/src/radix.rs:24-28 `check_radix_valid`: "Invalid radix" -/
  | radixOutOfRange
  /-- /repo/src/modular/modulo.rs `panic_different_rings` -/
  | differentRings
  /-- /repo/src/modular/div.rs: division by a non-invertible `Modulo` -/
  | notInvertible
  /-- /repo/src/rand.rs: empty range -/
  | emptyRange
  /-- /repo/src/memory.rs:187 `panic_out_of_memory` -/
  | outOfMemory
  /-- /repo/src/memory.rs:191 `panic_allocated_too_little` -/
  | allocatedTooLittle
  /-- a failed `assert!` or `debug_assert!` -/
  | assertFailed
  /-- arithmetic overflow (debug build) -/
  | overflow
  /-- slice index out of range / `split_at` past the end -/
  | index
  /-- `unwrap`/`expect` on `None`/`Err` -/
  | unwrap
  /-- the model's loop bound was exhausted (would be non-termination) -/
  | fuel
deriving DecidableEq, Repr

/-- Result of running code that may panic. -/
abbrev R (α : Type) := Except Panic α

/-- `assert!(p)` -/
def assertR (p : Prop) [Decidable p] : R Unit :=
  if p then .ok () else .error .assertFailed

/-- /repo/src/sign.rs:10-16 `enum Sign` -/
inductive Sign where
  | pos
  | neg
deriving DecidableEq, Repr

/-- Numeric meaning of a sign (specification). -/
def Sign.toInt : Sign → Int
  | .pos => 1
  | .neg => -1

/-- /repo/src/sign.rs:19-29 `impl Neg for Sign` -/
def Sign.negate : Sign → Sign
  | .pos => .neg
  | .neg => .pos

/-- /repo/src/mul_ops.rs:141-153 `impl Mul<Sign> for Sign` -/
def Sign.mul : Sign → Sign → Sign
  | .pos, .pos => .pos
  | .pos, .neg => .neg
  | .neg, .pos => .neg
  | .neg, .neg => .pos

/-- `2^W`: number of values of a `Word`, i.e. `Word::MAX + 1`. -/
def base (W : Nat) : Nat := 2 ^ W

/-- Value of a little-endian word sequence (specification). -/
def val (W : Nat) : List Nat → Nat
  | [] => 0
  | x :: xs => x + base W * val W xs

/-- Every element fits in a `Word` (the type invariant of `[Word]`). -/
def IsWords (W : Nat) (l : List Nat) : Prop := ∀ x ∈ l, x < base W

/-- `Word::overflowing_add` -/
def overflowingAdd (W a b : Nat) : Nat × Bool := ((a + b) % base W, decide (base W ≤ a + b))

/-- `Word::overflowing_sub` -/
def overflowingSub (W a b : Nat) : Nat × Bool := ((a + base W - b) % base W, decide (a < b))

/-- /repo/src/arch/generic/add.rs:7-11 `add_with_carry` -/
def addWithCarry (W a b : Nat) (carry : Bool) : Nat × Bool :=
  let (sum, c0) := overflowingAdd W a b
  let (sum, c1) := overflowingAdd W sum carry.toNat
  (sum, c0 || c1)

/-- /repo/src/arch/generic/add.rs:17-21 `sub_with_borrow` -/
def subWithBorrow (W a b : Nat) (borrow : Bool) : Nat × Bool :=
  let (diff, b0) := overflowingSub W a b
  let (diff, b1) := overflowingSub W diff borrow.toNat
  (diff, b0 || b1)

/-- /repo/src/primitive.rs:27-29 `split_double_word`: (low, high) -/
def splitDoubleWord (W d : Nat) : Nat × Nat := (d % base W, d / base W)

/-- /repo/src/primitive.rs:22-24 `double_word` (low, high are words, so `|` is `+`) -/
def doubleWord (W lo hi : Nat) : Nat := lo + base W * hi

/-- Checked (debug-build) addition in a type with `bits` bits. -/
def ckAdd (bits a b : Nat) : R Nat := if a + b < 2 ^ bits then .ok (a + b) else .error .overflow

/-- Checked (debug-build) subtraction of unsigned integers. -/
def ckSub (a b : Nat) : R Nat := if b ≤ a then .ok (a - b) else .error .overflow

/-- Checked (debug-build) multiplication in a type with `bits` bits. -/
def ckMul (bits a b : Nat) : R Nat := if a * b < 2 ^ bits then .ok (a * b) else .error .overflow

/-- Checked (debug-build) result of an addition or subtraction in a signed type with `bits` bits. -/
def ckInt (bits : Nat) (x : Int) : R Int :=
  if -(2 ^ (bits - 1)) ≤ x ∧ x < 2 ^ (bits - 1) then .ok x else .error .overflow

/-- `slice.split_at(n)` / `split_at_mut(n)`; panics if `n > len`. -/
def splitR (l : List Nat) (n : Nat) : R (List Nat × List Nat) :=
  if n ≤ l.length then .ok (l.take n, l.drop n) else .error .index

/-- `slice[i]` -/
def getR (l : List Nat) (i : Nat) : R Nat :=
  match l[i]? with
  | some x => .ok x
  | none => .error .index

/-- `slice[i] = x` -/
def setR (l : List Nat) (i x : Nat) : R (List Nat) :=
  if i < l.length then .ok (l.set i x) else .error .index

/-- `&slice[i..j]` -/
def sliceR (l : List Nat) (i j : Nat) : R (List Nat) :=
  if i ≤ j ∧ j ≤ l.length then .ok ((l.take j).drop i) else .error .index

/-- Run an in-place operation on `&mut c[i..j]`, writing the result back. -/
def onSlice {α : Type} (c : List Nat) (i j : Nat) (f : List Nat → R (List Nat × α)) :
    R (List Nat × α) := do
  let s ← sliceR c i j
  let (s', k) ← f s
  .ok (c.take i ++ s' ++ c.drop j, k)

/-- /repo/src/math.rs:7-16 `bit_len`, `bit_len_word`: least `n` with `x < 2^n`. -/
def bitLen (x : Nat) : Nat := if x = 0 then 0 else Nat.log2 x + 1

/-- /repo/src/math.rs:19-33 `ceil_log_2`, `ceil_log_2_word` -/
def ceilLog2 (x : Nat) : R Nat :=
  if x = 0 then .error .assertFailed else .ok (bitLen (x - 1))

/-- /repo/src/math.rs:35-53 `ceil_div` -/
def ceilDiv (a b : Nat) : Nat := if a = 0 then 0 else (a - 1) / b + 1

/-- /repo/src/math.rs:55-65 `round_up` -/
def roundUp (a b : Nat) : Nat := ceilDiv a b * b

end Ibig
