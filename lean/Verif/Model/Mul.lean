import Verif.Model.Add
import Verif.Model.Memory
import Verif.Model.DivWord
/-!
Model of /repo/src/mul/{mod,simple,helpers,karatsuba,toom_3}.rs.

`SignedWord` carries are `Int`; every addition of carries is range-checked (`ckInt W`).  Recursive multiplication is
parameterised by the recursive call (`MulFn`), tied at the end of the file with explicit fuel.
-/
namespace Ibig

/-- /repo/src/mul/mod.rs:15, 20 and /repo/src/mul/simple.rs:15, karatsuba.rs:18, toom_3.rs:26 -/
def mulMaxLenSimple : Nat := 24
def mulMaxLenKaratsuba : Nat := 192
def mulChunkLen : Nat := 1024
def karatsubaMinLen : Nat := 3
def toom3MinLen : Nat := 16

/-- loop of /repo/src/mul/mod.rs:42-48.
Simplification: the double-word arithmetic is not checked for overflow (see `C66_mul_word`). -/
def mulWordLoop (W rhs : Nat) : List Nat → Nat → List Nat × Nat
  | [], carry => ([], carry)
  | a :: as, carry =>
    let (lo, hi) := splitDoubleWord W (a * rhs + carry)
    let (r, c) := mulWordLoop W rhs as hi
    (lo :: r, c)

/-- /repo/src/mul/mod.rs:41-50 `mul_word_in_place_with_carry` -/
def mulWordWithCarry (W : Nat) (words : List Nat) (rhs carry : Nat) : List Nat × Nat :=
  mulWordLoop W rhs words carry

/-- /repo/src/mul/mod.rs:33-35 `mul_word_in_place` -/
def mulWord (W : Nat) (words : List Nat) (rhs : Nat) : List Nat × Nat :=
  mulWordWithCarry W words rhs 0

/-- loop of /repo/src/mul/mod.rs:58-67.
Simplification: the double-word arithmetic is not checked for overflow (see `C66_add_mul_word`). -/
def addMulWordLoop (W mult : Nat) : List Nat → List Nat → Nat → List Nat × Nat
  | a :: as, b :: bs, carry =>
    let (lo, hi) := splitDoubleWord W (a + carry + mult * b)
    let (r, c) := addMulWordLoop W mult as bs hi
    (lo :: r, c)
  | as, _, carry => (as, carry)

/-- /repo/src/mul/mod.rs:56-68 `add_mul_word_same_len_in_place` -/
def addMulWordSameLen (W : Nat) (words : List Nat) (mult : Nat) (rhs : List Nat) :
    R (List Nat × Nat) := do
  assertR (words.length = rhs.length)
  .ok (addMulWordLoop W mult words rhs 0)

/-- /repo/src/mul/mod.rs:74-82 `add_mul_word_in_place` -/
def addMulWord (W : Nat) (words : List Nat) (mult : Nat) (rhs : List Nat) : R (List Nat × Nat) := do
  assertR (rhs.length ≤ words.length)
  let n := rhs.length
  let (words, carry) ← onSlice words 0 n (fun s => addMulWordSameLen W s mult rhs)
  if n < words.length then
    let (words, c) ← onSlice words n words.length (fun s => addWord W s carry)
    .ok (words, c.toNat)
  else .ok (words, carry)

/-- loop of /repo/src/mul/mod.rs:93-106; the last argument is `carry_plus_max`.
Simplification: not every operation is checked for overflow (see `C66_sub_mul_word`). -/
def subMulWordLoop (W mult : Nat) : List Nat → List Nat → Nat → R (List Nat × Nat)
  | a :: as, b :: bs, cpm => do
    let x ← ckAdd (2 * W) (a + cpm) (base W * (base W - 1) - (base W - 1))
    let v ← ckSub x (mult * b)
    let (lo, hi) := splitDoubleWord W v
    let (r, c) ← subMulWordLoop W mult as bs hi
    .ok (lo :: r, c)
  | as, _, cpm => .ok (as, cpm)

/-- /repo/src/mul/mod.rs:88-108 `sub_mul_word_same_len_in_place` -/
def subMulWordSameLen (W : Nat) (words : List Nat) (mult : Nat) (rhs : List Nat) :
    R (List Nat × Nat) := do
  assertR (words.length = rhs.length)
  let (r, cpm) ← subMulWordLoop W mult words rhs (base W - 1)
  let borrow ← ckSub (base W - 1) cpm
  .ok (r, borrow)

/-- The type of `add_signed_mul`-like functions: `c sign a b memory ↦ (c', carry)`. -/
abbrev MulFn := List Nat → Sign → List Nat → List Nat → Nat → R (List Nat × Int)

/-- loop of /repo/src/mul/simple.rs:98-105 (`add_mul_chunk`).
Simplification: sums of lengths are not checked for overflow (see `C66_lengths`). -/
def addMulChunkLoop (W : Nat) (a : List Nat) : List Nat → Nat → List Nat → Bool →
    R (List Nat × Bool)
  | c, _, [], carry => .ok (c, carry)
  | c, i, m :: bs, carry => do
    let (c, carryWord) ← onSlice c i (i + a.length) (fun s => addMulWordSameLen W s m a)
    let x ← getR c (i + a.length)
    let (w, carryNext) := addWithCarry W x carryWord carry
    let c ← setR c (i + a.length) w
    addMulChunkLoop W a c (i + 1) bs carryNext

/-- /repo/src/mul/simple.rs:95-106 `add_mul_chunk`.
Simplification: sums of lengths are not checked for overflow (see `C66_lengths`). -/
def addMulChunk (W : Nat) (c a b : List Nat) : R (List Nat × Bool) := do
  assertR (b.length ≤ a.length ∧ c.length = a.length + b.length)
  assertR (a.length < 2 * mulChunkLen)
  addMulChunkLoop W a c 0 b false

/-- loop of /repo/src/mul/simple.rs:115-122 (`sub_mul_chunk`).
Simplification: sums of lengths are not checked for overflow (see `C66_lengths`). -/
def subMulChunkLoop (W : Nat) (a : List Nat) : List Nat → Nat → List Nat → Bool →
    R (List Nat × Bool)
  | c, _, [], borrow => .ok (c, borrow)
  | c, i, m :: bs, borrow => do
    let (c, borrowWord) ← onSlice c i (i + a.length) (fun s => subMulWordSameLen W s m a)
    let x ← getR c (i + a.length)
    let (w, borrowNext) := subWithBorrow W x borrowWord borrow
    let c ← setR c (i + a.length) w
    subMulChunkLoop W a c (i + 1) bs borrowNext

/-- /repo/src/mul/simple.rs:112-124 `sub_mul_chunk`.
Simplification: sums of lengths are not checked for overflow (see `C66_lengths`). -/
def subMulChunk (W : Nat) (c a b : List Nat) : R (List Nat × Bool) := do
  assertR (b.length ≤ a.length ∧ c.length = a.length + b.length)
  assertR (a.length < 2 * mulChunkLen)
  subMulChunkLoop W a c 0 b false

/-- /repo/src/mul/simple.rs:75-89 `add_signed_mul_chunk`.
Simplification: sums of lengths are not checked for overflow (see `C66_lengths`). -/
def simpleMulChunk (W : Nat) : MulFn := fun c sign a b _mem => do
  assertR (b.length ≤ a.length ∧ c.length = a.length + b.length)
  assertR (a.length ≤ mulChunkLen)
  match sign with
  | .pos =>
    let (c, k) ← addMulChunk W c a b
    .ok (c, (k.toNat : Int))
  | .neg =>
    let (c, k) ← subMulChunk W c a b
    .ok (c, -(k.toNat : Int))

/-- /repo/src/mul/simple.rs:59-69 `simple::add_signed_mul_same_len`.
Simplification: sums of lengths are not checked for overflow (see `C66_lengths`). -/
def simpleMulSameLen (W : Nat) : MulFn := fun c sign a b mem => do
  assertR (a.length = b.length ∧ c.length = a.length + b.length)
  assertR (b.length ≤ mulChunkLen)
  simpleMulChunk W c sign a b mem

/-- loop of /repo/src/mul/helpers.rs:33-40.  `off` is the offset of the current `c` and `a` in the
original slices; result: (whole c, offset, rest of a, carry_n).
Simplification: sums of lengths are not checked for overflow (see `C66_lengths`). -/
def splitChunksLoop (W : Nat) (chunkLen : Nat) (f : MulFn) (sign : Sign) (b : List Nat) (mem : Nat) :
    Nat → List Nat → Nat → List Nat → Int → R (List Nat × Nat × List Nat × Int)
  | 0, _, _, _, _ => .error .fuel
  | fuel + 1, c, off, a, carryN =>
    if chunkLen ≤ a.length then do
      let n := b.length
      let (aLo, aHi) ← splitR a chunkLen
      let (c, k1) ← onSlice c (off + n) (off + (chunkLen + n)) (fun s => addSignedWord W s carryN)
      let (c, k2) ← onSlice c off (off + (chunkLen + n)) (fun s => f s sign aLo b mem)
      let carryN ← ckInt W (k1 + k2)
      splitChunksLoop W chunkLen f sign b mem fuel c (off + chunkLen) aHi carryN
    else .ok (c, off, a, carryN)

/-- /repo/src/mul/helpers.rs:16-49 `add_signed_mul_split_into_chunks`;
`mulRec` is the recursive `mul::add_signed_mul` used for the remainder.
Simplification: sums of lengths are not checked for overflow (see `C66_lengths`). -/
def splitIntoChunks (W : Nat) (mulRec : MulFn) (chunkLen : Nat) (f : MulFn) : MulFn :=
  fun c sign a b mem => do
    assertR (b.length ≤ a.length ∧ c.length = a.length + b.length)
    assertR (b.length ≤ chunkLen)
    let n := b.length
    let (c, off, a, carryN) ← splitChunksLoop W chunkLen f sign b mem (a.length + 1) c 0 a 0
    let (c, carry) ← onSlice c (off + n) c.length (fun s => addSignedWord W s carryN)
    if b.length ≤ a.length then
      let (c, k) ← onSlice c off c.length (fun s => mulRec s sign a b mem)
      let carry ← ckInt W (carry + k)
      .ok (c, carry)
    else if a ≠ [] then
      let (c, k) ← onSlice c off c.length (fun s => mulRec s sign b a mem)
      let carry ← ckInt W (carry + k)
      .ok (c, carry)
    else .ok (c, carry)

/-- /repo/src/mul/simple.rs:31-53 `simple::add_signed_mul`.
Simplification: sums of lengths are not checked for overflow (see `C66_lengths`). -/
def simpleMul (W : Nat) (mulRec : MulFn) : MulFn := fun c sign a b mem => do
  assertR (b.length ≤ a.length ∧ c.length = a.length + b.length)
  assertR (b.length ≤ mulChunkLen)
  if a.length ≤ mulChunkLen then simpleMulChunk W c sign a b mem
  else splitIntoChunks W mulRec mulChunkLen (simpleMulChunk W) c sign a b mem

/-- /repo/src/mul/karatsuba.rs:68-129 `karatsuba::add_signed_mul_same_len`;
`rec` is `mul::add_signed_mul_same_len`.
Simplification: sums of lengths are not checked for overflow (see `C66_lengths`). -/
def karatsubaSameLen (W : Nat) (rec : MulFn) : MulFn := fun c sign a b mem => do
  let n := a.length
  assertR (b.length = n ∧ c.length = 2 * n)
  assertR (karatsubaMinLen ≤ n)
  let mid := (n + 1) / 2
  let (a_lo, a_hi) ← splitR a mid
  let (b_lo, b_hi) ← splitR b mid
  -- c_0 += a_lo * b_lo; c_1 += a_lo * b_lo
  let (c_lo, mem1) ← allocFill mem (2 * mid) 0
  let (c_lo, overflow) ← rec c_lo .pos a_lo b_lo mem1
  assertR (overflow = 0)
  let (c, carry_c0) ← onSlice c 0 (2 * mid) (fun s => addSignedSameLen W s sign c_lo)
  let (c, carry_c1) ← onSlice c mid (3 * mid) (fun s => addSignedSameLen W s sign c_lo)
  -- c_2 += a_hi * b_hi; c_1 += a_hi * b_hi
  let (c_hi, mem2) ← allocFill mem (2 * (n - mid)) 0
  let (c_hi, overflow) ← rec c_hi .pos a_hi b_hi mem2
  assertR (overflow = 0)
  let (c, carry) ← onSlice c (2 * mid) c.length (fun s => addSignedSameLen W s sign c_hi)
  let (c, k3) ← onSlice c mid (3 * mid) (fun s => addSignedInPlace W s sign c_hi)
  let carry_c1 ← ckInt W (carry_c1 + k3)
  -- c1 -= (a_lo - a_hi) * (b_lo - b_hi)
  let (a_diff, mem3) ← allocCopy mem a_lo
  let (a_diff, s1) ← subInPlaceWithSign W a_diff a_hi
  let (b_diff, mem4) ← allocCopy mem3 b_lo
  let (b_diff, s2) ← subInPlaceWithSign W b_diff b_hi
  let diff_sign := s1.mul s2
  let (c, k4) ← onSlice c mid (3 * mid) (fun s => rec s (sign.negate.mul diff_sign) a_diff b_diff mem4)
  let carry_c1 ← ckInt W (carry_c1 + k4)
  -- propagate carries
  let (c, k5) ← onSlice c (2 * mid) (3 * mid) (fun s => addSignedWord W s carry_c0)
  let carry_c1 ← ckInt W (carry_c1 + k5)
  let (c, k6) ← onSlice c (3 * mid) c.length (fun s => addSignedWord W s carry_c1)
  let carry ← ckInt W (carry + k6)
  assertR (carry.natAbs ≤ 1)
  .ok (c, carry)

/-- /repo/src/mul/karatsuba.rs:43-61 `karatsuba::add_signed_mul`.
Simplification: sums of lengths are not checked for overflow (see `C66_lengths`). -/
def karatsubaMul (W : Nat) (recSame mulRec : MulFn) : MulFn := fun c sign a b mem => do
  assertR (b.length ≤ a.length ∧ karatsubaMinLen ≤ b.length ∧ c.length = a.length + b.length)
  splitIntoChunks W mulRec b.length (karatsubaSameLen W recSame) c sign a b mem

/-- /repo/src/mul/toom_3.rs:87-265 `toom_3::add_signed_mul_same_len`;
`rec` is `mul::add_signed_mul_same_len`.
Simplification: sums of lengths are not checked for overflow (see `C66_lengths`). -/
def toom3SameLen (W : Nat) (rec : MulFn) : MulFn := fun c sign a b mem => do
  let n := a.length
  assertR (b.length = n ∧ c.length = 2 * n)
  assertR (toom3MinLen ≤ n)
  let n3 := (n + 2) / 3
  let n3_short ← ckSub n (2 * n3)
  let (a0, a12) ← splitR a n3
  let (a1, a2) ← splitR a12 n3
  let (b0, b12) ← splitR b n3
  let (b1, b2) ← splitR b12 n3
  let (t1, mem) ← allocFill mem (2 * n3 + 2) 0
  let (c, t1, carry_c0, carry_c2) ← toom3Zero c sign n3 t1 a0 b0 mem
  let (a_eval, mem) ← allocCopyFill mem (n3 + 1) a0 0
  let (b_eval, mem) ← allocCopyFill mem (n3 + 1) b0 0
  let t1 ← toom3Two n3 t1 a_eval b_eval a1 a2 b1 b2 mem
  let (c, t1, k, carry) ← toom3Inf c sign n3 n3_short t1 a2 b2 mem
  let carry_c2 ← ckInt W (carry_c2 + k)
  let (t2, mem) ← allocFill mem (2 * n3 + 2) 0
  let (c, t2, a02, b02, carry_c1) ← toom3One c sign n3 t2 a0 a1 a2 b0 b1 b2 mem
  let (t1, t2) ← toom3NegOne n3 t1 t2 a02 a1 b02 b1 mem
  toom3Finish c sign n3 t1 t2 carry_c0 carry_c1 carry_c2 carry
where
  /-- /repo/src/mul/toom_3.rs:155-156 (and 157-158): `eval += 2*x1 + 4*x2` on `eval` of length `n3+1` -/
  toom3Eval2 (eval : List Nat) (n3 : Nat) (x1 x2 : List Nat) : R (List Nat) := do
    let (eval, k) ← onSlice eval 0 n3 (fun s => addMulWordSameLen W s 2 x1)
    let eval ← setR eval n3 k
    let (eval, k) ← onSlice eval 0 n3 (fun s => addMulWord W s 4 x2)
    let top ← getR eval n3
    let top ← ckAdd W top k
    setR eval n3 top
  /-- /repo/src/mul/toom_3.rs:196-198 (and 201-203): given `x0` extended to length `n3+1`,
  compute `x02 = x0 + x2` and `eval = x02 + x1` -/
  toom3Eval1 (x02 : List Nat) (n3 : Nat) (x1 x2 : List Nat) : R (List Nat × List Nat) := do
    let (x02, k) ← onSlice x02 0 n3 (fun s => addInPlace W s x2)
    let x02 ← setR x02 n3 k.toNat
    let (eval, k) ← onSlice x02 0 n3 (fun s => addSameLen W s x1)
    let top ← getR eval n3
    let top ← ckAdd W top k.toNat
    let eval ← setR eval n3 top
    .ok (x02, eval)
  /-- /repo/src/mul/toom_3.rs:136-145, evaluate at 0: `t1 = 3V(0)`; result
  (c, t1, carry_c0, carry_c2) -/
  toom3Zero (c : List Nat) (sign : Sign) (n3 : Nat) (t1 a0 b0 : List Nat) (mem : Nat) :
      R (List Nat × List Nat × Int × Int) := do
    let t1_short ← sliceR t1 0 (2 * n3)
    let (t1_short, overflow) ← rec t1_short .pos a0 b0 mem
    assertR (overflow = 0)
    let (c, carry_c0) ← onSlice c 0 (2 * n3) (fun s => addSignedSameLen W s sign t1_short)
    let (c, carry_c2) ← onSlice c (2 * n3) (4 * n3 + 2)
      (fun s => addSignedInPlace W s sign.negate t1_short)
    let (t1_short, top) := mulWord W t1_short 3
    .ok (c, t1_short ++ [top, 0], carry_c0, carry_c2)
  /-- /repo/src/mul/toom_3.rs:152-162, evaluate at 2: `t1 += V(2)` -/
  toom3Two (n3 : Nat) (t1 a_eval b_eval a1 a2 b1 b2 : List Nat) (mem : Nat) : R (List Nat) := do
    let a_eval ← toom3Eval2 a_eval n3 a1 a2
    let b_eval ← toom3Eval2 b_eval n3 b1 b2
    let (t1, overflow) ← rec t1 .pos a_eval b_eval mem
    assertR (overflow = 0)
    .ok t1
  /-- /repo/src/mul/toom_3.rs:169-181, evaluate at infinity: `t1 -= 12V(inf)`; result
  (c, t1, increment of carry_c2, carry) -/
  toom3Inf (c : List Nat) (sign : Sign) (n3 n3_short : Nat) (t1 a2 b2 : List Nat) (mem : Nat) :
      R (List Nat × List Nat × Int × Int) := do
    let (c_eval, mem) ← allocFill mem (2 * n3 + 2) 0
    let c_eval_short ← sliceR c_eval 0 (2 * n3_short)
    let (c_eval_short, overflow) ← rec c_eval_short .pos a2 b2 mem
    assertR (overflow = 0)
    let (c, k2) ← onSlice c (2 * n3) (4 * n3 + 2)
      (fun s => addSignedInPlace W s sign.negate c_eval_short)
    let (c, carry) ← onSlice c (4 * n3) c.length (fun s => addSignedSameLen W s sign c_eval_short)
    let (c_eval_short, top) := mulWord W c_eval_short 12
    let (t1, overflow) ← subInPlace W t1 (c_eval_short ++ [top])
    assertR (overflow = false)
    .ok (c, t1, k2, carry)
  /-- /repo/src/mul/toom_3.rs:186-207, evaluate at 1: `t2 = V(1)`; result
  (c, t2, a02, b02, carry_c1) -/
  toom3One (c : List Nat) (sign : Sign) (n3 : Nat) (t2 a0 a1 a2 b0 b1 b2 : List Nat) (mem : Nat) :
      R (List Nat × List Nat × List Nat × List Nat × Int) := do
    let (a02, mem) ← allocCopyFill mem (n3 + 1) a0 0
    let (a02, a_eval) ← toom3Eval1 a02 n3 a1 a2
    let (b02, mem) ← allocCopyFill mem (n3 + 1) b0 0
    let (b02, b_eval) ← toom3Eval1 b02 n3 b1 b2
    let (t2, overflow) ← rec t2 .pos a_eval b_eval mem
    assertR (overflow = 0)
    let (c, k3) ← onSlice c n3 (3 * n3 + 2) (fun s => addSignedInPlace W s sign t2)
    .ok (c, t2, a02, b02, k3)
  /-- /repo/src/mul/toom_3.rs:209-246, evaluate at -1: `t2 += V(-1)`, `t1 += 2V(-1)`, then
  `t1 /= 6`, `t2 /= 2`; result (t1, t2) -/
  toom3NegOne (n3 : Nat) (t1 t2 a02 a1 b02 b1 : List Nat) (mem : Nat) :
      R (List Nat × List Nat) := do
    let (a_eval, s1) ← subInPlaceWithSign W a02 a1
    let (b_eval, s2) ← subInPlaceWithSign W b02 b1
    let value_neg1_sign := s1.mul s2
    let (c_eval, mem) ← allocFill mem (2 * (n3 + 1)) 0
    let (c_eval, overflow) ← rec c_eval .pos a_eval b_eval mem
    assertR (overflow = 0)
    let (t2, overflow) ← addSignedSameLen W t2 value_neg1_sign c_eval
    assertR (overflow = 0)
    let (t1, overflow) ← toom3AddNeg1 t1 value_neg1_sign c_eval
    assertR (overflow = 0)
    let (t1, t1_rem) ← divByWord W t1 6
    let (t2, t2_rem) ← shrInPlace W t2 1
    assertR (t1_rem = 0)
    assertR (t2_rem = 0)
    .ok (t1, t2)
  /-- /repo/src/mul/toom_3.rs:228-237: `t1 += 2*V(-1)` -/
  toom3AddNeg1 (t1 : List Nat) (value_neg1_sign : Sign) (c_eval : List Nat) : R (List Nat × Nat) :=
    match value_neg1_sign with
    | .pos => addMulWordSameLen W t1 2 c_eval
    | .neg => subMulWordSameLen W t1 2 c_eval
  /-- /repo/src/mul/toom_3.rs:248-264: interpolation and carry propagation -/
  toom3Finish (c : List Nat) (sign : Sign) (n3 : Nat) (t1 t2 : List Nat)
      (carry_c0 carry_c1 carry_c2 carry : Int) : R (List Nat × Int) := do
    -- lines 252-255
    let (c, k4) ← onSlice c n3 (3 * n3 + 2) (fun s => addSignedSameLen W s sign.negate t1)
    let carry_c1 ← ckInt W (carry_c1 + k4)
    let (c, k5) ← onSlice c (3 * n3) (5 * n3 + 2) (fun s => addSignedSameLen W s sign t1)
    let carry_c3 := k5
    let (c, k6) ← onSlice c (2 * n3) (4 * n3 + 2) (fun s => addSignedSameLen W s sign t2)
    let carry_c2 ← ckInt W (carry_c2 + k6)
    let (c, k7) ← onSlice c (3 * n3) (5 * n3 + 2) (fun s => addSignedSameLen W s sign.negate t2)
    let carry_c3 ← ckInt W (carry_c3 + k7)
    -- Apply carries (lines 258-261).
    let (c, k8) ← onSlice c (2 * n3) (3 * n3 + 2) (fun s => addSignedWord W s carry_c0)
    let carry_c1 ← ckInt W (carry_c1 + k8)
    let (c, k9) ← onSlice c (3 * n3 + 2) (4 * n3 + 2) (fun s => addSignedWord W s carry_c1)
    let carry_c2 ← ckInt W (carry_c2 + k9)
    let (c, k10) ← onSlice c (4 * n3 + 2) (5 * n3 + 2) (fun s => addSignedWord W s carry_c2)
    let carry_c3 ← ckInt W (carry_c3 + k10)
    let (c, k11) ← onSlice c (5 * n3 + 2) c.length (fun s => addSignedWord W s carry_c3)
    let carry ← ckInt W (carry + k11)
    assertR (carry.natAbs ≤ 1)
    .ok (c, carry)

/-- /repo/src/mul/toom_3.rs:62-80 `toom_3::add_signed_mul`.
Simplification: sums of lengths are not checked for overflow (see `C66_lengths`). -/
def toom3Mul (W : Nat) (recSame mulRec : MulFn) : MulFn := fun c sign a b mem => do
  assertR (b.length ≤ a.length ∧ toom3MinLen ≤ b.length ∧ c.length = a.length + b.length)
  splitIntoChunks W mulRec b.length (toom3SameLen W recSame) c sign a b mem

/-- /repo/src/mul/mod.rs:156-173 `mul::add_signed_mul_same_len`. The number is how many nested calls
of this function are allowed; needing more is the error `fuel`.
Simplification: sums of lengths are not checked for overflow (see `C66_lengths`). -/
def mulSameLen (W : Nat) : Nat → MulFn
  | 0 => fun _ _ _ _ _ => .error .fuel
  | fuel + 1 => fun c sign a b mem => do
    let n := a.length
    assertR (b.length = n ∧ c.length = 2 * n)
    if n ≤ mulMaxLenSimple then simpleMulSameLen W c sign a b mem
    else if n ≤ mulMaxLenKaratsuba then karatsubaSameLen W (mulSameLen W fuel) c sign a b mem
    else toom3SameLen W (mulSameLen W fuel) c sign a b mem

/-- /repo/src/mul/mod.rs:130-150 `mul::add_signed_mul`. The number is how many nested calls of this
function and of `add_signed_mul_same_len` together are allowed.
Simplification: sums of lengths are not checked for overflow (see `C66_lengths`). -/
def addSignedMulFuel (W : Nat) : Nat → MulFn
  | 0 => fun _ _ _ _ _ => .error .fuel
  | fuel + 1 => fun c sign a b mem => do
    assertR (c.length = a.length + b.length)
    let (a, b) := if a.length < b.length then (b, a) else (a, b)
    if b.length ≤ mulMaxLenSimple then simpleMul W (addSignedMulFuel W fuel) c sign a b mem
    else if b.length ≤ mulMaxLenKaratsuba then
      karatsubaMul W (mulSameLen W fuel) (addSignedMulFuel W fuel) c sign a b mem
    else toom3Mul W (mulSameLen W fuel) (addSignedMulFuel W fuel) c sign a b mem

/-- How deep the calls of `mul::add_signed_mul` nest at most, when the smaller factor has `n` words. Not
in the Rust code: the model allows no more than this many nested calls. -/
def mulDepth (n : Nat) : Nat := 2 * bitLen n + 4

/-- /repo/src/mul/mod.rs:130-150 `mul::add_signed_mul`, with the stack depth limited to `mulDepth` -/
def addSignedMul (W : Nat) : MulFn := fun c sign a b mem =>
  addSignedMulFuel W (mulDepth (min a.length b.length)) c sign a b mem

/-- /repo/src/mul/mod.rs:111-124 `memory_requirement_up_to`, `memory_requirement_exact`
(in words), with simple.rs:23-25, karatsuba.rs:23-36, toom_3.rs:31-55.
`math::ceil_log_2` is applied to a non-zero length here.
Simplification: sums of lengths are not checked for overflow (see `C66_lengths`). -/
def mulMemoryRequirement (smallerLen : Nat) : Nat :=
  if smallerLen ≤ mulMaxLenSimple then 0
  else if smallerLen ≤ mulMaxLenKaratsuba then 2 * smallerLen + 2 * bitLen (smallerLen - 1)
  else 4 * smallerLen + 13 * bitLen (smallerLen - 1)

end Ibig
