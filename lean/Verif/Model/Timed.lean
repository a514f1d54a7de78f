import Verif.Model.Mul
/-!
Counting steps.  `Timed α` is the result of code that may panic, with the number of steps it took: a step is one
iteration of a loop over words, or one operation of constant time that can panic (index, slice, checked arithmetic,
assertion, division of words).  The other operations on machine words come with one of these and are not counted: their number
is at most a constant times the number of steps.

The functions of the namespace `Timed` have the name and the text of a function of the model, with a `tick` in every
iteration of a loop, and with the counting functions of this file in place of the functions of the same name.
Proofs/Timed.lean shows that the results are the same.

Not in the Rust code: the code does not count.
-/
namespace Ibig

/-- The result and the number of steps. -/
def Timed (α : Type) : Type := R (α × Nat)

/-- Run `f` on the result; the steps add up. -/
def Timed.bind {α β : Type} (x : Timed α) (f : α → Timed β) : Timed β :=
  match x with
  | .error e => Except.error e
  | .ok (a, k) =>
    match f a with
    | .error e => Except.error e
    | .ok (b, l) => Except.ok (b, k + l)

instance : Monad Timed where
  pure a := (Except.ok (a, 0) : R _)
  bind := Timed.bind

/-- A computation of the model that takes `n` steps. -/
def pass {α : Type} (n : Nat) (x : R α) : Timed α :=
  match x with
  | .error e => Except.error e
  | .ok a => Except.ok (a, n)

/-- Forget the number of steps. -/
def Timed.result {α : Type} (x : Timed α) : R α :=
  match x with
  | .error e => .error e
  | .ok (a, _) => .ok a

/-- The number of steps, if there is no panic. -/
def Timed.steps {α : Type} (x : Timed α) : Option Nat :=
  match x with
  | .error _ => none
  | .ok (_, k) => some k

namespace Timed

/-! Operations of constant time -/

/-- `assert!` -/
def assertR (p : Prop) [Decidable p] : Timed Unit := pass 1 (Ibig.assertR p)
/-- addition of carries -/
def ckInt (bits : Nat) (x : Int) : Timed Int := pass 1 (Ibig.ckInt bits x)
/-- addition of machine integers -/
def ckAdd (bits a b : Nat) : Timed Nat := pass 1 (Ibig.ckAdd bits a b)
/-- subtraction of machine integers -/
def ckSub (a b : Nat) : Timed Nat := pass 1 (Ibig.ckSub a b)
/-- `split_at` -/
def splitR (l : List Nat) (n : Nat) : Timed (List Nat × List Nat) := pass 1 (Ibig.splitR l n)
/-- `slice[i]` -/
def getR (l : List Nat) (i : Nat) : Timed Nat := pass 1 (Ibig.getR l i)
/-- `slice[i] = x` -/
def setR (l : List Nat) (i x : Nat) : Timed (List Nat) := pass 1 (Ibig.setR l i x)
/-- `&slice[i..j]` -/
def sliceR (l : List Nat) (i j : Nat) : Timed (List Nat) := pass 1 (Ibig.sliceR l i j)
/-- a nested call too deep -/
def throwT {α : Type} (e : Panic) : Timed α := pass 1 (.error e)

/-- An operation on `&mut c[i..j]` takes the steps of the operation and one more. -/
def onSlice {α : Type} (c : List Nat) (i j : Nat) (f : List Nat → Timed (List Nat × α)) :
    Timed (List Nat × α) := do
  let s ← sliceR c i j
  let (s', k) ← f s
  pure (c.take i ++ s' ++ c.drop j, k)

/-- an iteration of a loop -/
def tick : Timed Unit := pass 1 (.ok ())

/-! Memory: one step for each word that is written -/

/-- /repo/src/memory.rs:70-79 -/
def allocFill (mem n x : Nat) : Timed (List Nat × Nat) := pass (n + 1) (Ibig.allocFill mem n x)
/-- /repo/src/memory.rs:88-97 -/
def allocCopy (mem : Nat) (source : List Nat) : Timed (List Nat × Nat) :=
  pass (source.length + 1) (Ibig.allocCopy mem source)
/-- /repo/src/memory.rs:106-128 -/
def allocCopyFill (mem n : Nat) (source : List Nat) (x : Nat) : Timed (List Nat × Nat) :=
  pass (n + 1) (Ibig.allocCopyFill mem n source x)

/-! /repo/src/add.rs -/

/-- /repo/src/add.rs:17-26 `add_one_in_place` -/
def addOne (W : Nat) : List Nat → Timed (List Nat × Bool)
  | [] => pure ([], true)
  | w :: ws => do
    tick
    let (a, overflow) := overflowingAdd W w 1
    if !overflow then pure (a :: ws, false)
    else
      let (r, c) ← addOne W ws
      pure (a :: r, c)

/-- /repo/src/add.rs:32-41 `sub_one_in_place` -/
def subOne (W : Nat) : List Nat → Timed (List Nat × Bool)
  | [] => pure ([], true)
  | w :: ws => do
    tick
    let (a, borrow) := overflowingSub W w 1
    if !borrow then pure (a :: ws, false)
    else
      let (r, c) ← subOne W ws
      pure (a :: r, c)

/-- /repo/src/add.rs:47-52 `add_word_in_place` -/
def addWord (W : Nat) (words : List Nat) (rhs : Nat) : Timed (List Nat × Bool) :=
  match words with
  | [] => throwT .unwrap
  | w :: hi => do
    tick
    let (a, overflow) := overflowingAdd W w rhs
    if overflow then
      let (r, c) ← addOne W hi
      pure (a :: r, c)
    else pure (a :: hi, false)

/-- /repo/src/add.rs:58-63 `sub_word_in_place` -/
def subWord (W : Nat) (words : List Nat) (rhs : Nat) : Timed (List Nat × Bool) :=
  match words with
  | [] => throwT .unwrap
  | w :: hi => do
    tick
    let (a, borrow) := overflowingSub W w rhs
    if borrow then
      let (r, c) ← subOne W hi
      pure (a :: r, c)
    else pure (a :: hi, false)

/-- loop of /repo/src/add.rs:72-78 -/
def addLoop (W : Nat) : List Nat → List Nat → Bool → Timed (List Nat × Bool)
  | a :: as, b :: bs, carry => do
    tick
    let (sum, c) := addWithCarry W a b carry
    let (r, c') ← addLoop W as bs c
    pure (sum :: r, c')
  | as, _, carry => pure (as, carry)

/-- /repo/src/add.rs:69-79 `add_same_len_in_place` -/
def addSameLen (W : Nat) (words rhs : List Nat) : Timed (List Nat × Bool) := do
  assertR (words.length = rhs.length)
  addLoop W words rhs false

/-- loop of /repo/src/add.rs:87-93 -/
def subLoop (W : Nat) : List Nat → List Nat → Bool → Timed (List Nat × Bool)
  | a :: as, b :: bs, borrow => do
    tick
    let (diff, c) := subWithBorrow W a b borrow
    let (r, c') ← subLoop W as bs c
    pure (diff :: r, c')
  | as, _, borrow => pure (as, borrow)

/-- /repo/src/add.rs:85-94 `sub_same_len_in_place` -/
def subSameLen (W : Nat) (lhs rhs : List Nat) : Timed (List Nat × Bool) := do
  assertR (lhs.length = rhs.length)
  subLoop W lhs rhs false

/-- /repo/src/add.rs:100-104 `add_in_place` -/
def addInPlace (W : Nat) (lhs rhs : List Nat) : Timed (List Nat × Bool) := do
  let (lo, hi) ← splitR lhs rhs.length
  let (lo', carry) ← addSameLen W lo rhs
  if carry then
    let (hi', c) ← addOne W hi
    pure (lo' ++ hi', c)
  else pure (lo' ++ hi, false)

/-- /repo/src/add.rs:110-114 `sub_in_place` -/
def subInPlace (W : Nat) (lhs rhs : List Nat) : Timed (List Nat × Bool) := do
  let (lo, hi) ← splitR lhs rhs.length
  let (lo', borrow) ← subSameLen W lo rhs
  if borrow then
    let (hi', c) ← subOne W hi
    pure (lo' ++ hi', c)
  else pure (lo' ++ hi, false)

/-- loop of /repo/src/add.rs:122-128 -/
def subSwapLoop (W : Nat) : List Nat → List Nat → Bool → Timed (List Nat × Bool)
  | a :: as, b :: bs, borrow => do
    tick
    let (diff, c) := subWithBorrow W a b borrow
    let (r, c') ← subSwapLoop W as bs c
    pure (diff :: r, c')
  | _, bs, borrow => pure (bs, borrow)

/-- /repo/src/add.rs:120-129 `sub_same_len_in_place_swap` -/
def subSameLenSwap (W : Nat) (lhs rhs : List Nat) : Timed (List Nat × Bool) := do
  assertR (lhs.length = rhs.length)
  subSwapLoop W lhs rhs false

/-- loops of /repo/src/add.rs:135-142 -/
def strippedLen (l : List Nat) : Nat → Timed Nat
  | 0 => pure 0
  | n + 1 => do
    let x ← getR l n
    if x = 0 then strippedLen l n else pure (n + 1)

/-- loop of /repo/src/add.rs:159-179 (lengths equal) -/
def subSignLoop (W : Nat) (lhs rhs : List Nat) : Nat → Timed (List Nat × Sign)
  | 0 => pure (lhs, .pos)
  | n + 1 => do
    let x ← getR lhs n
    let y ← getR rhs n
    if y < x then
      let r ← sliceR rhs 0 (n + 1)
      let (lhs', overflow) ← onSlice lhs 0 (n + 1) (fun s => subSameLen W s r)
      assertR (overflow = false)
      pure (lhs', .pos)
    else if x < y then
      let r ← sliceR rhs 0 (n + 1)
      let (lhs', overflow) ← onSlice lhs 0 (n + 1) (fun s => subSameLenSwap W r s)
      assertR (overflow = false)
      pure (lhs', .neg)
    else
      let lhs' ← setR lhs n 0
      subSignLoop W lhs' rhs n

/-- `copy_from_slice` -/
def copyFromSlice (s source : List Nat) : Timed (List Nat × Unit) :=
  pass (source.length + 1) (do
    Ibig.assertR (s.length = source.length)
    .ok (source, ()))

/-- /repo/src/add.rs:133-182 `sub_in_place_with_sign` -/
def subInPlaceWithSign (W : Nat) (lhs rhs : List Nat) : Timed (List Nat × Sign) := do
  assertR (rhs.length ≤ lhs.length)
  let lhsLen ← strippedLen lhs lhs.length
  let rhsLen ← strippedLen rhs rhs.length
  if rhsLen < lhsLen then
    let r ← sliceR rhs 0 rhsLen
    let (lhs', overflow) ← onSlice lhs 0 lhsLen (fun s => subInPlace W s r)
    assertR (overflow = false)
    pure (lhs', .pos)
  else if lhsLen < rhsLen then
    let r ← sliceR rhs 0 lhsLen
    let (lhs', borrow) ← onSlice lhs 0 lhsLen (fun s => subSameLenSwap W r s)
    let rHi ← sliceR rhs lhsLen rhsLen
    let (lhs'', _) ← onSlice lhs' lhsLen rhsLen (fun s => copyFromSlice s rHi)
    if borrow then
      let (lhs''', overflow) ← onSlice lhs'' lhsLen rhsLen (fun s => subOne W s)
      assertR (overflow = false)
      pure (lhs''', .neg)
    else pure (lhs'', .neg)
  else subSignLoop W lhs rhs lhsLen

/-- /repo/src/add.rs:188-196 `add_signed_word_in_place` -/
def addSignedWord (W : Nat) (words : List Nat) (rhs : Int) : Timed (List Nat × Int) :=
  if rhs = 0 ∨ words = [] then pure (words, rhs)
  else if 0 ≤ rhs then do
    let (w, c) ← addWord W words rhs.natAbs
    pure (w, (c.toNat : Int))
  else do
    let (w, c) ← subWord W words rhs.natAbs
    pure (w, -(c.toNat : Int))

/-- /repo/src/add.rs:202-212 `add_signed_same_len_in_place` -/
def addSignedSameLen (W : Nat) (words : List Nat) (sign : Sign) (rhs : List Nat) :
    Timed (List Nat × Int) := do
  assertR (words.length = rhs.length)
  match sign with
  | .pos =>
    let (w, c) ← addSameLen W words rhs
    pure (w, (c.toNat : Int))
  | .neg =>
    let (w, c) ← subSameLen W words rhs
    pure (w, -(c.toNat : Int))

/-- /repo/src/add.rs:218-224 `add_signed_in_place` -/
def addSignedInPlace (W : Nat) (words : List Nat) (sign : Sign) (rhs : List Nat) :
    Timed (List Nat × Int) := do
  assertR (rhs.length ≤ words.length)
  match sign with
  | .pos =>
    let (w, c) ← addInPlace W words rhs
    pure (w, (c.toNat : Int))
  | .neg =>
    let (w, c) ← subInPlace W words rhs
    pure (w, -(c.toNat : Int))

/-! /repo/src/mul/mod.rs -/

/-- loop of /repo/src/mul/mod.rs:42-48 -/
def mulWordLoop (W rhs : Nat) : List Nat → Nat → Timed (List Nat × Nat)
  | [], carry => pure ([], carry)
  | a :: as, carry => do
    tick
    let (lo, hi) := splitDoubleWord W (a * rhs + carry)
    let (r, c) ← mulWordLoop W rhs as hi
    pure (lo :: r, c)

/-- /repo/src/mul/mod.rs:33-50 `mul_word_in_place` and `mul_word_in_place_with_carry` -/
def mulWord (W : Nat) (words : List Nat) (rhs : Nat) : Timed (List Nat × Nat) :=
  mulWordLoop W rhs words 0

/-- loop of /repo/src/mul/mod.rs:58-67 -/
def addMulWordLoop (W mult : Nat) : List Nat → List Nat → Nat → Timed (List Nat × Nat)
  | a :: as, b :: bs, carry => do
    tick
    let (lo, hi) := splitDoubleWord W (a + carry + mult * b)
    let (r, c) ← addMulWordLoop W mult as bs hi
    pure (lo :: r, c)
  | as, _, carry => pure (as, carry)

/-- /repo/src/mul/mod.rs:56-68 `add_mul_word_same_len_in_place` -/
def addMulWordSameLen (W : Nat) (words : List Nat) (mult : Nat) (rhs : List Nat) :
    Timed (List Nat × Nat) := do
  assertR (words.length = rhs.length)
  addMulWordLoop W mult words rhs 0

/-- /repo/src/mul/mod.rs:74-82 `add_mul_word_in_place` -/
def addMulWord (W : Nat) (words : List Nat) (mult : Nat) (rhs : List Nat) : Timed (List Nat × Nat) := do
  assertR (rhs.length ≤ words.length)
  let n := rhs.length
  let (words, carry) ← onSlice words 0 n (fun s => addMulWordSameLen W s mult rhs)
  if n < words.length then
    let (words, c) ← onSlice words n words.length (fun s => addWord W s carry)
    pure (words, c.toNat)
  else pure (words, carry)

/-- loop of /repo/src/mul/mod.rs:93-106 -/
def subMulWordLoop (W mult : Nat) : List Nat → List Nat → Nat → Timed (List Nat × Nat)
  | a :: as, b :: bs, cpm => do
    let v ← pass 1 (do
      let x ← Ibig.ckAdd (2 * W) (a + cpm) (base W * (base W - 1) - (base W - 1))
      Ibig.ckSub x (mult * b))
    let (lo, hi) := splitDoubleWord W v
    let (r, c) ← subMulWordLoop W mult as bs hi
    pure (lo :: r, c)
  | as, _, cpm => pure (as, cpm)

/-- /repo/src/mul/mod.rs:88-108 `sub_mul_word_same_len_in_place` -/
def subMulWordSameLen (W : Nat) (words : List Nat) (mult : Nat) (rhs : List Nat) :
    Timed (List Nat × Nat) := do
  assertR (words.length = rhs.length)
  let (r, cpm) ← subMulWordLoop W mult words rhs (base W - 1)
  let borrow ← ckSub (base W - 1) cpm
  pure (r, borrow)

/-! /repo/src/shift.rs, /repo/src/div/mod.rs -/

/-- loop of /repo/src/shift.rs:15-21 -/
def shlLoop (W s : Nat) : List Nat → Nat → Timed (List Nat × Nat)
  | [], carry => pure ([], carry)
  | w :: ws, carry => do
    tick
    let (newWord, newCarry) := splitDoubleWord W (w * 2 ^ s)
    let (r, c) ← shlLoop W s ws newCarry
    pure ((newWord ||| carry) :: r, c)

/-- /repo/src/shift.rs:10-22 `shl_in_place` -/
def shlInPlace (W : Nat) (words : List Nat) (shift : Nat) : Timed (List Nat × Nat) := do
  assertR (shift < W)
  if shift = 0 then pure (words, 0) else shlLoop W shift words 0

/-- loop of /repo/src/shift.rs:31-36 (most significant word first) -/
def shrLoop (W s : Nat) : List Nat → Timed (List Nat × Nat)
  | [] => pure ([], 0)
  | w :: ws => do
    tick
    let (r, carry) ← shrLoop W s ws
    let (newCarry, newWord) := splitDoubleWord W (doubleWord W 0 w / 2 ^ s)
    pure ((newWord ||| carry) :: r, newCarry)

/-- /repo/src/shift.rs:26-38 `shr_in_place` -/
def shrInPlace (W : Nat) (words : List Nat) (shift : Nat) : Timed (List Nat × Nat) := do
  assertR (shift < W)
  if shift = 0 then pure (words, 0)
  else
    let (r, carry) ← shrLoop W shift words
    pure (r, carry / 2 ^ (W - shift))

/-- /repo/src/fast_divide.rs:114-124: constant time -/
def FastDivideNormalized.new (W divisor : Nat) : Timed FastDivideNormalized :=
  pass 1 (Ibig.FastDivideNormalized.new W divisor)
/-- /repo/src/fast_divide.rs:138-199: constant time -/
def FastDivideNormalized.divRem (W : Nat) (fd : FastDivideNormalized) (a : Nat) : Timed (Nat × Nat) :=
  pass 1 (fd.divRem W a)

/-- loop of /repo/src/div/mod.rs:62-67 (most significant word first) -/
def fastDivLoop (W : Nat) (fd : FastDivideNormalized) : List Nat → Nat → Timed (List Nat × Nat)
  | [], rem => pure ([], rem)
  | w :: ws, rem => do
    let (qs, rem) ← fastDivLoop W fd ws rem
    let (q, r) ← FastDivideNormalized.divRem W fd (doubleWord W w rem)
    pure (q :: qs, r)

/-- /repo/src/div/mod.rs:54-69 `fast_div_by_word_in_place` -/
def fastDivByWord (W : Nat) (words : List Nat) (rhs : Nat) (fd : FastDivideNormalized) :
    Timed (List Nat × Nat) := do
  let shift := leadingZeros W rhs
  let (words, rem) ← shlInPlace W words shift
  let (qs, rem) ← fastDivLoop W fd words rem
  pure (qs, rem / 2 ^ shift)

/-- /repo/src/div/mod.rs:35-48 `div_by_word_in_place` -/
def divByWord (W : Nat) (words : List Nat) (rhs : Nat) : Timed (List Nat × Nat) := do
  assertR (rhs ≠ 0)
  if words = [] then pure (words, 0)
  else if isPow2Word rhs then shrInPlace W words (trailingZerosAux W rhs)
  else
    let fd ← FastDivideNormalized.new W (rhs * 2 ^ leadingZeros W rhs)
    fastDivByWord W words rhs fd

end Timed
end Ibig
