import Verif.Model.MulTime
import Verif.Model.Div
/-!
Division with the number of its steps: the text of Model/Div.lean and of the second part of Model/DivWord.lean with
the counting functions in place of the functions of the same name.
-/
namespace Ibig.Timed

/-- `Iterator::cmp` -/
def lexCmp : List Nat → List Nat → Timed Ordering
  | [], [] => pure .eq
  | [], _ :: _ => pure .lt
  | _ :: _, [] => pure .gt
  | x :: xs, y :: ys => do
    tick
    if x < y then pure .lt else if y < x then pure .gt else lexCmp xs ys

/-- /repo/src/cmp.rs:53-56 `cmp_same_len` -/
def cmpSameLen (lhs rhs : List Nat) : Timed Ordering := do
  assertR (lhs.length = rhs.length)
  lexCmp lhs.reverse rhs.reverse

/-- loop of /repo/src/div/mod.rs:102-106 over the remaining words, most significant first
(`words` is given little-endian, without the top word) -/
def fastRemLoop (W : Nat) (fd : FastDivideNormalized) : List Nat → Nat → Timed Nat
  | [], rem => pure rem
  | w :: ws, rem => do
    let rem ← fastRemLoop W fd ws rem
    let (_, r) ← FastDivideNormalized.divRem W fd (doubleWord W w rem)
    pure r

/-- /repo/src/div/mod.rs:90-109 `fast_rem_by_normalized_word` -/
def fastRemByNormalizedWord (W : Nat) (words : List Nat) (fd : FastDivideNormalized) : Timed Nat :=
  match words.getLast? with
  | none => pure 0
  | some w => fastRemLoop W fd words.dropLast (fd.divRemWord w).2

/-- /repo/src/div/mod.rs:72-87 `rem_by_word` -/
def remByWord (W : Nat) (words : List Nat) (rhs : Nat) : Timed Nat := do
  assertR (rhs ≠ 0)
  match words with
  | [] => pure 0
  | w0 :: _ =>
    if isPow2Word rhs then pure (w0 &&& (rhs - 1))
    else
      let shift := leadingZeros W rhs
      let fd ← FastDivideNormalized.new W (rhs * 2 ^ shift)
      let rem ← fastRemByNormalizedWord W words fd
      let (_, rem) ← FastDivideNormalized.divRem W fd (rem * 2 ^ shift)
      pure (rem / 2 ^ shift)

/-- /repo/src/div/mod.rs:21-27 `normalize_large`: (words, shift, fast division by the top word) -/
def normalizeLarge (W : Nat) (words : List Nat) : Timed (List Nat × Nat × FastDivideNormalized) := do
  assertR (2 ≤ words.length)
  let top ← getR words (words.length - 1)
  let shift := leadingZeros W top
  let (words, overflow) ← shlInPlace W words shift
  assertR (overflow = 0)
  let top ← getR words (words.length - 1)
  let fd ← FastDivideNormalized.new W top
  pure (words, shift, fd)

/-- `while` loop of /repo/src/div/simple.rs:65-71, by recursion on `q` (each iteration decreases `q`;
when `q = 0` the loop condition is false). -/
def refineQ (W rhs0 rhs1 lhs2 : Nat) : Nat → Nat → Timed Nat
  | 0, _ => pure 0
  | q + 1, r => do
    tick
    if doubleWord W lhs2 r < (q + 1) * rhs1 then
      if r + rhs0 < base W then refineQ W rhs0 rhs1 lhs2 q (r + rhs0) else pure q
    else pure (q + 1)

/-- /repo/src/div/simple.rs:63-76: approximation of the next quotient word -/
def estimateQ (W : Nat) (fd : FastDivideNormalized) (rhs0 rhs1 lhs0 lhs1 lhs2 : Nat) : Timed Nat :=
  if lhs0 < rhs0 then do
    let (q, r) ← FastDivideNormalized.divRem W fd (doubleWord W lhs1 lhs0)
    refineQ W rhs0 rhs1 lhs2 q r
  else pure (base W - 1)

/-- /repo/src/div/simple.rs:82-90: correction step; `i..j` is the current window of `lhs` -/
def correctQ (W : Nat) (lhs rhs : List Nat) (i j q borrow lhs0 : Nat) : Timed (List Nat × Nat) := do
  if lhs0 < borrow then
    let q ← ckSub q 1
    let (lhs, carry) ← onSlice lhs i j (fun s => addSameLen W s rhs)
    assertR (carry = true)
    let borrow ← ckSub borrow 1
    assertR (borrow = lhs0)
    pure (lhs, q)
  else
    assertR (borrow = lhs0)
    pure (lhs, q)

/-- `while` loop of /repo/src/div/simple.rs:43-95; the first number is `lhs_len - n`. -/
def simpleDivLoop (W : Nat) (fd : FastDivideNormalized) (rhs : List Nat) (rhs0 rhs1 : Nat) :
    Nat → List Nat → Timed (List Nat)
  | 0, lhs => pure lhs
  | k + 1, lhs => do
    let n := rhs.length
    let lhsLen := k + 1 + n
    let lhs0 ← getR lhs (lhsLen - 1)
    let lhs1 ← getR lhs (lhsLen - 2)
    let lhs2 ← getR lhs (lhsLen - 3)
    let q ← estimateQ W fd rhs0 rhs1 lhs0 lhs1 lhs2
    let (lhs, borrow) ← onSlice lhs (lhsLen - 1 - n) (lhsLen - 1)
      (fun s => subMulWordSameLen W s q rhs)
    let (lhs, q) ← correctQ W lhs rhs (lhsLen - 1 - n) (lhsLen - 1) q borrow lhs0
    let lhs ← setR lhs (lhsLen - 1) q
    simpleDivLoop W fd rhs rhs0 rhs1 k lhs

/-- /repo/src/div/simple.rs:37-41: the carry of the quotient -/
def simpleDivTop (W : Nat) (lhs rhs : List Nat) : Timed (List Nat × Bool) := do
  let top ← sliceR lhs (lhs.length - rhs.length) lhs.length
  let o ← cmpSameLen top rhs
  if o = .lt then pure (lhs, false)
  else
    let (lhs, overflow) ← onSlice lhs (lhs.length - rhs.length) lhs.length
      (fun s => subSameLen W s rhs)
    assertR (overflow = false)
    pure (lhs, true)

/-- /repo/src/div/simple.rs:22-98 `simple::div_rem_in_place` -/
def simpleDivRem (W : Nat) (lhs rhs : List Nat) (fd : FastDivideNormalized) :
    Timed (List Nat × Bool) := do
  let n := rhs.length
  assertR (2 ≤ n)
  let rhs0 ← getR rhs (n - 1)
  let rhs1 ← getR rhs (n - 2)
  assertR (n ≤ lhs.length)
  let (lhs, quotientCarry) ← simpleDivTop W lhs rhs
  let lhs ← simpleDivLoop W fd rhs rhs0 rhs1 (lhs.length - n) lhs
  pure (lhs, quotientCarry)

/-- `while` loop of /repo/src/div/divide_conquer.rs:130-133 (at most four iterations, see proofs). -/
def dcFixLoop (W : Nat) (rhs : List Nat) : Nat → List Nat → List Nat → Int → Int →
    Timed (List Nat × List Nat × Int × Int)
  | 0, _, _, _, _ => throwT .fuel
  | fuel + 1, rem, q, remOverflow, qOverflow =>
    if remOverflow < 0 then do
      let (rem, c) ← addSameLen W rem rhs
      let (q, b) ← subOne W q
      let remOverflow ← ckInt W (remOverflow + c.toNat)
      let qOverflow ← ckInt W (qOverflow - b.toNat)
      dcFixLoop W rhs fuel rem q remOverflow qOverflow
    else pure (rem, q, remOverflow, qOverflow)

/-- /repo/src/div/divide_conquer.rs:125-127 -/
def dcSubTop (W : Nat) (rem rhsLo : List Nat) (m : Nat) (qOverflow remOverflow : Int) :
    Timed (List Nat × Int) := do
  if qOverflow ≠ 0 then
    let (rem, b) ← onSlice rem m rem.length (fun s => subSameLen W s rhsLo)
    let remOverflow ← ckInt W (remOverflow - b.toNat)
    pure (rem, remOverflow)
  else pure (rem, remOverflow)

/-- /repo/src/div/divide_conquer.rs:101-137 `div_rem_in_place_small_quotient`; `same` is
`div_rem_in_place_same_len`. -/
def dcSmallQuotient (W : Nat) (same : List Nat → List Nat → Timed (List Nat × Bool))
    (lhs rhs : List Nat) (fd : FastDivideNormalized) (mem : Nat) : Timed (List Nat × Bool) := do
  let n := rhs.length
  assertR (2 ≤ n ∧ n ≤ lhs.length)
  let m := lhs.length - n
  assertR (m < n)
  if m ≤ divMaxLenSimple then simpleDivRem W lhs rhs fd
  else
    let rhsHi ← sliceR rhs (n - m) n
    let (lhs, qo) ← onSlice lhs (n - m) lhs.length (fun s => same s rhsHi)
    let (rem, q) ← splitR lhs n
    let rhsLo ← sliceR rhs 0 (n - m)
    let (rem, remOverflow) ← addSignedMul W rem .neg q rhsLo mem
    let (rem, remOverflow) ← dcSubTop W rem rhsLo m qo.toNat remOverflow
    let (rem, q, remOverflow, qOverflow) ← dcFixLoop W rhs 8 rem q remOverflow qo.toNat
    assertR (remOverflow = 0 ∧ 0 ≤ qOverflow ∧ qOverflow ≤ 1)
    pure (rem ++ q, decide (qOverflow ≠ 0))

/-- /repo/src/div/divide_conquer.rs:67-89 `div_rem_in_place_same_len`, on top of
`div_rem_in_place_small_quotient` (`small`). -/
def dcSameLen (small : List Nat → List Nat → Timed (List Nat × Bool)) (lhs rhs : List Nat) :
    Timed (List Nat × Bool) := do
  let n := rhs.length
  assertR (divMaxLenSimple < n ∧ lhs.length = 2 * n)
  let nLo := n / 2
  let (lhs, overflow) ← onSlice lhs nLo lhs.length (fun s => small s rhs)
  let (lhs, overflowLo) ← onSlice lhs 0 (n + nLo) (fun s => small s rhs)
  assertR (overflowLo = false)
  pure (lhs, overflow)

/-- The mutual recursion of /repo/src/div/divide_conquer.rs:67-137. The number is how many nested calls of
`div_rem_in_place_small_quotient` are allowed; needing more is the error `fuel` (the callers below
allow `bitLen` of the divisor's length, plus one). -/
def dcSmall (W : Nat) (fd : FastDivideNormalized) (mem : Nat) : Nat → List Nat → List Nat →
    Timed (List Nat × Bool)
  | 0, _, _ => throwT .fuel
  | fuel + 1, lhs, rhs =>
    dcSmallQuotient W (fun l r => dcSameLen (dcSmall W fd mem fuel) l r) lhs rhs fd mem

/-- `while` loop of /repo/src/div/divide_conquer.rs:47-54; the number is `m`. -/
def dcLoop (W : Nat) (fd : FastDivideNormalized) (mem : Nat) (rhs : List Nat) : Nat → List Nat →
    Nat → Bool → Timed (List Nat × Nat × Bool)
  | 0, _, _, _ => throwT .fuel
  | fuel + 1, lhs, m, overflow =>
    let n := rhs.length
    if 2 * n ≤ m then do
      let (lhs, o) ← onSlice lhs (m - 2 * n) m
        (fun s => dcSameLen (dcSmall W fd mem (bitLen n + 1)) s rhs)
      assertR (o = true → m = lhs.length)
      dcLoop W fd mem rhs fuel lhs (m - n) (overflow || o)
    else pure (lhs, m, overflow)

/-- /repo/src/div/divide_conquer.rs:35-63 `divide_conquer::div_rem_in_place` -/
def dcDivRem (W : Nat) (lhs rhs : List Nat) (fd : FastDivideNormalized) (mem : Nat) :
    Timed (List Nat × Bool) := do
  assertR (rhs.length + divMaxLenSimple < lhs.length ∧ divMaxLenSimple < rhs.length)
  let n := rhs.length
  assertR (divMaxLenSimple < n ∧ n ≤ lhs.length)
  let (lhs, m, overflow) ← dcLoop W fd mem rhs (lhs.length + 1) lhs lhs.length false
  if n < m then
    let (lhs, o) ← onSlice lhs 0 m (fun s => dcSmall W fd mem (bitLen n + 1) s rhs)
    assertR (o = true → m = lhs.length)
    pure (lhs, overflow || o)
  else pure (lhs, overflow)

/-- /repo/src/div/mod.rs:130-143 `div_rem_in_place` -/
def divRemInPlace (W : Nat) (lhs rhs : List Nat) (fd : FastDivideNormalized) (mem : Nat) :
    Timed (List Nat × Bool) := do
  assertR (rhs.length ≤ lhs.length ∧ 2 ≤ rhs.length)
  if rhs.length ≤ divMaxLenSimple ∨ lhs.length - rhs.length ≤ divMaxLenSimple then
    simpleDivRem W lhs rhs fd
  else dcDivRem W lhs rhs fd mem

end Ibig.Timed
