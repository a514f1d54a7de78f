import Verif.Model.Prim
/-! Model of /repo/src/add.rs. `&mut [Word]` arguments are returned as the first component. -/
namespace Ibig

/-- /repo/src/add.rs:17-26 `add_one_in_place` -/
def addOne (W : Nat) : List Nat → List Nat × Bool
  | [] => ([], true)
  | w :: ws =>
    let (a, overflow) := overflowingAdd W w 1
    if !overflow then (a :: ws, false)
    else
      let (r, c) := addOne W ws
      (a :: r, c)

/-- /repo/src/add.rs:32-41 `sub_one_in_place` -/
def subOne (W : Nat) : List Nat → List Nat × Bool
  | [] => ([], true)
  | w :: ws =>
    let (a, borrow) := overflowingSub W w 1
    if !borrow then (a :: ws, false)
    else
      let (r, c) := subOne W ws
      (a :: r, c)

/-- /repo/src/add.rs:47-52 `add_word_in_place` -/
def addWord (W : Nat) (words : List Nat) (rhs : Nat) : R (List Nat × Bool) :=
  match words with
  | [] => .error .unwrap
  | w :: hi =>
    let (a, overflow) := overflowingAdd W w rhs
    if overflow then
      let (r, c) := addOne W hi
      .ok (a :: r, c)
    else .ok (a :: hi, false)

/-- /repo/src/add.rs:58-63 `sub_word_in_place` -/
def subWord (W : Nat) (words : List Nat) (rhs : Nat) : R (List Nat × Bool) :=
  match words with
  | [] => .error .unwrap
  | w :: hi =>
    let (a, borrow) := overflowingSub W w rhs
    if borrow then
      let (r, c) := subOne W hi
      .ok (a :: r, c)
    else .ok (a :: hi, false)

/-- loop of /repo/src/add.rs:72-78 (`zip` stops at the shorter sequence) -/
def addLoop (W : Nat) : List Nat → List Nat → Bool → List Nat × Bool
  | a :: as, b :: bs, carry =>
    let (sum, c) := addWithCarry W a b carry
    let (r, c') := addLoop W as bs c
    (sum :: r, c')
  | as, _, carry => (as, carry)

/-- /repo/src/add.rs:69-79 `add_same_len_in_place` -/
def addSameLen (W : Nat) (words rhs : List Nat) : R (List Nat × Bool) := do
  assertR (words.length = rhs.length)
  .ok (addLoop W words rhs false)

/-- loop of /repo/src/add.rs:87-93 -/
def subLoop (W : Nat) : List Nat → List Nat → Bool → List Nat × Bool
  | a :: as, b :: bs, borrow =>
    let (diff, c) := subWithBorrow W a b borrow
    let (r, c') := subLoop W as bs c
    (diff :: r, c')
  | as, _, borrow => (as, borrow)

/-- /repo/src/add.rs:85-94 `sub_same_len_in_place` -/
def subSameLen (W : Nat) (lhs rhs : List Nat) : R (List Nat × Bool) := do
  assertR (lhs.length = rhs.length)
  .ok (subLoop W lhs rhs false)

/-- /repo/src/add.rs:100-104 `add_in_place` -/
def addInPlace (W : Nat) (lhs rhs : List Nat) : R (List Nat × Bool) := do
  let (lo, hi) ← splitR lhs rhs.length
  let (lo', carry) ← addSameLen W lo rhs
  if carry then
    let (hi', c) := addOne W hi
    .ok (lo' ++ hi', c)
  else .ok (lo' ++ hi, false)

/-- /repo/src/add.rs:110-114 `sub_in_place` -/
def subInPlace (W : Nat) (lhs rhs : List Nat) : R (List Nat × Bool) := do
  let (lo, hi) ← splitR lhs rhs.length
  let (lo', borrow) ← subSameLen W lo rhs
  if borrow then
    let (hi', c) := subOne W hi
    .ok (lo' ++ hi', c)
  else .ok (lo' ++ hi, false)

/-- loop of /repo/src/add.rs:122-128: the result replaces the second operand -/
def subSwapLoop (W : Nat) : List Nat → List Nat → Bool → List Nat × Bool
  | a :: as, b :: bs, borrow =>
    let (diff, c) := subWithBorrow W a b borrow
    let (r, c') := subSwapLoop W as bs c
    (diff :: r, c')
  | _, bs, borrow => (bs, borrow)

/-- /repo/src/add.rs:120-129 `sub_same_len_in_place_swap`: new value of `rhs` and borrow -/
def subSameLenSwap (W : Nat) (lhs rhs : List Nat) : R (List Nat × Bool) := do
  assertR (lhs.length = rhs.length)
  .ok (subSwapLoop W lhs rhs false)

/-- loops of /repo/src/add.rs:135-142: the length without leading (most significant) zeros -/
def strippedLen (l : List Nat) : Nat → R Nat
  | 0 => .ok 0
  | n + 1 => do
    let x ← getR l n
    if x = 0 then strippedLen l n else .ok (n + 1)

/-- loop of /repo/src/add.rs:159-179 (lengths equal) -/
def subSignLoop (W : Nat) (lhs rhs : List Nat) : Nat → R (List Nat × Sign)
  | 0 => .ok (lhs, .pos)
  | n + 1 => do
    let x ← getR lhs n
    let y ← getR rhs n
    if y < x then
      let r ← sliceR rhs 0 (n + 1)
      let (lhs', overflow) ← onSlice lhs 0 (n + 1) (fun s => subSameLen W s r)
      assertR (overflow = false)
      .ok (lhs', .pos)
    else if x < y then
      let r ← sliceR rhs 0 (n + 1)
      let (lhs', overflow) ← onSlice lhs 0 (n + 1) (fun s => subSameLenSwap W r s)
      assertR (overflow = false)
      .ok (lhs', .neg)
    else
      let lhs' ← setR lhs n 0
      subSignLoop W lhs' rhs n

/-- /repo/src/add.rs:133-182 `sub_in_place_with_sign` -/
def subInPlaceWithSign (W : Nat) (lhs rhs : List Nat) : R (List Nat × Sign) := do
  assertR (rhs.length ≤ lhs.length)
  let lhsLen ← strippedLen lhs lhs.length
  let rhsLen ← strippedLen rhs rhs.length
  if rhsLen < lhsLen then
    let r ← sliceR rhs 0 rhsLen
    let (lhs', overflow) ← onSlice lhs 0 lhsLen (fun s => subInPlace W s r)
    assertR (overflow = false)
    .ok (lhs', .pos)
  else if lhsLen < rhsLen then
    let r ← sliceR rhs 0 lhsLen
    let (lhs', borrow) ← onSlice lhs 0 lhsLen (fun s => subSameLenSwap W r s)
    -- `copy_from_slice`
    let rHi ← sliceR rhs lhsLen rhsLen
    let (lhs'', _) ← onSlice lhs' lhsLen rhsLen (fun s => do
      assertR (s.length = rHi.length)
      .ok (rHi, ()))
    if borrow then
      let (lhs''', overflow) ← onSlice lhs'' lhsLen rhsLen (fun s => .ok (subOne W s))
      assertR (overflow = false)
      .ok (lhs''', .neg)
    else .ok (lhs'', .neg)
  else subSignLoop W lhs rhs lhsLen

/-- /repo/src/add.rs:188-196 `add_signed_word_in_place`.
A `SignedWord` is an `Int`; the callers check the range where carries are added (`ckInt`). -/
def addSignedWord (W : Nat) (words : List Nat) (rhs : Int) : R (List Nat × Int) :=
  if rhs = 0 ∨ words = [] then .ok (words, rhs)
  else if 0 ≤ rhs then do
    let (w, c) ← addWord W words rhs.natAbs
    .ok (w, (c.toNat : Int))
  else do
    let (w, c) ← subWord W words rhs.natAbs
    .ok (w, -(c.toNat : Int))

/-- /repo/src/add.rs:202-212 `add_signed_same_len_in_place` -/
def addSignedSameLen (W : Nat) (words : List Nat) (sign : Sign) (rhs : List Nat) :
    R (List Nat × Int) := do
  assertR (words.length = rhs.length)
  match sign with
  | .pos =>
    let (w, c) ← addSameLen W words rhs
    .ok (w, (c.toNat : Int))
  | .neg =>
    let (w, c) ← subSameLen W words rhs
    .ok (w, -(c.toNat : Int))

/-- /repo/src/add.rs:218-224 `add_signed_in_place` -/
def addSignedInPlace (W : Nat) (words : List Nat) (sign : Sign) (rhs : List Nat) :
    R (List Nat × Int) := do
  assertR (rhs.length ≤ words.length)
  match sign with
  | .pos =>
    let (w, c) ← addInPlace W words rhs
    .ok (w, (c.toNat : Int))
  | .neg =>
    let (w, c) ← subInPlace W words rhs
    .ok (w, -(c.toNat : Int))

end Ibig
