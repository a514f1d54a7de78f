import Verif.Model.AddOpsTime
/-!
Adding numbers to, or subtracting them from, an owned number again and again, with the exact number of steps of the buffer
functions.  (The counting functions of Model/MulOpsTime.lean and Model/AddOpsTime.lean count the steps of a reallocation
whether there is one or not, which is right for a bound on a single operation.)

The text of Model/Buffer.lean, Model/UBig.lean and Model/AddOps.lean with counting functions.
Not in the Rust code: the code does not count.
-/
namespace Ibig.Timed.Exact

/-- /repo/src/buffer.rs:53-58: copies the words to new memory -/
def Buffer.reallocate (cfg : Cfg) (self : Buffer) (n : Nat) : Timed Buffer :=
  pass (self.words.length + 1) (Ibig.Buffer.reallocate cfg self n)

/-- /repo/src/buffer.rs:34-38 `ensure_capacity` -/
def Buffer.ensureCapacity (cfg : Cfg) (self : Buffer) (n : Nat) : Timed Buffer := do
  tick
  if self.cap < n then Buffer.reallocate cfg self n else pure self

/-- /repo/src/buffer.rs:42-46 `shrink` -/
def Buffer.shrink (cfg : Cfg) (self : Buffer) : Timed Buffer := do
  let c ← pass 1 (maxCompactCapacity cfg self.len)
  if c < self.cap then Buffer.reallocate cfg self self.len else pure self

/-- /repo/src/buffer.rs:79-82 `push_may_reallocate` -/
def Buffer.pushMayReallocate (cfg : Cfg) (self : Buffer) (w : Nat) : Timed Buffer := do
  let b ← Buffer.ensureCapacity cfg self (self.len + 1)
  Timed.Buffer.push b w

/-- /repo/src/buffer.rs:112-116 `pop_leading_zeros`: one step for each zero, and one for the word that is not -/
def Buffer.popLeadingZeros (self : Buffer) : Timed Buffer :=
  pass (self.words.length - self.popLeadingZeros.words.length + 1) (.ok self.popLeadingZeros)

/-- /repo/src/ubig.rs:142-160 `impl From<Buffer> for UBig` -/
def UBig.ofBuffer (cfg : Cfg) (buffer : Buffer) : Timed UBig := do
  let b ← Buffer.popLeadingZeros buffer
  match b.words with
  | [] => pure (.small 0)
  | [w] => pure (.small w)
  | _ =>
    if cfg.maxLen < b.len then throwT .tooLarge
    else do
      let b ← Buffer.shrink cfg b
      pure (.large b)

/-- /repo/src/add_ops.rs:531-541 `add_word` -/
def UBig.addWord (cfg : Cfg) (a b : Nat) : Timed UBig := do
  let (res, overflow) := overflowingAdd cfg.W a b
  tick
  if overflow then
    let buffer ← Timed.Buffer.allocate cfg 2
    let buffer ← Timed.Buffer.push buffer res
    let buffer ← Timed.Buffer.push buffer 1
    UBig.ofBuffer cfg buffer
  else pure (.small res)

/-- /repo/src/add_ops.rs:544-550 `add_large_word` -/
def UBig.addLargeWord (cfg : Cfg) (buffer : Buffer) (rhs : Nat) : Timed UBig := do
  assertR (2 ≤ buffer.len)
  let (ws, overflow) ← Timed.addWord cfg.W buffer.words rhs
  let buffer := { buffer with words := ws }
  if overflow then
    let buffer ← Buffer.pushMayReallocate cfg buffer 1
    UBig.ofBuffer cfg buffer
  else UBig.ofBuffer cfg buffer

/-- /repo/src/add_ops.rs:556-559: append the rest of the longer operand -/
def appendRest (cfg : Cfg) (buffer : Buffer) (rhs : List Nat) (n : Nat) : Timed Buffer := do
  if n < rhs.length then
    let buffer ← Buffer.ensureCapacity cfg buffer rhs.length
    let hi ← sliceR rhs n rhs.length
    Timed.Buffer.extend buffer hi
  else pure buffer

/-- /repo/src/add_ops.rs:553-564 `add_large` -/
def UBig.addLarge (cfg : Cfg) (buffer : Buffer) (rhs : List Nat) : Timed UBig := do
  let n := min buffer.len rhs.length
  let r ← sliceR rhs 0 n
  let (ws, overflow) ← onSlice buffer.words 0 n (fun s => addSameLen cfg.W s r)
  let buffer ← appendRest cfg { buffer with words := ws } rhs n
  if overflow then
    let (ws, carry) ← onSlice buffer.words n buffer.len (fun s => addOne cfg.W s)
    let buffer := { buffer with words := ws }
    if carry then
      let buffer ← Buffer.pushMayReallocate cfg buffer 1
      UBig.ofBuffer cfg buffer
    else UBig.ofBuffer cfg buffer
  else UBig.ofBuffer cfg buffer

/-- /repo/src/add_ops.rs:18-36 `impl Add<UBig> for UBig` and 38-50 `impl Add<&UBig> for UBig`: the left operand is owned -/
def UBig.add (cfg : Cfg) : Own → UBig → UBig → Timed UBig
  | _, .small w0, .small w1 => UBig.addWord cfg w0 w1
  | .val, .small w0, .large b1 => UBig.addLargeWord cfg b1 w0
  | .ref, .small w0, .large b1 => do
    let b1 ← Timed.Buffer.clone cfg b1
    UBig.addLargeWord cfg b1 w0
  | _, .large b0, .small w1 => UBig.addLargeWord cfg b0 w1
  | .val, .large b0, .large b1 =>
    if b1.len ≤ b0.len then UBig.addLarge cfg b0 b1.words else UBig.addLarge cfg b1 b0.words
  | .ref, .large b0, .large b1 => UBig.addLarge cfg b0 b1.words

/-- /repo/src/add_ops.rs:575-579 `sub_large_word` -/
def UBig.subLargeWord (cfg : Cfg) (lhs : Buffer) (rhs : Nat) : Timed UBig := do
  let (ws, overflow) ← Timed.subWord cfg.W lhs.words rhs
  assertR (overflow = false)
  UBig.ofBuffer cfg { lhs with words := ws }

/-- /repo/src/add_ops.rs:581-586 `sub_large` -/
def UBig.subLarge (cfg : Cfg) (lhs : Buffer) (rhs : List Nat) : Timed UBig := do
  if lhs.len < rhs.length then throwT .negativeUBig
  else
    let (ws, overflow) ← subInPlace cfg.W lhs.words rhs
    if overflow then throwT .negativeUBig
    else UBig.ofBuffer cfg { lhs with words := ws }

/-- /repo/src/add_ops.rs:95-107 `impl Sub<UBig> for UBig` and 109-121 `impl Sub<&UBig> for UBig`
(textually the same apart from borrowing) -/
def UBig.sub (cfg : Cfg) : UBig → UBig → Timed UBig
  | .small w0, .small w1 => do
    tick
    Timed.UBig.subWord w0 w1
  | .small _, .large _ => throwT .negativeUBig
  | .large b0, .small w1 => UBig.subLargeWord cfg b0 w1
  | .large b0, .large b1 => UBig.subLarge cfg b0 b1.words

/-- `x += y` for each `y` of a list, each either owned or borrowed (/repo/src/add_ops.rs:81-93) -/
def addAll (cfg : Cfg) : UBig → List (Own × UBig) → Timed UBig
  | x, [] => pure x
  | x, (o, y) :: ys => do
    let x ← UBig.add cfg o x y
    addAll cfg x ys

/-- `x -= y` for each `y` of a list (/repo/src/add_ops.rs:151-163) -/
def subAll (cfg : Cfg) : UBig → List (Own × UBig) → Timed UBig
  | x, [] => pure x
  | x, (_, y) :: ys => do
    let x ← UBig.sub cfg x y
    subAll cfg x ys

/-- `x += 1; x -= 1` again and again -/
def upDown (cfg : Cfg) : UBig → Nat → Timed UBig
  | x, 0 => pure x
  | x, k + 1 => do
    let x ← UBig.add cfg .val x (.small 1)
    let x ← UBig.sub cfg x (.small 1)
    upDown cfg x k

end Ibig.Timed.Exact
