import Verif.Model.MulOpsTime
import Verif.Model.AddOps
/-!
The operators `+` and `-` with the number of their steps: the text of Model/AddOps.lean with counting functions.
-/
namespace Ibig.Timed

/-- /repo/src/buffer.rs:72-75 -/
def Buffer.push (self : Buffer) (w : Nat) : Timed Buffer := pass 1 (Ibig.Buffer.push self w)
/-- /repo/src/buffer.rs:213-233: copies the words -/
def Buffer.extend (self : Buffer) (ws : List Nat) : Timed Buffer :=
  pass (ws.length + 1) (Ibig.Buffer.extend self ws)
/-- /repo/src/buffer.rs:34-38: may copy the words to new memory -/
def Buffer.ensureCapacity (cfg : Cfg) (self : Buffer) (n : Nat) : Timed Buffer :=
  pass (self.words.length + 1) (Ibig.Buffer.ensureCapacity cfg self n)

/-- /repo/src/add_ops.rs:531-541 `add_word` -/
def UBig.addWord (cfg : Cfg) (a b : Nat) : Timed UBig := do
  let (res, overflow) := overflowingAdd cfg.W a b
  if overflow then
    let buffer ← Buffer.allocate cfg 2
    let buffer ← Buffer.push buffer res
    let buffer ← Buffer.push buffer 1
    UBig.ofBuffer cfg buffer
  else pure (.small res)

/-- /repo/src/add_ops.rs:544-550 `add_large_word` -/
def UBig.addLargeWord (cfg : Cfg) (buffer : Buffer) (rhs : Nat) : Timed UBig := do
  assertR (2 ≤ buffer.len)
  let (ws, overflow) ← Timed.addWord cfg.W buffer.words rhs
  let buffer := { buffer with words := ws }
  if overflow then
    let buffer ← Buffer.pushMayReallocate cfg buffer 1
    UBig.ofBuffer cfg buffer
  else UBig.ofBuffer cfg buffer

/-- /repo/src/add_ops.rs:556-559: append the rest of the longer operand -/
def appendRest (cfg : Cfg) (buffer : Buffer) (rhs : List Nat) (n : Nat) : Timed Buffer := do
  if n < rhs.length then
    let buffer ← Buffer.ensureCapacity cfg buffer rhs.length
    let hi ← sliceR rhs n rhs.length
    Buffer.extend buffer hi
  else pure buffer

/-- /repo/src/add_ops.rs:553-564 `add_large` -/
def UBig.addLarge (cfg : Cfg) (buffer : Buffer) (rhs : List Nat) : Timed UBig := do
  let n := min buffer.len rhs.length
  let r ← sliceR rhs 0 n
  let (ws, overflow) ← onSlice buffer.words 0 n (fun s => addSameLen cfg.W s r)
  let buffer ← appendRest cfg { buffer with words := ws } rhs n
  if overflow then
    let (ws, carry) ← onSlice buffer.words n buffer.len (fun s => addOne cfg.W s)
    let buffer := { buffer with words := ws }
    if carry then
      let buffer ← Buffer.pushMayReallocate cfg buffer 1
      UBig.ofBuffer cfg buffer
    else UBig.ofBuffer cfg buffer
  else UBig.ofBuffer cfg buffer

/-- /repo/src/add_ops.rs:18-36 `impl Add<UBig> for UBig` -/
def UBig.addVV (cfg : Cfg) : UBig → UBig → Timed UBig
  | .small w0, .small w1 => UBig.addWord cfg w0 w1
  | .small w0, .large b1 => UBig.addLargeWord cfg b1 w0
  | .large b0, .small w1 => UBig.addLargeWord cfg b0 w1
  | .large b0, .large b1 =>
    if b1.len ≤ b0.len then UBig.addLarge cfg b0 b1.words else UBig.addLarge cfg b1 b0.words

/-- /repo/src/add_ops.rs:38-50 `impl Add<&UBig> for UBig` -/
def UBig.addVR (cfg : Cfg) : UBig → UBig → Timed UBig
  | .small w0, .small w1 => UBig.addWord cfg w0 w1
  | .small w0, .large b1 => do
    let b1 ← Buffer.clone cfg b1
    UBig.addLargeWord cfg b1 w0
  | .large b0, .small w1 => UBig.addLargeWord cfg b0 w1
  | .large b0, .large b1 => UBig.addLarge cfg b0 b1.words

/-- /repo/src/add_ops.rs:61-79 `impl Add<&UBig> for &UBig` -/
def UBig.addRR (cfg : Cfg) : UBig → UBig → Timed UBig
  | .small w0, .small w1 => UBig.addWord cfg w0 w1
  | .small w0, .large b1 => do
    let b1 ← Buffer.clone cfg b1
    UBig.addLargeWord cfg b1 w0
  | .large b0, .small w1 => do
    let b0 ← Buffer.clone cfg b0
    UBig.addLargeWord cfg b0 w1
  | .large b0, .large b1 =>
    if b1.len ≤ b0.len then do
      let b0 ← Buffer.clone cfg b0
      UBig.addLarge cfg b0 b1.words
    else do
      let b1 ← Buffer.clone cfg b1
      UBig.addLarge cfg b1 b0.words

/-- The four `Add` impls (/repo/src/add_ops.rs:18-79; `&a + b` is `b + &a`, 52-59). -/
def UBig.add (cfg : Cfg) : Own → Own → UBig → UBig → Timed UBig
  | .val, .val, a, b => UBig.addVV cfg a b
  | .val, .ref, a, b => UBig.addVR cfg a b
  | .ref, .val, a, b => UBig.addVR cfg b a
  | .ref, .ref, a, b => UBig.addRR cfg a b

/-- /repo/src/add_ops.rs:568-573 `sub_word` -/
def UBig.subWord (a b : Nat) : Timed UBig := if b ≤ a then pure (.small (a - b)) else throwT .negativeUBig

/-- /repo/src/add_ops.rs:575-579 `sub_large_word` -/
def UBig.subLargeWord (cfg : Cfg) (lhs : Buffer) (rhs : Nat) : Timed UBig := do
  let (ws, overflow) ← Timed.subWord cfg.W lhs.words rhs
  assertR (overflow = false)
  UBig.ofBuffer cfg { lhs with words := ws }

/-- /repo/src/add_ops.rs:581-586 `sub_large` -/
def UBig.subLarge (cfg : Cfg) (lhs : Buffer) (rhs : List Nat) : Timed UBig := do
  if lhs.len < rhs.length then throwT .negativeUBig
  else
    let (ws, overflow) ← subInPlace cfg.W lhs.words rhs
    if overflow then throwT .negativeUBig
    else UBig.ofBuffer cfg { lhs with words := ws }

/-- /repo/src/add_ops.rs:588-600 `sub_large_ref_val` -/
def UBig.subLargeRefVal (cfg : Cfg) (lhs : List Nat) (rhs : Buffer) : Timed UBig := do
  let n := rhs.len
  if lhs.length < n then throwT .negativeUBig
  else
    let l ← sliceR lhs 0 n
    let (ws, borrow) ← subSameLenSwap cfg.W l rhs.words
    let rhs ← Buffer.ensureCapacity cfg { rhs with words := ws } lhs.length
    let hi ← sliceR lhs n lhs.length
    let rhs ← Buffer.extend rhs hi
    if borrow then
      let (ws, borrow) ← onSlice rhs.words n rhs.len (fun s => subOne cfg.W s)
      if borrow then throwT .negativeUBig
      else UBig.ofBuffer cfg { rhs with words := ws }
    else UBig.ofBuffer cfg rhs

/-- /repo/src/add_ops.rs:95-107 `impl Sub<UBig> for UBig` and 109-121 `impl Sub<&UBig> for UBig`
(textually the same apart from borrowing) -/
def UBig.subV (cfg : Cfg) : UBig → UBig → Timed UBig
  | .small w0, .small w1 => UBig.subWord w0 w1
  | .small _, .large _ => throwT .negativeUBig
  | .large b0, .small w1 => UBig.subLargeWord cfg b0 w1
  | .large b0, .large b1 => UBig.subLarge cfg b0 b1.words

/-- /repo/src/add_ops.rs:123-135 `impl Sub<UBig> for &UBig` -/
def UBig.subRV (cfg : Cfg) : UBig → UBig → Timed UBig
  | .small w0, .small w1 => UBig.subWord w0 w1
  | .small _, .large _ => throwT .negativeUBig
  | .large b0, .small w1 => do
    let b0 ← Buffer.clone cfg b0
    UBig.subLargeWord cfg b0 w1
  | .large b0, .large b1 => UBig.subLargeRefVal cfg b0.words b1

/-- /repo/src/add_ops.rs:137-149 `impl Sub<&UBig> for &UBig` -/
def UBig.subRR (cfg : Cfg) : UBig → UBig → Timed UBig
  | .small w0, .small w1 => UBig.subWord w0 w1
  | .small _, .large _ => throwT .negativeUBig
  | .large b0, .small w1 => do
    let b0 ← Buffer.clone cfg b0
    UBig.subLargeWord cfg b0 w1
  | .large b0, .large b1 => do
    let b0 ← Buffer.clone cfg b0
    UBig.subLarge cfg b0 b1.words

/-- The four `Sub` impls (/repo/src/add_ops.rs:95-149). -/
def UBig.sub (cfg : Cfg) : Own → Own → UBig → UBig → Timed UBig
  | .val, _, a, b => UBig.subV cfg a b
  | .ref, .val, a, b => UBig.subRV cfg a b
  | .ref, .ref, a, b => UBig.subRR cfg a b

/-- /repo/src/add_ops.rs:716-718 `sub_large_word` -/
def IBig.subLargeWord (cfg : Cfg) (lhs : Buffer) (rhs : Nat) : Timed IBig := do
  let x ← UBig.subLargeWord cfg lhs rhs
  pure (.ofUBig x)

/-- /repo/src/add_ops.rs:720-728 `sub_large` -/
def IBig.subLarge (cfg : Cfg) (lhs : Buffer) (rhs : List Nat) : Timed IBig := do
  if rhs.length ≤ lhs.len then
    let (ws, sign) ← subInPlaceWithSign cfg.W lhs.words rhs
    let x ← UBig.ofBuffer cfg { lhs with words := ws }
    pure (.fromSignMagnitude sign x)
  else
    let x ← UBig.subLargeRefVal cfg rhs lhs
    pure (.fromSignMagnitude .neg x)

/-- `-x` for a computed `IBig` -/
def negR (x : Timed IBig) : Timed IBig := do
  let x ← x
  pure x.neg

/-- `IBig::from(x)` for a computed `UBig` -/
def ofUBigR (x : Timed UBig) : Timed IBig := do
  let x ← x
  pure (.ofUBig x)

/-- /repo/src/add_ops.rs:665-678 `sub_ubig_val_val` -/
def IBig.subUBigVV (cfg : Cfg) : UBig → UBig → Timed IBig
  | .small w0, .small w1 => pure (Ibig.IBig.subWordWord cfg.W w0 w1)
  | .small w0, .large b1 => negR (IBig.subLargeWord cfg b1 w0)
  | .large b0, .small w1 => IBig.subLargeWord cfg b0 w1
  | .large b0, .large b1 =>
    if b1.len ≤ b0.len then IBig.subLarge cfg b0 b1.words
    else negR (IBig.subLarge cfg b1 b0.words)

/-- /repo/src/add_ops.rs:681-688 `sub_ubig_val_ref` -/
def IBig.subUBigVR (cfg : Cfg) : UBig → UBig → Timed IBig
  | .small w0, .small w1 => pure (Ibig.IBig.subWordWord cfg.W w0 w1)
  | .small w0, .large b1 => do
    let b1 ← Buffer.clone cfg b1
    negR (IBig.subLargeWord cfg b1 w0)
  | .large b0, .small w1 => IBig.subLargeWord cfg b0 w1
  | .large b0, .large b1 => IBig.subLarge cfg b0 b1.words

/-- /repo/src/add_ops.rs:691-704 `sub_ubig_ref_ref` -/
def IBig.subUBigRR (cfg : Cfg) : UBig → UBig → Timed IBig
  | .small w0, .small w1 => pure (Ibig.IBig.subWordWord cfg.W w0 w1)
  | .small w0, .large b1 => do
    let b1 ← Buffer.clone cfg b1
    negR (IBig.subLargeWord cfg b1 w0)
  | .large b0, .small w1 => do
    let b0 ← Buffer.clone cfg b0
    IBig.subLargeWord cfg b0 w1
  | .large b0, .large b1 =>
    if b1.len ≤ b0.len then do
      let b0 ← Buffer.clone cfg b0
      IBig.subLarge cfg b0 b1.words
    else do
      let b1 ← Buffer.clone cfg b1
      negR (IBig.subLarge cfg b1 b0.words)

/-- /repo/src/add_ops.rs:165-179 `impl Add<IBig> for IBig` -/
def IBig.addVV (cfg : Cfg) (x y : IBig) : Timed IBig :=
  match x.sign, y.sign with
  | .pos, .pos => ofUBigR (UBig.add cfg .val .val x.mag y.mag)
  | .pos, .neg => IBig.subUBigVV cfg x.mag y.mag
  | .neg, .pos => IBig.subUBigVV cfg y.mag x.mag
  | .neg, .neg => negR (ofUBigR (UBig.add cfg .val .val x.mag y.mag))

/-- /repo/src/add_ops.rs:181-195 `impl Add<&IBig> for IBig` -/
def IBig.addVR (cfg : Cfg) (x y : IBig) : Timed IBig :=
  match x.sign, y.sign with
  | .pos, .pos => ofUBigR (UBig.add cfg .val .ref x.mag y.mag)
  | .pos, .neg => IBig.subUBigVR cfg x.mag y.mag
  | .neg, .pos => negR (IBig.subUBigVR cfg x.mag y.mag)
  | .neg, .neg => negR (ofUBigR (UBig.add cfg .val .ref x.mag y.mag))

/-- /repo/src/add_ops.rs:206-220 `impl Add<&IBig> for &IBig` -/
def IBig.addRR (cfg : Cfg) (x y : IBig) : Timed IBig :=
  match x.sign, y.sign with
  | .pos, .pos => ofUBigR (UBig.add cfg .ref .ref x.mag y.mag)
  | .pos, .neg => IBig.subUBigRR cfg x.mag y.mag
  | .neg, .pos => IBig.subUBigRR cfg y.mag x.mag
  | .neg, .neg => negR (ofUBigR (UBig.add cfg .ref .ref x.mag y.mag))

/-- The four `Add` impls (/repo/src/add_ops.rs:165-220; 197-204 swaps the operands). -/
def IBig.add (cfg : Cfg) : Own → Own → IBig → IBig → Timed IBig
  | .val, .val, a, b => IBig.addVV cfg a b
  | .val, .ref, a, b => IBig.addVR cfg a b
  | .ref, .val, a, b => IBig.addVR cfg b a
  | .ref, .ref, a, b => IBig.addRR cfg a b

/-- /repo/src/add_ops.rs:263-277 `impl Sub<&IBig> for &IBig` -/
def IBig.subRR (cfg : Cfg) (x y : IBig) : Timed IBig :=
  match x.sign, y.sign with
  | .pos, .pos => IBig.subUBigRR cfg x.mag y.mag
  | .pos, .neg => ofUBigR (UBig.add cfg .ref .ref x.mag y.mag)
  | .neg, .pos => negR (ofUBigR (UBig.add cfg .ref .ref x.mag y.mag))
  | .neg, .neg => IBig.subUBigRR cfg y.mag x.mag

/-- The four `Sub` impls (/repo/src/add_ops.rs:236-277). -/
def IBig.sub (cfg : Cfg) : Own → Own → IBig → IBig → Timed IBig
  | .val, .val, a, b => IBig.add cfg .val .val a b.neg
  | .val, .ref, a, b => negR (IBig.add cfg .val .ref a.neg b)
  | .ref, .val, a, b => IBig.add cfg .ref .val a b.neg
  | .ref, .ref, a, b => IBig.subRR cfg a b

end Ibig.Timed
