import Verif.Model.MulOpsTime
import Verif.Model.DivTime
import Verif.Model.DivOps
/-!
The operators `/`, `%` and `div_rem` with the number of their steps: the text of Model/DivOps.lean with counting
functions.
-/
namespace Ibig.Timed

/-- /repo/src/buffer.rs:127-131: moves the remaining words -/
def Buffer.eraseFront (self : Buffer) (n : Nat) : Timed Buffer :=
  pass (self.words.length + 1) (Ibig.Buffer.eraseFront self n)
/-- /repo/src/buffer.rs:142-150: copies the words of the source, may allocate -/
def Buffer.resizingCloneFrom (cfg : Cfg) (self src : Buffer) : Timed Buffer :=
  pass (src.words.length + 2) (Ibig.Buffer.resizingCloneFrom cfg self src)
/-- /repo/src/ubig.rs:122-129: copies the words -/
def UBig.clone (cfg : Cfg) (a : UBig) : Timed UBig := pass (a.len + 1) (Ibig.UBig.clone cfg a)

/-- /repo/src/div_ops.rs:1282-1287 `div_word` -/
def UBig.divWord (a b : Nat) : Timed UBig := pass 1 (Ibig.UBig.divWord a b)
/-- /repo/src/div_ops.rs:1291-1296 `rem_word` -/
def UBig.remWord (a b : Nat) : Timed UBig := pass 1 (Ibig.UBig.remWord a b)
/-- /repo/src/div_ops.rs:1300-1306 `div_rem_word` -/
def UBig.divRemWord (a b : Nat) : Timed (UBig × UBig) := pass 1 (Ibig.UBig.divRemWord a b)

/-- /repo/src/div_ops.rs:1323-1329 `div_rem_large_word` -/
def UBig.divRemLargeWord (cfg : Cfg) (buffer : Buffer) (rhs : Nat) : Timed (UBig × UBig) :=
  if rhs = 0 then throwT .divideByZero
  else do
    let (ws, rem) ← divByWord cfg.W buffer.words rhs
    let q ← UBig.ofBuffer cfg { buffer with words := ws }
    pure (q, .small rem)

/-- /repo/src/div_ops.rs:1309-1312 `div_large_word` -/
def UBig.divLargeWord (cfg : Cfg) (lhs : Buffer) (rhs : Nat) : Timed UBig := do
  let (q, _) ← UBig.divRemLargeWord cfg lhs rhs
  pure q

/-- /repo/src/div_ops.rs:1315-1320 `rem_large_word` -/
def UBig.remLargeWord (cfg : Cfg) (lhs : List Nat) (rhs : Nat) : Timed UBig :=
  if rhs = 0 then throwT .divideByZero
  else do
    let r ← remByWord cfg.W lhs rhs
    pure (.small r)

/-- `push_may_reallocate` unless the word is zero (/repo/src/div_ops.rs:1365-1367) -/
def Buffer.pushCarry (cfg : Cfg) (b : Buffer) (carry : Nat) : Timed Buffer :=
  if carry ≠ 0 then Buffer.pushMayReallocate cfg b carry else pure b

/-- /repo/src/div/mod.rs:111-119 -/
def divMemoryRequirement (lhsLen rhsLen : Nat) : Timed Nat := pass 1 (Ibig.divMemoryRequirement lhsLen rhsLen)

/-- /repo/src/div_ops.rs:1362-1376 `div_rem_in_lhs`: new `lhs`, new `rhs`, shift -/
def UBig.divRemInLhs (cfg : Cfg) (lhs rhs : Buffer) : Timed (Buffer × Buffer × Nat) := do
  let (rw, shift, fd) ← normalizeLarge cfg.W rhs.words
  let (lw, carry) ← shlInPlace cfg.W lhs.words shift
  let lhs ← Buffer.pushCarry cfg { lhs with words := lw } carry
  let req ← divMemoryRequirement lhs.len rw.length
  let mem ← allocMemory cfg req
  let (lw, overflow) ← divRemInPlace cfg.W lhs.words rw fd mem
  let lhs ← Buffer.pushCarry cfg { lhs with words := lw } overflow.toNat
  pure (lhs, { rhs with words := rw }, shift)

/-- /repo/src/div_ops.rs:1332-1336 `div_large` -/
def UBig.divLarge (cfg : Cfg) (lhs rhs : Buffer) : Timed UBig := do
  let (lhs, rhs, _) ← UBig.divRemInLhs cfg lhs rhs
  let lhs ← Buffer.eraseFront lhs rhs.len
  UBig.ofBuffer cfg lhs

/-- /repo/src/div_ops.rs:1341-1344: move the remainder to `rhs` and undo the shift; copying is a step for each
word -/
def takeRemainder (W : Nat) (lhs rhs : Buffer) (shift : Nat) : Timed Buffer := do
  let r ← pass (rhs.len + 1) (Ibig.sliceR lhs.words 0 rhs.len)
  let (ws, lowBits) ← shrInPlace W r shift
  assertR (lowBits = 0)
  pure { rhs with words := ws }

/-- /repo/src/div_ops.rs:1339-1346 `rem_large` -/
def UBig.remLarge (cfg : Cfg) (lhs rhs : Buffer) : Timed UBig := do
  let (lhs, rhs, shift) ← UBig.divRemInLhs cfg lhs rhs
  let rhs ← takeRemainder cfg.W lhs rhs shift
  UBig.ofBuffer cfg rhs

/-- /repo/src/div_ops.rs:1349-1357 `div_rem_large` -/
def UBig.divRemLarge (cfg : Cfg) (lhs rhs : Buffer) : Timed (UBig × UBig) := do
  let (lhs, rhs, shift) ← UBig.divRemInLhs cfg lhs rhs
  let n := rhs.len
  let rhs ← takeRemainder cfg.W lhs rhs shift
  let lhs ← Buffer.eraseFront lhs n
  let q ← UBig.ofBuffer cfg lhs
  let r ← UBig.ofBuffer cfg rhs
  pure (q, r)

/-- `buffer` or `buffer.clone()`, by ownership of the operand -/
def Buffer.own (cfg : Cfg) (o : Own) (b : Buffer) : Timed Buffer :=
  match o with
  | .val => pure b
  | .ref => Buffer.clone cfg b

/-- The four `Div` impls, /repo/src/div_ops.rs:21-99. -/
def UBig.div (cfg : Cfg) (o0 o1 : Own) : UBig → UBig → Timed UBig
  | .small w0, .small w1 => UBig.divWord w0 w1
  | .small _, .large _ => pure (.small 0)
  | .large b0, .small w1 => do
    let b0 ← Buffer.own cfg o0 b0
    UBig.divLargeWord cfg b0 w1
  | .large b0, .large b1 =>
    if b1.len ≤ b0.len then do
      let b0 ← Buffer.own cfg o0 b0
      let b1 ← Buffer.own cfg o1 b1
      UBig.divLarge cfg b0 b1
    else pure (.small 0)

/-- The remainder when the dividend is shorter: /repo/src/div_ops.rs:128, 148, 168-170, 190 -/
def UBig.shorterRem (cfg : Cfg) (o0 o1 : Own) (b0 b1 : Buffer) : Timed UBig :=
  match o0, o1 with
  | .val, _ => UBig.ofBuffer cfg b0
  | .ref, .val => do
    let b1 ← Buffer.resizingCloneFrom cfg b1 b0
    UBig.ofBuffer cfg b1
  | .ref, .ref => UBig.clone cfg (.large b0)

/-- The four `Rem` impls, /repo/src/div_ops.rs:115-195. -/
def UBig.rem (cfg : Cfg) (o0 o1 : Own) : UBig → UBig → Timed UBig
  | .small w0, .small w1 => UBig.remWord w0 w1
  | .small w0, .large _ => pure (.small w0)
  | .large b0, .small w1 => UBig.remLargeWord cfg b0.words w1
  | .large b0, .large b1 =>
    if b1.len ≤ b0.len then do
      let b0 ← Buffer.own cfg o0 b0
      let b1 ← Buffer.own cfg o1 b1
      UBig.remLarge cfg b0 b1
    else UBig.shorterRem cfg o0 o1 b0 b1

/-- The four `DivRem` impls, /repo/src/div_ops.rs:211-295. -/
def UBig.divRem (cfg : Cfg) (o0 o1 : Own) : UBig → UBig → Timed (UBig × UBig)
  | .small w0, .small w1 => UBig.divRemWord w0 w1
  | .small w0, .large _ => pure (.small 0, .small w0)
  | .large b0, .small w1 => do
    let b0 ← Buffer.own cfg o0 b0
    UBig.divRemLargeWord cfg b0 w1
  | .large b0, .large b1 =>
    if b1.len ≤ b0.len then do
      let b0 ← Buffer.own cfg o0 b0
      let b1 ← Buffer.own cfg o1 b1
      UBig.divRemLarge cfg b0 b1
    else do
      let r ← UBig.shorterRem cfg o0 o1 b0 b1
      pure (.small 0, r)

/-- /repo/src/div_ops.rs:409-455 `Div for IBig` -/
def IBig.div (cfg : Cfg) (o0 o1 : Own) (a b : IBig) : Timed IBig := do
  let q ← UBig.div cfg o0 o1 a.mag b.mag
  pure (.fromSignMagnitude (a.sign.mul b.sign) q)

/-- /repo/src/div_ops.rs:471-517 `Rem for IBig` -/
def IBig.rem (cfg : Cfg) (o0 o1 : Own) (a b : IBig) : Timed IBig := do
  let r ← UBig.rem cfg o0 o1 a.mag b.mag
  pure (.fromSignMagnitude a.sign r)

/-- /repo/src/div_ops.rs:533-599 `DivRem for IBig` -/
def IBig.divRem (cfg : Cfg) (o0 o1 : Own) (a b : IBig) : Timed (IBig × IBig) := do
  let (q, r) ← UBig.divRem cfg o0 o1 a.mag b.mag
  pure (.fromSignMagnitude (a.sign.mul b.sign) q, .fromSignMagnitude a.sign r)

end Ibig.Timed
