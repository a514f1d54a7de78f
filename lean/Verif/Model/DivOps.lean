import Verif.Model.AddOps
import Verif.Model.Div
import Verif.Model.DivWord
/-! Model of /repo/src/div_ops.rs. `x /= y`, `x %= y` are the by-value operators on `mem::take(x)`. -/
namespace Ibig

/-- /repo/src/div_ops.rs:1282-1287 `div_word` -/
def UBig.divWord (a b : Nat) : R UBig := if b = 0 then .error .divideByZero else .ok (.small (a / b))

/-- /repo/src/div_ops.rs:1291-1296 `rem_word` -/
def UBig.remWord (a b : Nat) : R UBig := if b = 0 then .error .divideByZero else .ok (.small (a % b))

/-- /repo/src/div_ops.rs:1300-1306 `div_rem_word` -/
def UBig.divRemWord (a b : Nat) : R (UBig × UBig) :=
  if b = 0 then .error .divideByZero else .ok (.small (a / b), .small (a % b))

/-- /repo/src/div_ops.rs:1323-1329 `div_rem_large_word` -/
def UBig.divRemLargeWord (cfg : Cfg) (buffer : Buffer) (rhs : Nat) : R (UBig × UBig) :=
  if rhs = 0 then .error .divideByZero
  else do
    let (ws, rem) ← divByWord cfg.W buffer.words rhs
    let q ← UBig.ofBuffer cfg { buffer with words := ws }
    .ok (q, .small rem)

/-- /repo/src/div_ops.rs:1309-1312 `div_large_word` -/
def UBig.divLargeWord (cfg : Cfg) (lhs : Buffer) (rhs : Nat) : R UBig := do
  let (q, _) ← UBig.divRemLargeWord cfg lhs rhs
  .ok q

/-- /repo/src/div_ops.rs:1315-1320 `rem_large_word` -/
def UBig.remLargeWord (cfg : Cfg) (lhs : List Nat) (rhs : Nat) : R UBig :=
  if rhs = 0 then .error .divideByZero
  else do
    let r ← remByWord cfg.W lhs rhs
    .ok (.small r)

/-- `push_may_reallocate` unless the word is zero (/repo/src/div_ops.rs:1365-1367) -/
def Buffer.pushCarry (cfg : Cfg) (b : Buffer) (carry : Nat) : R Buffer :=
  if carry ≠ 0 then b.pushMayReallocate cfg carry else .ok b

/-- /repo/src/div_ops.rs:1362-1376 `div_rem_in_lhs`: new `lhs`, new `rhs`, shift -/
def UBig.divRemInLhs (cfg : Cfg) (lhs rhs : Buffer) : R (Buffer × Buffer × Nat) := do
  let (rw, shift, fd) ← normalizeLarge cfg.W rhs.words
  let (lw, carry) ← shlInPlace cfg.W lhs.words shift
  let lhs ← ({ lhs with words := lw } : Buffer).pushCarry cfg carry
  let req ← divMemoryRequirement lhs.len rw.length
  let mem ← allocMemory cfg req
  let (lw, overflow) ← divRemInPlace cfg.W lhs.words rw fd mem
  let lhs ← ({ lhs with words := lw } : Buffer).pushCarry cfg overflow.toNat
  .ok (lhs, { rhs with words := rw }, shift)

/-- /repo/src/div_ops.rs:1332-1336 `div_large` -/
def UBig.divLarge (cfg : Cfg) (lhs rhs : Buffer) : R UBig := do
  let (lhs, rhs, _) ← UBig.divRemInLhs cfg lhs rhs
  let lhs ← lhs.eraseFront rhs.len
  UBig.ofBuffer cfg lhs

/-- /repo/src/div_ops.rs:1341-1344: move the remainder to `rhs` and undo the shift
(`rhs.copy_from_slice(&lhs[..n])` with `n = rhs.len()`) -/
def takeRemainder (W : Nat) (lhs rhs : Buffer) (shift : Nat) : R Buffer := do
  let r ← sliceR lhs.words 0 rhs.len
  let (ws, lowBits) ← shrInPlace W r shift
  assertR (lowBits = 0)
  .ok { rhs with words := ws }

/-- /repo/src/div_ops.rs:1339-1346 `rem_large` -/
def UBig.remLarge (cfg : Cfg) (lhs rhs : Buffer) : R UBig := do
  let (lhs, rhs, shift) ← UBig.divRemInLhs cfg lhs rhs
  let rhs ← takeRemainder cfg.W lhs rhs shift
  UBig.ofBuffer cfg rhs

/-- /repo/src/div_ops.rs:1349-1357 `div_rem_large` -/
def UBig.divRemLarge (cfg : Cfg) (lhs rhs : Buffer) : R (UBig × UBig) := do
  let (lhs, rhs, shift) ← UBig.divRemInLhs cfg lhs rhs
  let n := rhs.len
  let rhs ← takeRemainder cfg.W lhs rhs shift
  let lhs ← lhs.eraseFront n
  let q ← UBig.ofBuffer cfg lhs
  let r ← UBig.ofBuffer cfg rhs
  .ok (q, r)

/-- `buffer` or `buffer.clone()`, by ownership of the operand -/
def Buffer.own (cfg : Cfg) (o : Own) (b : Buffer) : R Buffer :=
  match o with
  | .val => .ok b
  | .ref => b.clone cfg

/-- The four `Div` impls, /repo/src/div_ops.rs:21-99. -/
def UBig.div (cfg : Cfg) (o0 o1 : Own) : UBig → UBig → R UBig
  | .small w0, .small w1 => UBig.divWord w0 w1
  | .small _, .large _ => .ok (.small 0)
  | .large b0, .small w1 => do
    let b0 ← b0.own cfg o0
    UBig.divLargeWord cfg b0 w1
  | .large b0, .large b1 =>
    if b1.len ≤ b0.len then do
      let b0 ← b0.own cfg o0
      let b1 ← b1.own cfg o1
      UBig.divLarge cfg b0 b1
    else .ok (.small 0)

/-- The remainder when the dividend is shorter: /repo/src/div_ops.rs:128, 148, 168-170, 190 -/
def UBig.shorterRem (cfg : Cfg) (o0 o1 : Own) (b0 b1 : Buffer) : R UBig :=
  match o0, o1 with
  | .val, _ => UBig.ofBuffer cfg b0
  | .ref, .val => do
    let b1 ← b1.resizingCloneFrom cfg b0
    UBig.ofBuffer cfg b1
  | .ref, .ref => UBig.clone cfg (.large b0)

/-- The four `Rem` impls, /repo/src/div_ops.rs:115-195. -/
def UBig.rem (cfg : Cfg) (o0 o1 : Own) : UBig → UBig → R UBig
  | .small w0, .small w1 => UBig.remWord w0 w1
  | .small w0, .large _ => .ok (.small w0)
  | .large b0, .small w1 => UBig.remLargeWord cfg b0.words w1
  | .large b0, .large b1 =>
    if b1.len ≤ b0.len then do
      let b0 ← b0.own cfg o0
      let b1 ← b1.own cfg o1
      UBig.remLarge cfg b0 b1
    else UBig.shorterRem cfg o0 o1 b0 b1

/-- The four `DivRem` impls, /repo/src/div_ops.rs:211-295. -/
def UBig.divRem (cfg : Cfg) (o0 o1 : Own) : UBig → UBig → R (UBig × UBig)
  | .small w0, .small w1 => UBig.divRemWord w0 w1
  | .small w0, .large _ => .ok (.small 0, .small w0)
  | .large b0, .small w1 => do
    let b0 ← b0.own cfg o0
    UBig.divRemLargeWord cfg b0 w1
  | .large b0, .large b1 =>
    if b1.len ≤ b0.len then do
      let b0 ← b0.own cfg o0
      let b1 ← b1.own cfg o1
      UBig.divRemLarge cfg b0 b1
    else do
      let r ← UBig.shorterRem cfg o0 o1 b0 b1
      .ok (.small 0, r)

/-- /repo/src/div_ops.rs:297-331 `DivEuclid for UBig` -/
def UBig.divEuclid (cfg : Cfg) (o0 o1 : Own) (a b : UBig) : R UBig := UBig.div cfg o0 o1 a b
/-- /repo/src/div_ops.rs:333-367 `RemEuclid for UBig` -/
def UBig.remEuclid (cfg : Cfg) (o0 o1 : Own) (a b : UBig) : R UBig := UBig.rem cfg o0 o1 a b
/-- /repo/src/div_ops.rs:369-407 `DivRemEuclid for UBig` -/
def UBig.divRemEuclid (cfg : Cfg) (o0 o1 : Own) (a b : UBig) : R (UBig × UBig) :=
  UBig.divRem cfg o0 o1 a b

/-- /repo/src/div_ops.rs:409-455 `Div for IBig` -/
def IBig.div (cfg : Cfg) (o0 o1 : Own) (a b : IBig) : R IBig := do
  let q ← UBig.div cfg o0 o1 a.mag b.mag
  .ok (.fromSignMagnitude (a.sign.mul b.sign) q)

/-- /repo/src/div_ops.rs:471-517 `Rem for IBig` -/
def IBig.rem (cfg : Cfg) (o0 o1 : Own) (a b : IBig) : R IBig := do
  let r ← UBig.rem cfg o0 o1 a.mag b.mag
  .ok (.fromSignMagnitude a.sign r)

/-- /repo/src/div_ops.rs:533-599 `DivRem for IBig` -/
def IBig.divRem (cfg : Cfg) (o0 o1 : Own) (a b : IBig) : R (IBig × IBig) := do
  let (q, r) ← UBig.divRem cfg o0 o1 a.mag b.mag
  .ok (.fromSignMagnitude (a.sign.mul b.sign) q, .fromSignMagnitude a.sign r)

/-- /repo/src/div_ops.rs:601-653 `DivEuclid for IBig` (`q - s` by value) -/
def IBig.divEuclid (cfg : Cfg) (o0 o1 : Own) (a b : IBig) : R IBig := do
  let s := b.signum
  let (q, r) ← IBig.divRem cfg o0 o1 a b
  match r.sign with
  | .pos => .ok q
  | .neg => IBig.sub cfg .val .val q s

/-- /repo/src/div_ops.rs:655-705 `RemEuclid for IBig` (always `self % &rhs` or `self % rhs` with a
reference on the right) -/
def IBig.remEuclid (cfg : Cfg) (o0 o1 : Own) (a b : IBig) : R IBig := do
  let r ← IBig.rem cfg o0 .ref a b
  match r.sign with
  | .pos => .ok r
  | .neg => do
    let m ← b.abs cfg o1
    IBig.add cfg .val .val r m

/-- /repo/src/div_ops.rs:707-761 `DivRemEuclid for IBig` -/
def IBig.divRemEuclid (cfg : Cfg) (o0 o1 : Own) (a b : IBig) : R (IBig × IBig) := do
  let (q, r) ← IBig.divRem cfg o0 .ref a b
  match r.sign with
  | .pos => .ok (q, r)
  | .neg => do
    let q ← IBig.sub cfg .val .val q b.signum
    let m ← b.abs cfg o1
    let r ← IBig.add cfg .val .val r m
    .ok (q, r)

end Ibig
