import Verif.Model.AddOpsTime
import Verif.Model.DivOpsTime
import Verif.Model.Pow
/-!
Exponentiation with the number of its steps: the text of Model/Pow.lean with counting functions.
-/
namespace Ibig.Timed

/-- /repo/src/bits.rs:67-75 `with_bit_word_slow` -/
def UBig.withBitWordSlow (cfg : Cfg) (word n : Nat) : Timed UBig := do
  assertR (cfg.W ≤ n)
  let idx := n / cfg.W
  let buffer ← Buffer.allocate cfg (idx + 1)
  let buffer ← Buffer.push buffer word
  let buffer ← Buffer.extend buffer (List.replicate (idx - 1) 0)
  let buffer ← Buffer.push buffer (2 ^ (n % cfg.W))
  UBig.ofBuffer cfg buffer

/-- /repo/src/bits.rs:77-87 `with_bit_large` -/
def UBig.withBitLarge (cfg : Cfg) (buffer : Buffer) (n : Nat) : Timed UBig := do
  let idx := n / cfg.W
  if idx < buffer.len then
    let w ← getR buffer.words idx
    let ws ← setR buffer.words idx (w ||| 2 ^ (n % cfg.W))
    UBig.ofBuffer cfg { buffer with words := ws }
  else
    let buffer ← Buffer.ensureCapacity cfg buffer (idx + 1)
    let k ← ckSub idx buffer.len
    let buffer ← Buffer.pushZeros buffer k
    let buffer ← Buffer.push buffer (2 ^ (n % cfg.W))
    UBig.ofBuffer cfg buffer

/-- /repo/src/bits.rs:54-65 `set_bit`: the new value of `self` -/
def UBig.setBit (cfg : Cfg) (x : UBig) (n : Nat) : Timed UBig :=
  match x with
  | .small word =>
    if n < cfg.W then pure (.small (word ||| 2 ^ (n % cfg.W))) else UBig.withBitWordSlow cfg word n
  | .large buffer => UBig.withBitLarge cfg buffer n

/-- /repo/src/pow.rs:39-41 `if exp & (1 << p) != 0 { res *= self; }` -/
def UBig.powMul (cfg : Cfg) (x : UBig) (exp p : Nat) (res : UBig) : Timed UBig :=
  if exp.testBit p then UBig.mul cfg .val .ref res x else pure res

/-- /repo/src/pow.rs:38-47 the loop of `UBig::pow`, from bit `p` of `exp` down to bit 0 -/
def UBig.powLoop (cfg : Cfg) (x : UBig) (exp : Nat) : Nat → UBig → Timed UBig
  | 0, res => do
    tick
    UBig.powMul cfg x exp 0 res
  | p + 1, res => do
    tick
    let res ← UBig.powMul cfg x exp (p + 1) res
    let res ← UBig.mul cfg .ref .ref res res
    UBig.powLoop cfg x exp p res

/-- /repo/src/pow.rs:36-48 the general case of `UBig::pow` -/
def UBig.powGeneral (cfg : Cfg) (x : UBig) (exp : Nat) : Timed UBig := do
  let s ← ckSub cfg.U 2
  let p ← ckSub s (leadingZeros cfg.U exp)
  let res ← UBig.mul cfg .ref .ref x x
  assertR (p < cfg.U)
  UBig.powLoop cfg x exp p res

/-- /repo/src/pow.rs:19-49 `UBig::pow` -/
def UBig.pow (cfg : Cfg) (x : UBig) (exp : Nat) : Timed UBig :=
  if exp = 0 then pure (.small 1)
  else if exp = 1 then UBig.clone cfg x
  else if exp = 2 then UBig.mul cfg .ref .ref x x
  else match x with
    | .small 0 => pure (.small 0)
    | .small 1 => pure (.small 1)
    | .small 2 => UBig.setBit cfg (.small 0) exp
    | _ => UBig.powGeneral cfg x exp

/-- /repo/src/pow.rs:62-69 `IBig::pow` -/
def IBig.pow (cfg : Cfg) (x : IBig) (exp : Nat) : Timed IBig := do
  let sign := if x.sign = .neg ∧ exp % 2 = 1 then Sign.neg else Sign.pos
  let m ← UBig.pow cfg x.mag exp
  pure (.fromSignMagnitude sign m)

end Ibig.Timed
