import Verif.Model.Accumulate
import Verif.Model.PowTime
import Verif.Model.ConvertTime
/-!
Setting and clearing bits of a number again and again, with the exact number of steps of the buffer functions: the text of
Model/Bits.lean with the counting functions of Model/Accumulate.lean.
Not in the Rust code: the code does not count.
-/
namespace Ibig.Timed.Exact

/-- /repo/src/bits.rs:67-75 `with_bit_word_slow` -/
def UBig.withBitWordSlow (cfg : Cfg) (word n : Nat) : Timed UBig := do
  assertR (cfg.W ≤ n)
  let idx := n / cfg.W
  let buffer ← Timed.Buffer.allocate cfg (idx + 1)
  let buffer ← Timed.Buffer.push buffer word
  let buffer ← Timed.Buffer.extend buffer (List.replicate (idx - 1) 0)
  let buffer ← Timed.Buffer.push buffer (2 ^ (n % cfg.W))
  UBig.ofBuffer cfg buffer

/-- /repo/src/bits.rs:77-87 `with_bit_large` -/
def UBig.withBitLarge (cfg : Cfg) (buffer : Buffer) (n : Nat) : Timed UBig := do
  let idx := n / cfg.W
  if idx < buffer.len then
    let w ← getR buffer.words idx
    let ws ← setR buffer.words idx (w ||| 2 ^ (n % cfg.W))
    UBig.ofBuffer cfg { buffer with words := ws }
  else
    let buffer ← Buffer.ensureCapacity cfg buffer (idx + 1)
    let k ← ckSub idx buffer.len
    let buffer ← Timed.Buffer.pushZeros buffer k
    let buffer ← Timed.Buffer.push buffer (2 ^ (n % cfg.W))
    UBig.ofBuffer cfg buffer

/-- /repo/src/bits.rs:54-65 `set_bit`: the new value of `self` -/
def UBig.setBit (cfg : Cfg) (x : UBig) (n : Nat) : Timed UBig := do
  tick
  match x with
  | .small word =>
    if n < cfg.W then pure (.small (word ||| 2 ^ (n % cfg.W))) else UBig.withBitWordSlow cfg word n
  | .large buffer => UBig.withBitLarge cfg buffer n

/-- /repo/src/bits.rs:111-117 `without_bit_large` -/
def UBig.withoutBitLarge (cfg : Cfg) (buffer : Buffer) (n : Nat) : Timed UBig := do
  let idx := n / cfg.W
  if idx < buffer.len then
    let w ← getR buffer.words idx
    let ws ← setR buffer.words idx (w &&& wordNot cfg.W (2 ^ (n % cfg.W)))
    UBig.ofBuffer cfg { buffer with words := ws }
  else UBig.ofBuffer cfg buffer

/-- /repo/src/bits.rs:100-109 `clear_bit` -/
def UBig.clearBit (cfg : Cfg) (x : UBig) (n : Nat) : Timed UBig := do
  tick
  match x with
  | .small word =>
    if n < cfg.W then pure (.small (word &&& wordNot cfg.W (2 ^ (n % cfg.W)))) else pure UBig.default
  | .large buffer => UBig.withoutBitLarge cfg buffer n

/-- one operation on a set of bits: `x.set_bit(n)` (`true`) or `x.clear_bit(n)` (`false`) -/
def UBig.putBit (cfg : Cfg) (x : UBig) : Bool × Nat → Timed UBig
  | (true, n) => UBig.setBit cfg x n
  | (false, n) => UBig.clearBit cfg x n

/-- a sequence of such operations -/
def putAll (cfg : Cfg) : UBig → List (Bool × Nat) → Timed UBig
  | x, [] => pure x
  | x, p :: ps => do
    let x ← UBig.putBit cfg x p
    putAll cfg x ps

end Ibig.Timed.Exact
