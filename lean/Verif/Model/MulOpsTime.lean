import Verif.Model.MulTime
import Verif.Model.MulOps
/-!
The operators `*` with the number of their steps: the text of Model/MulOps.lean with counting functions.
-/
namespace Ibig.Timed

/-! Buffers: allocating memory is one step (in the Rust code too it does not initialise the memory); copying,
filling and dropping leading zeros are steps for each word. -/

/-- /repo/src/buffer.rs:24-29 -/
def Buffer.allocate (cfg : Cfg) (n : Nat) : Timed Buffer := pass 1 (Ibig.Buffer.allocate cfg n)
/-- /repo/src/buffer.rs:89-92 -/
def Buffer.pushZeros (self : Buffer) (n : Nat) : Timed Buffer := pass (n + 1) (Ibig.Buffer.pushZeros self n)
/-- /repo/src/buffer.rs:79-82: may copy the words to new memory -/
def Buffer.pushMayReallocate (cfg : Cfg) (self : Buffer) (w : Nat) : Timed Buffer :=
  pass (self.words.length + 2) (Ibig.Buffer.pushMayReallocate cfg self w)
/-- /repo/src/buffer.rs:183-187 -/
def Buffer.clone (cfg : Cfg) (self : Buffer) : Timed Buffer :=
  pass (self.words.length + 1) (Ibig.Buffer.clone cfg self)
/-- /repo/src/ubig.rs:142-160: drops leading zeros, may copy the words to new memory -/
def UBig.ofBuffer (cfg : Cfg) (buffer : Buffer) : Timed UBig :=
  pass (2 * buffer.words.length + 2) (Ibig.UBig.ofBuffer cfg buffer)
/-- /repo/src/memory.rs:24-40 -/
def allocMemory (cfg : Cfg) (n : Nat) : Timed Nat := pass 1 (Ibig.allocMemory cfg n)

/-- /repo/src/mul_ops.rs:304-306 `mul_word`: the product of two words, of constant length -/
def UBig.mulWord (cfg : Cfg) (a b : Nat) : Timed UBig := pass 8 (Ibig.UBig.mulWord cfg a b)

/-- /repo/src/mul_ops.rs:309-321 `mul_large_word` -/
def UBig.mulLargeWord (cfg : Cfg) (buffer : Buffer) (a : Nat) : Timed UBig :=
  if a = 0 then pure (.small 0)
  else if a = 1 then UBig.ofBuffer cfg buffer
  else do
    let (ws, carry) ← Timed.mulWord cfg.W buffer.words a
    let buffer := { buffer with words := ws }
    if carry ≠ 0 then
      let buffer ← Buffer.pushMayReallocate cfg buffer carry
      UBig.ofBuffer cfg buffer
    else UBig.ofBuffer cfg buffer

/-- /repo/src/mul_ops.rs:324-341 `mul_large` -/
def UBig.mulLarge (cfg : Cfg) (lhs rhs : List Nat) : Timed UBig := do
  assertR (2 ≤ lhs.length ∧ 2 ≤ rhs.length)
  let resLen := lhs.length + rhs.length
  let buffer ← Buffer.allocate cfg resLen
  let buffer ← Buffer.pushZeros buffer resLen
  let mem ← allocMemory cfg (mulMemoryRequirement (min lhs.length rhs.length))
  let (ws, overflow) ← addSignedMul cfg.W buffer.words .pos lhs rhs mem
  assertR (overflow = 0)
  UBig.ofBuffer cfg { buffer with words := ws }

/-- /repo/src/mul_ops.rs:20-32 `impl Mul<UBig> for UBig` -/
def UBig.mulVV (cfg : Cfg) : UBig → UBig → Timed UBig
  | .small w0, .small w1 => UBig.mulWord cfg w0 w1
  | .small w0, .large b1 => UBig.mulLargeWord cfg b1 w0
  | .large b0, .small w1 => UBig.mulLargeWord cfg b0 w1
  | .large b0, .large b1 => UBig.mulLarge cfg b0.words b1.words

/-- /repo/src/mul_ops.rs:34-46 `impl Mul<&UBig> for UBig` -/
def UBig.mulVR (cfg : Cfg) : UBig → UBig → Timed UBig
  | .small w0, .small w1 => UBig.mulWord cfg w0 w1
  | .small w0, .large b1 => do
    let b1 ← Buffer.clone cfg b1
    UBig.mulLargeWord cfg b1 w0
  | .large b0, .small w1 => UBig.mulLargeWord cfg b0 w1
  | .large b0, .large b1 => UBig.mulLarge cfg b0.words b1.words

/-- /repo/src/mul_ops.rs:57-69 `impl Mul<&UBig> for &UBig` -/
def UBig.mulRR (cfg : Cfg) : UBig → UBig → Timed UBig
  | .small w0, .small w1 => UBig.mulWord cfg w0 w1
  | .small w0, .large b1 => do
    let b1 ← Buffer.clone cfg b1
    UBig.mulLargeWord cfg b1 w0
  | .large b0, .small w1 => do
    let b0 ← Buffer.clone cfg b0
    UBig.mulLargeWord cfg b0 w1
  | .large b0, .large b1 => UBig.mulLarge cfg b0.words b1.words

/-- The four `Mul` impls (/repo/src/mul_ops.rs:20-69; 48-55 swaps the operands). -/
def UBig.mul (cfg : Cfg) : Own → Own → UBig → UBig → Timed UBig
  | .val, .val, a, b => UBig.mulVV cfg a b
  | .val, .ref, a, b => UBig.mulVR cfg a b
  | .ref, .val, a, b => UBig.mulVR cfg b a
  | .ref, .ref, a, b => UBig.mulRR cfg a b

/-- /repo/src/mul_ops.rs:85-125: the four `Mul` impls for `IBig` (107-114 swaps the operands) -/
def IBig.mul (cfg : Cfg) (o1 o2 : Own) (x y : IBig) : Timed IBig :=
  match o1, o2 with
  | .ref, .val => do
    let m ← UBig.mul cfg .val .ref y.mag x.mag
    pure (.fromSignMagnitude (y.sign.mul x.sign) m)
  | o1, o2 => do
    let m ← UBig.mul cfg o1 o2 x.mag y.mag
    pure (.fromSignMagnitude (x.sign.mul y.sign) m)

end Ibig.Timed
