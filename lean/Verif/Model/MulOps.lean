import Verif.Model.Bytes
import Verif.Model.Mul
/-! Model of /repo/src/mul_ops.rs. `x *= y` is `mem::take(x) * y`. -/
namespace Ibig

/-- /repo/src/mul_ops.rs:304-306 `mul_word`.
Simplification: the double-word arithmetic is not checked for overflow (see `C66_mul_words`). -/
def UBig.mulWord (cfg : Cfg) (a b : Nat) : R UBig := UBig.fromUnsigned cfg (2 * cfg.W) (a * b)

/-- /repo/src/mul_ops.rs:309-321 `mul_large_word` -/
def UBig.mulLargeWord (cfg : Cfg) (buffer : Buffer) (a : Nat) : R UBig :=
  if a = 0 then .ok (.small 0)
  else if a = 1 then UBig.ofBuffer cfg buffer
  else
    let (ws, carry) := Ibig.mulWord cfg.W buffer.words a
    let buffer := { buffer with words := ws }
    if carry ≠ 0 then do
      let buffer ← buffer.pushMayReallocate cfg carry
      UBig.ofBuffer cfg buffer
    else UBig.ofBuffer cfg buffer

/-- /repo/src/mul_ops.rs:324-341 `mul_large`.
Simplification: sums of lengths are not checked for overflow (see `C66_lengths`). -/
def UBig.mulLarge (cfg : Cfg) (lhs rhs : List Nat) : R UBig := do
  assertR (2 ≤ lhs.length ∧ 2 ≤ rhs.length)
  let resLen := lhs.length + rhs.length
  let buffer ← Buffer.allocate cfg resLen
  let buffer ← buffer.pushZeros resLen
  let mem ← allocMemory cfg (mulMemoryRequirement (min lhs.length rhs.length))
  let (ws, overflow) ← addSignedMul cfg.W buffer.words .pos lhs rhs mem
  assertR (overflow = 0)
  UBig.ofBuffer cfg { buffer with words := ws }

/-- /repo/src/mul_ops.rs:20-32 `impl Mul<UBig> for UBig` -/
def UBig.mulVV (cfg : Cfg) : UBig → UBig → R UBig
  | .small w0, .small w1 => UBig.mulWord cfg w0 w1
  | .small w0, .large b1 => UBig.mulLargeWord cfg b1 w0
  | .large b0, .small w1 => UBig.mulLargeWord cfg b0 w1
  | .large b0, .large b1 => UBig.mulLarge cfg b0.words b1.words

/-- /repo/src/mul_ops.rs:34-46 `impl Mul<&UBig> for UBig` -/
def UBig.mulVR (cfg : Cfg) : UBig → UBig → R UBig
  | .small w0, .small w1 => UBig.mulWord cfg w0 w1
  | .small w0, .large b1 => do
    let b1 ← b1.clone cfg
    UBig.mulLargeWord cfg b1 w0
  | .large b0, .small w1 => UBig.mulLargeWord cfg b0 w1
  | .large b0, .large b1 => UBig.mulLarge cfg b0.words b1.words

/-- /repo/src/mul_ops.rs:57-69 `impl Mul<&UBig> for &UBig` -/
def UBig.mulRR (cfg : Cfg) : UBig → UBig → R UBig
  | .small w0, .small w1 => UBig.mulWord cfg w0 w1
  | .small w0, .large b1 => do
    let b1 ← b1.clone cfg
    UBig.mulLargeWord cfg b1 w0
  | .large b0, .small w1 => do
    let b0 ← b0.clone cfg
    UBig.mulLargeWord cfg b0 w1
  | .large b0, .large b1 => UBig.mulLarge cfg b0.words b1.words

/-- The four `Mul` impls (/repo/src/mul_ops.rs:20-69; 48-55 swaps the operands). -/
def UBig.mul (cfg : Cfg) : Own → Own → UBig → UBig → R UBig
  | .val, .val, a, b => UBig.mulVV cfg a b
  | .val, .ref, a, b => UBig.mulVR cfg a b
  | .ref, .val, a, b => UBig.mulVR cfg b a
  | .ref, .ref, a, b => UBig.mulRR cfg a b

/-- /repo/src/mul_ops.rs:85-125: the four `Mul` impls for `IBig` (107-114 swaps the operands) -/
def IBig.mul (cfg : Cfg) (o1 o2 : Own) (x y : IBig) : R IBig :=
  match o1, o2 with
  | .ref, .val => do
    let m ← UBig.mul cfg .val .ref y.mag x.mag
    .ok (.fromSignMagnitude (y.sign.mul x.sign) m)
  | o1, o2 => do
    let m ← UBig.mul cfg o1 o2 x.mag y.mag
    .ok (.fromSignMagnitude (x.sign.mul y.sign) m)

end Ibig
