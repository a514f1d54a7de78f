import Verif.Model.Convert
import Verif.Model.Bits
import Verif.Model.ShiftOps
import Verif.Model.PrimOps
import Verif.Spec.Float
/-! Model of the conversions to floating point (/repo/src/convert.rs:160-303). Floats are bit patterns. -/
namespace Ibig

/-- `n as f32` / `n as f64` for an unsigned primitive integer: the Rust language defines it to round to
nearest, ties to even. (Language primitive; no primitive integer of at most 64 bits overflows.) -/
def castFloat (f : FloatFmt) (n : Nat) : Nat :=
  let len := bitLen n
  if n = 0 then 0
  else if len ≤ f.mant + 1 then (len + f.bias - 2) * 2 ^ f.mant + n * 2 ^ (f.mant + 1 - len)
  else
    let k := len - (f.mant + 1)
    let q := n / 2 ^ k
    let r := n % 2 ^ k
    let up := if r > 2 ^ (k - 1) ∨ (r = 2 ^ (k - 1) ∧ q % 2 = 1) then 1 else 0
    (len + f.bias - 2) * 2 ^ f.mant + q + up

/-- The numbers in which `to_f32_slow` and `to_f64_slow` differ. -/
structure FloatCode where
  /-- the primitive integer type tried first, and used for the bit patterns: `u32`, `u64` -/
  prim : Nat
  /-- beyond this bit length the result is infinity: 128, 1024 -/
  maxLen : Nat
  /-- bits of the mantissa taken with one extra bit: 25, 54 -/
  extra : Nat
  /-- 126, 1022 -/
  expAdd : Nat
  /-- 23, 52 -/
  mant : Nat
  /-- `f32::INFINITY`, `f64::INFINITY` -/
  inf : Nat
  /-- lower end of the debug assertions: 32, 64 -/
  lo : Nat

/-- /repo/src/convert.rs:176-204 -/
def code32 : FloatCode := ⟨32, 128, 25, 126, 23, 0x7f800000, 32⟩
/-- /repo/src/convert.rs:227-255 -/
def code64 : FloatCode := ⟨64, 1024, 54, 1022, 52, 0x7ff0000000000000, 64⟩

/-- /repo/src/convert.rs:300-303 `round_to_even_adjustment` -/
def roundToEvenAdjustment (bits : Nat) : Bool := decide (bits ≥ 6) || decide (bits = 3)

/-- /repo/src/convert.rs:176-204, 227-255 `to_f32_slow`, `to_f64_slow` -/
def UBig.toFloatSlow (cfg : Cfg) (c : FloatCode) (x : UBig) : R Nat := do
  let n ← x.bitLen cfg
  assertR (n > c.lo)
  if n > c.maxLen then .ok c.inf
  else do
    let exponent := n - 1
    assertR (c.lo ≤ exponent ∧ exponent < c.maxLen)
    let s ← ckSub n c.extra
    let sh ← x.shr cfg .ref s
    let u ← sh.tryToUnsigned cfg c.prim
    let mantissa25 ← unwrapR u
    let mantissa := mantissa25 >>> 1
    let e ← ckAdd c.prim exponent c.expAdd
    let value ← ckAdd c.prim ((e <<< c.mant) % 2 ^ c.prim) mantissa
    let extraBit ← x.areLowBitsNonzero cfg s
    let lowBits := ((mantissa25 &&& 3) <<< 1) ||| extraBit.toNat
    let adjustment := roundToEvenAdjustment lowBits
    ckAdd c.prim value adjustment.toNat

/-- /repo/src/convert.rs:165-174, 216-225 `UBig::to_f32`, `UBig::to_f64` -/
def UBig.toFloat (cfg : Cfg) (c : FloatCode) (f : FloatFmt) (x : UBig) : R Nat :=
  match x with
  | .small word => .ok (castFloat f word)
  | .large _ => do
    let u ← x.tryToUnsigned cfg c.prim
    match u with
    | some val => .ok (castFloat f val)
    | none => x.toFloatSlow cfg c

/-- /repo/src/convert.rs:269-276, 288-295 `IBig::to_f32`, `IBig::to_f64`; negating a float flips its sign
bit -/
def IBig.toFloat (cfg : Cfg) (c : FloatCode) (f : FloatFmt) (x : IBig) : R Nat := do
  let val ← x.mag.toFloat cfg c f
  match x.sign with
  | .pos => .ok val
  | .neg => .ok (val ^^^ f.signBit)

/-- /repo/src/convert.rs:166 -/
def UBig.toF32 (cfg : Cfg) (x : UBig) : R Nat := x.toFloat cfg code32 f32
/-- /repo/src/convert.rs:217 -/
def UBig.toF64 (cfg : Cfg) (x : UBig) : R Nat := x.toFloat cfg code64 f64
/-- /repo/src/convert.rs:270 -/
def IBig.toF32 (cfg : Cfg) (x : IBig) : R Nat := x.toFloat cfg code32 f32
/-- /repo/src/convert.rs:289 -/
def IBig.toF64 (cfg : Cfg) (x : IBig) : R Nat := x.toFloat cfg code64 f64

end Ibig
