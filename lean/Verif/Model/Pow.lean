import Verif.Model.MulOps
import Verif.Model.Bits
/-! Model of exponentiation (/repo/src/pow.rs). -/
namespace Ibig

/-- /repo/src/pow.rs:39-41 `if exp & (1 << p) != 0 { res *= self; }` -/
def UBig.powMul (cfg : Cfg) (x : UBig) (exp p : Nat) (res : UBig) : R UBig :=
  if exp.testBit p then UBig.mul cfg .val .ref res x else .ok res

/-- /repo/src/pow.rs:38-47 the loop of `UBig::pow`, from bit `p` of `exp` down to bit 0 -/
def UBig.powLoop (cfg : Cfg) (x : UBig) (exp : Nat) : Nat → UBig → R UBig
  | 0, res => UBig.powMul cfg x exp 0 res
  | p + 1, res => do
    let res ← UBig.powMul cfg x exp (p + 1) res
    let res ← UBig.mul cfg .ref .ref res res
    powLoop cfg x exp p res

/-- /repo/src/pow.rs:36-48 the general case of `UBig::pow`. `1 << p` panics for `p >= usize::BITS`. -/
def UBig.powGeneral (cfg : Cfg) (x : UBig) (exp : Nat) : R UBig := do
  let s ← ckSub cfg.U 2
  let p ← ckSub s (leadingZeros cfg.U exp)
  let res ← UBig.mul cfg .ref .ref x x
  assertR (p < cfg.U)
  UBig.powLoop cfg x exp p res

/-- /repo/src/pow.rs:19-49 `UBig::pow` -/
def UBig.pow (cfg : Cfg) (x : UBig) (exp : Nat) : R UBig :=
  if exp = 0 then .ok (.small 1)
  else if exp = 1 then x.clone cfg
  else if exp = 2 then UBig.mul cfg .ref .ref x x
  else match x with
    | .small 0 => .ok (.small 0)
    | .small 1 => .ok (.small 1)
    | .small 2 => (UBig.small 0).setBit cfg exp
    | _ => UBig.powGeneral cfg x exp

/-- /repo/src/pow.rs:62-69 `IBig::pow` -/
def IBig.pow (cfg : Cfg) (x : IBig) (exp : Nat) : R IBig := do
  let sign := if x.sign = .neg ∧ exp % 2 = 1 then Sign.neg else Sign.pos
  let m ← x.mag.pow cfg exp
  .ok (.fromSignMagnitude sign m)

end Ibig
