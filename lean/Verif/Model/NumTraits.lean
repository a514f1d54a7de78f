import Verif.Model.AddOps
import Verif.Model.Convert
/-! Model of the `num_traits` implementations (/repo/src/num_traits.rs). `Pow` and `from_str_radix` there
call the inherent methods. -/
namespace Ibig

/-- /repo/src/num_traits.rs:7-9 `Zero::zero` for `UBig` -/
def UBig.zero (cfg : Cfg) : R UBig := UBig.fromUnsigned cfg 8 0

/-- /repo/src/num_traits.rs:12-14 `Zero::is_zero` for `UBig` -/
def UBig.isZero (cfg : Cfg) (x : UBig) : R Bool := do
  let z ← UBig.fromUnsigned cfg 8 0
  .ok (x.beq z)

/-- /repo/src/num_traits.rs:19-21 `Zero::zero` for `IBig` -/
def IBig.zero (cfg : Cfg) : R IBig := IBig.fromUnsigned cfg 8 0

/-- /repo/src/num_traits.rs:24-26 `Zero::is_zero` for `IBig` -/
def IBig.isZero (cfg : Cfg) (x : IBig) : R Bool := do
  let z ← IBig.fromUnsigned cfg 8 0
  .ok (x.beq z)

/-- /repo/src/num_traits.rs:31-33 `One::one` for `UBig` -/
def UBig.one (cfg : Cfg) : R UBig := UBig.fromUnsigned cfg 8 1

/-- /repo/src/num_traits.rs:38-40 `One::one` for `IBig` -/
def IBig.one (cfg : Cfg) : R IBig := IBig.fromUnsigned cfg 8 1

/-- /repo/src/num_traits.rs:90-92 `Signed::abs_sub` -/
def IBig.absSub (cfg : Cfg) (x y : IBig) : R IBig := do
  let d ← IBig.sub cfg .ref .ref x y
  d.abs cfg .val

/-- /repo/src/num_traits.rs:100-102 `Signed::is_positive` -/
def IBig.isPositive (cfg : Cfg) (x : IBig) : R Bool := do
  let z ← IBig.fromUnsigned cfg 8 0
  let o ← x.cmp z
  .ok (o == .gt)

/-- /repo/src/num_traits.rs:105-107 `Signed::is_negative` -/
def IBig.isNegative (cfg : Cfg) (x : IBig) : R Bool := do
  let z ← IBig.fromUnsigned cfg 8 0
  let o ← x.cmp z
  .ok (o == .lt)

end Ibig
