import Verif.Model.DivOpsTime
import Verif.Model.AddOpsTime
/-!
Euclidean division with the number of its steps: the text of Model/DivOps.lean with counting functions.
-/
namespace Ibig.Timed

/-- /repo/src/sign.rs:77-93 `Abs for IBig`, `Abs for &IBig`: may copy the words -/
def IBig.abs (cfg : Cfg) (o : Own) (x : IBig) : Timed IBig := pass (x.mag.len + 1) (Ibig.IBig.abs cfg o x)

/-- /repo/src/div_ops.rs:297-331 `DivEuclid for UBig` -/
def UBig.divEuclid (cfg : Cfg) (o0 o1 : Own) (a b : UBig) : Timed UBig := UBig.div cfg o0 o1 a b
/-- /repo/src/div_ops.rs:333-367 `RemEuclid for UBig` -/
def UBig.remEuclid (cfg : Cfg) (o0 o1 : Own) (a b : UBig) : Timed UBig := UBig.rem cfg o0 o1 a b
/-- /repo/src/div_ops.rs:369-407 `DivRemEuclid for UBig` -/
def UBig.divRemEuclid (cfg : Cfg) (o0 o1 : Own) (a b : UBig) : Timed (UBig × UBig) :=
  UBig.divRem cfg o0 o1 a b

/-- /repo/src/div_ops.rs:601-653 `DivEuclid for IBig` -/
def IBig.divEuclid (cfg : Cfg) (o0 o1 : Own) (a b : IBig) : Timed IBig := do
  let s := b.signum
  let (q, r) ← IBig.divRem cfg o0 o1 a b
  match r.sign with
  | .pos => pure q
  | .neg => IBig.sub cfg .val .val q s

/-- /repo/src/div_ops.rs:655-705 `RemEuclid for IBig` -/
def IBig.remEuclid (cfg : Cfg) (o0 o1 : Own) (a b : IBig) : Timed IBig := do
  let r ← IBig.rem cfg o0 .ref a b
  match r.sign with
  | .pos => pure r
  | .neg => do
    let m ← IBig.abs cfg o1 b
    IBig.add cfg .val .val r m

/-- /repo/src/div_ops.rs:707-761 `DivRemEuclid for IBig` -/
def IBig.divRemEuclid (cfg : Cfg) (o0 o1 : Own) (a b : IBig) : Timed (IBig × IBig) := do
  let (q, r) ← IBig.divRem cfg o0 .ref a b
  match r.sign with
  | .pos => pure (q, r)
  | .neg => do
    let q ← IBig.sub cfg .val .val q b.signum
    let m ← IBig.abs cfg o1 b
    let r ← IBig.add cfg .val .val r m
    pure (q, r)

end Ibig.Timed
