import Verif.Model.MulOps
import Verif.Model.Convert
import Verif.Model.ModularFmt
/-!
Model of /repo/examples/factorial.rs.

The standard output does not fail.
-/
namespace Ibig

/-- /repo/examples/factorial.rs:4-11 `product`: `a * (a+1) * ... * (b-1)`.  The first number is how many nested
calls are allowed. -/
def exProduct (cfg : Cfg) : Nat → Nat → Nat → R UBig
  | 0, _, _ => .error .fuel
  | depth + 1, a, b => do
    let a1 ← ckAdd 32 a 1
    if b = a1 then UBig.fromUnsigned cfg 32 a
    else do
      let d ← ckSub b a
      let mid ← ckAdd 32 a (d / 2)
      let x ← exProduct cfg depth a mid
      let y ← exProduct cfg depth mid b
      UBig.mul cfg .val .val x y

/-- /repo/examples/factorial.rs:13-17 `main`, with the constant `n` as a parameter: the text printed.  At most
`bitLen n + 1` nested calls are allowed. -/
def exFactorial (cfg : Cfg) (be : Bool) (n : Nat) : R (List Nat) := do
  let n1 ← ckAdd 32 n 1
  let factorial ← exProduct cfg (bitLen n + 1) 1 n1
  let text ← factorial.fmt cfg be .lowerHex { FmtFlags.default with alternate := true }
  .ok (primFmt 32 .display n .default ++ [33, 32, 61, 32] ++ text ++ [10])

end Ibig
