import Verif.Model.History
/-!
# Expressions in the crate's operators

An expression is built from variables and primitive constants with the operators and methods that return a
number, each operand passed by value or by reference.  Running it runs the models of the functions called, the
left operand first, and stops at the first panic.

Simplification: as in `Verif.Model.History`, a variable passed by value can still be used afterwards.
-/
namespace Ibig

/-- Expressions of type `UBig`. -/
inductive UExpr where
  | var (k : Nat)
  | lit (bits x : Nat)
  | bin (op : UBin) (o1 o2 : Own) (x y : UExpr)
  | shl (o : Own) (x : UExpr) (n : Nat)
  | shr (o : Own) (x : UExpr) (n : Nat)
  | pow (x : UExpr) (n : Nat)
deriving DecidableEq, Repr

/-- Expressions of type `IBig`; `ofU` is `IBig::from(UBig)`. -/
inductive IExpr where
  | var (k : Nat)
  | lit (bits : Nat) (z : Int)
  | ofU (x : UExpr)
  | bin (op : IBin) (o1 o2 : Own) (x y : IExpr)
  | un (op : IUn) (o : Own) (x : IExpr)
  | shl (o : Own) (x : IExpr) (n : Nat)
  | shr (o : Own) (x : IExpr) (n : Nat)
  | pow (x : IExpr) (n : Nat)
deriving DecidableEq, Repr

/-- The value an expression evaluates to: operators of /repo/src/{add_ops,mul_ops,div_ops,bits,shift_ops}.rs,
`gcd` (/repo/src/gcd.rs:19 `gcd`), `pow` (/repo/src/pow.rs:19-50 `pow`), `UBig::from` of an unsigned
primitive integer (/repo/src/convert.rs:305-312 `ubig_unsigned_conversions`). -/
def UExpr.run (cfg : Cfg) (env : Nat → UBig) : UExpr → R UBig
  | .var k => .ok (env k)
  | .lit bits x => UBig.fromUnsigned cfg bits x
  | .bin op o1 o2 x y => do
    let a ← x.run cfg env
    let b ← y.run cfg env
    op.exec cfg o1 o2 a b
  | .shl o x n => do
    let a ← x.run cfg env
    a.shl cfg o n
  | .shr o x n => do
    let a ← x.run cfg env
    a.shr cfg o n
  | .pow x n => do
    let a ← x.run cfg env
    a.pow cfg n

/-- The same for `IBig`, with the unary operators (/repo/src/sign.rs, /repo/src/bits.rs, /repo/src/ibig.rs) and
`IBig::from(UBig)` (/repo/src/convert.rs:465-470 `from`). -/
def IExpr.run (cfg : Cfg) (uenv : Nat → UBig) (env : Nat → IBig) : IExpr → R IBig
  | .var k => .ok (env k)
  | .lit bits z => IBig.fromSigned cfg bits z
  | .ofU x => do
    let a ← x.run cfg uenv
    .ok (IBig.ofUBig a)
  | .bin op o1 o2 x y => do
    let a ← x.run cfg uenv env
    let b ← y.run cfg uenv env
    op.exec cfg o1 o2 a b
  | .un op o x => do
    let a ← x.run cfg uenv env
    op.exec cfg o a
  | .shl o x n => do
    let a ← x.run cfg uenv env
    a.shl cfg o n
  | .shr o x n => do
    let a ← x.run cfg uenv env
    a.shr cfg o n
  | .pow x n => do
    let a ← x.run cfg uenv env
    a.pow cfg n

end Ibig
