import Verif.Model.Convert
import Verif.Model.MulOps
import Verif.Model.DivOps
import Verif.Model.Bits
/-! Model of the operators that mix big numbers with primitive integers
(/repo/src/add_ops.rs:293-661, 730-793; mul_ops.rs:172-399; div_ops.rs:776-1280, 1379-1640;
bits.rs:949-1575).

`o` is the ownership of the big operand; the primitive operand is always taken by value (the forms with
`&primitive` forward to it, /repo/src/helper_macros.rs). The forms with the primitive on the left of a
commutative operator swap the operands (`forward_binop_swap_args`), so they are the same functions.
`op=` is the by-value form applied to the old value unless a separate function is given below. -/
namespace Ibig

/-- `Option::unwrap` / `Result::unwrap` -/
def unwrapR {α : Type} : Option α → R α
  | some x => .ok x
  | none => .error .unwrap

/-! ### `UBig` with an unsigned primitive -/

/-- /repo/src/add_ops.rs:603-615 `add_unsigned`, `add_ref_unsigned`, `add_assign_unsigned` -/
def UBig.addUnsigned (cfg : Cfg) (o : Own) (a : UBig) (bits x : Nat) : R UBig := do
  let r ← UBig.fromUnsigned cfg bits x
  UBig.add cfg o .val a r

/-- /repo/src/add_ops.rs:618-630 `sub_unsigned`, `sub_ref_unsigned`, `sub_assign_unsigned` -/
def UBig.subUnsigned (cfg : Cfg) (o : Own) (a : UBig) (bits x : Nat) : R UBig := do
  let r ← UBig.fromUnsigned cfg bits x
  UBig.sub cfg o .val a r

/-- /repo/src/mul_ops.rs:344-356 `mul_unsigned`, … -/
def UBig.mulUnsigned (cfg : Cfg) (o : Own) (a : UBig) (bits x : Nat) : R UBig := do
  let r ← UBig.fromUnsigned cfg bits x
  UBig.mul cfg o .val a r

/-- /repo/src/div_ops.rs:1379-1391 `div_unsigned`, … -/
def UBig.divUnsigned (cfg : Cfg) (o : Own) (a : UBig) (bits x : Nat) : R UBig := do
  let r ← UBig.fromUnsigned cfg bits x
  UBig.div cfg o .val a r

/-- /repo/src/div_ops.rs:1394-1401 `rem_unsigned`, `rem_ref_unsigned` -/
def UBig.remUnsigned (cfg : Cfg) (o : Own) (a : UBig) (bits x : Nat) : R Nat := do
  let r ← UBig.fromUnsigned cfg bits x
  let m ← UBig.rem cfg o .val a r
  let t ← m.tryToUnsigned cfg bits
  unwrapR t

/-- /repo/src/div_ops.rs:1404-1406 `rem_assign_unsigned` -/
def UBig.remAssignUnsigned (cfg : Cfg) (a : UBig) (bits x : Nat) : R UBig := do
  let r ← UBig.fromUnsigned cfg bits x
  UBig.rem cfg .val .val a r

/-- /repo/src/div_ops.rs:1409-1418 `div_rem_unsigned`, `div_rem_ref_unsigned` -/
def UBig.divRemUnsigned (cfg : Cfg) (o : Own) (a : UBig) (bits x : Nat) : R (UBig × Nat) := do
  let r ← UBig.fromUnsigned cfg bits x
  let (q, m) ← UBig.divRem cfg o .val a r
  let t ← m.tryToUnsigned cfg bits
  let t ← unwrapR t
  .ok (q, t)

/-- /repo/src/bits.rs:1360-1372 `bitand_unsigned`, `bitand_ref_unsigned` -/
def UBig.bitandUnsigned (cfg : Cfg) (o : Own) (a : UBig) (bits x : Nat) : R Nat := do
  let r ← UBig.fromUnsigned cfg bits x
  let m ← UBig.bitand cfg o .val a r
  let t ← m.tryToUnsigned cfg bits
  unwrapR t

/-- /repo/src/bits.rs:1374-1376 `bitand_assign_unsigned` -/
def UBig.bitandAssignUnsigned (cfg : Cfg) (a : UBig) (bits x : Nat) : R UBig := do
  let r ← UBig.fromUnsigned cfg bits x
  UBig.bitand cfg .val .val a r

/-- /repo/src/bits.rs:1379-1391 `bitor_unsigned`, … -/
def UBig.bitorUnsigned (cfg : Cfg) (o : Own) (a : UBig) (bits x : Nat) : R UBig := do
  let r ← UBig.fromUnsigned cfg bits x
  UBig.bitor cfg o .val a r

/-- /repo/src/bits.rs:1394-1406 `bitxor_unsigned`, … -/
def UBig.bitxorUnsigned (cfg : Cfg) (o : Own) (a : UBig) (bits x : Nat) : R UBig := do
  let r ← UBig.fromUnsigned cfg bits x
  UBig.bitxor cfg o .val a r

/-- /repo/src/bits.rs:1409-1416 `and_not_unsigned`, `and_not_ref_unsigned` -/
def UBig.andNotUnsigned (cfg : Cfg) (o : Own) (a : UBig) (bits x : Nat) : R UBig := do
  let r ← UBig.fromUnsigned cfg bits x
  UBig.andNot cfg o .val a r

/-! ### `UBig` with a signed primitive -/

/-- The common shape `UBig::from_ibig_panic_on_overflow(IBig::from(self) op IBig::from_signed(rhs))` -/
def UBig.viaIBig (cfg : Cfg) (o : Own) (op : IBig → IBig → R IBig) (a : UBig) (bits : Nat) (z : Int) :
    R UBig := do
  let l ← IBig.ofUBigOwn cfg o a
  let r ← IBig.fromSigned cfg bits z
  let x ← op l r
  UBig.ofIBigPanic x

/-- The common shape of `div_rem` and `div_rem_euclid` with a signed primitive -/
def UBig.pairViaIBig (cfg : Cfg) (o : Own) (op : IBig → IBig → R (IBig × IBig)) (a : UBig) (bits : Nat)
    (z : Int) : R (UBig × Int) := do
  let l ← IBig.ofUBigOwn cfg o a
  let r ← IBig.fromSigned cfg bits z
  let (q, m) ← op l r
  let q ← UBig.ofIBigPanic q
  let t ← m.tryToSigned cfg bits
  let t ← unwrapR t
  .ok (q, t)

/-- /repo/src/add_ops.rs:633-645 `add_signed`, … -/
def UBig.addSigned (cfg : Cfg) (o : Own) : UBig → Nat → Int → R UBig :=
  UBig.viaIBig cfg o (IBig.add cfg .val .val)

/-- /repo/src/add_ops.rs:648-660 `sub_signed`, … -/
def UBig.subSigned (cfg : Cfg) (o : Own) : UBig → Nat → Int → R UBig :=
  UBig.viaIBig cfg o (IBig.sub cfg .val .val)

/-- /repo/src/mul_ops.rs:359-371 `mul_signed`, … -/
def UBig.mulSigned (cfg : Cfg) (o : Own) : UBig → Nat → Int → R UBig :=
  UBig.viaIBig cfg o (IBig.mul cfg .val .val)

/-- /repo/src/div_ops.rs:1421-1433 `div_signed`, … -/
def UBig.divSigned (cfg : Cfg) (o : Own) : UBig → Nat → Int → R UBig :=
  UBig.viaIBig cfg o (IBig.div cfg .val .val)

/-- /repo/src/div_ops.rs:1436-1447 `rem_signed`, `rem_ref_signed`, and 1484-1491 `rem_euclid_signed`,
`rem_euclid_ref_signed` -/
def UBig.remSigned (cfg : Cfg) (o : Own) (a : UBig) (bits : Nat) (z : Int) : R Int := do
  let (_, u) := toSignMagnitude bits z
  let res ← a.remUnsigned cfg o bits u
  unwrapR (tryFromSignMagnitude bits .pos res)

/-- /repo/src/div_ops.rs:1450-1453 `rem_assign_signed` -/
def UBig.remAssignSigned (cfg : Cfg) : UBig → Nat → Int → R UBig :=
  UBig.viaIBig cfg .val (IBig.rem cfg .val .val)

/-- /repo/src/div_ops.rs:1456-1471 `div_rem_signed`, `div_rem_ref_signed` -/
def UBig.divRemSigned (cfg : Cfg) (o : Own) : UBig → Nat → Int → R (UBig × Int) :=
  UBig.pairViaIBig cfg o (IBig.divRem cfg .val .val)

/-- /repo/src/div_ops.rs:1474-1481 `div_euclid_signed`, `div_euclid_ref_signed` -/
def UBig.divEuclidSigned (cfg : Cfg) (o : Own) : UBig → Nat → Int → R UBig :=
  UBig.viaIBig cfg o (IBig.divEuclid cfg .val .val)

/-- /repo/src/div_ops.rs:1494-1509 `div_rem_euclid_signed`, `div_rem_euclid_ref_signed` -/
def UBig.divRemEuclidSigned (cfg : Cfg) (o : Own) : UBig → Nat → Int → R (UBig × Int) :=
  UBig.pairViaIBig cfg o (IBig.divRemEuclid cfg .val .val)

/-- /repo/src/bits.rs:1419-1436 `bitand_signed` (by value, and `&=`), `bitand_ref_signed` -/
def UBig.bitandSigned (cfg : Cfg) (o : Own) (a : UBig) (bits : Nat) (z : Int) : R UBig :=
  match o with
  | .val => UBig.viaIBig cfg .val (IBig.bitand cfg .val .val) a bits z
  | .ref => do
    let r ← IBig.fromSigned cfg bits z
    match r.sign with
    | .pos => do
      let u ← r.unsignedAbs cfg .val
      UBig.bitand cfg .ref .val a u
    | .neg => do
      let l ← IBig.ofUBigOwn cfg .ref a
      let x ← IBig.bitand cfg .val .val l r
      UBig.ofIBigPanic x

/-- /repo/src/bits.rs:1439-1451 `bitor_signed`, … -/
def UBig.bitorSigned (cfg : Cfg) (o : Own) : UBig → Nat → Int → R UBig :=
  UBig.viaIBig cfg o (IBig.bitor cfg .val .val)

/-- /repo/src/bits.rs:1454-1466 `bitxor_signed`, … -/
def UBig.bitxorSigned (cfg : Cfg) (o : Own) : UBig → Nat → Int → R UBig :=
  UBig.viaIBig cfg o (IBig.bitxor cfg .val .val)

/-- /repo/src/bits.rs:1469-1476 `and_not_signed`, `and_not_ref_signed` -/
def UBig.andNotSigned (cfg : Cfg) (o : Own) : UBig → Nat → Int → R UBig :=
  UBig.viaIBig cfg o (IBig.andNot cfg .val .val)

/-! ### `IBig` with any primitive -/

/-- The common shape `self op IBig::from(rhs)` -/
def IBig.viaPrim {α : Type} (cfg : Cfg) (op : IBig → IBig → R α) (a : IBig) (t : PTy) (z : Int) : R α := do
  let r ← IBig.fromPrim cfg t z
  op a r

/-- /repo/src/add_ops.rs:731-753 `add_primitive`, … -/
def IBig.addPrim (cfg : Cfg) (o : Own) : IBig → PTy → Int → R IBig :=
  IBig.viaPrim cfg (IBig.add cfg o .val)

/-- /repo/src/add_ops.rs:755-777 `sub_primitive`, … -/
def IBig.subPrim (cfg : Cfg) (o : Own) : IBig → PTy → Int → R IBig :=
  IBig.viaPrim cfg (IBig.sub cfg o .val)

/-- /repo/src/add_ops.rs:779-793 `sub_from_primitive`, `sub_ref_from_primitive` -/
def IBig.subFromPrim (cfg : Cfg) (o : Own) : IBig → PTy → Int → R IBig :=
  IBig.viaPrim cfg (fun a r => IBig.sub cfg .val o r a)

/-- /repo/src/mul_ops.rs:376-398 `mul_primitive`, … -/
def IBig.mulPrim (cfg : Cfg) (o : Own) : IBig → PTy → Int → R IBig :=
  IBig.viaPrim cfg (IBig.mul cfg o .val)

/-- /repo/src/div_ops.rs:1514-1535 `div_primitive`, … -/
def IBig.divPrim (cfg : Cfg) (o : Own) : IBig → PTy → Int → R IBig :=
  IBig.viaPrim cfg (IBig.div cfg o .val)

/-- /repo/src/div_ops.rs:1538-1545 `rem_unsigned`, `rem_ref_unsigned`, and (all types)
1558-1563 `rem_assign_primitive` -/
def IBig.remPrimBig (cfg : Cfg) (o : Own) : IBig → PTy → Int → R IBig :=
  IBig.viaPrim cfg (IBig.rem cfg o .val)

/-- /repo/src/div_ops.rs:1548-1555 `rem_signed`, `rem_ref_signed` -/
def IBig.remSigned (cfg : Cfg) (o : Own) (a : IBig) (bits : Nat) (z : Int) : R Int := do
  let m ← IBig.viaPrim cfg (IBig.rem cfg o .val) a (.i bits) z
  let t ← m.tryToSigned cfg bits
  unwrapR t

/-- /repo/src/div_ops.rs:1566-1573 `div_rem_unsigned`, `div_rem_ref_unsigned` -/
def IBig.divRemUnsigned (cfg : Cfg) (o : Own) (a : IBig) (bits x : Nat) : R (IBig × IBig) :=
  IBig.viaPrim cfg (IBig.divRem cfg o .val) a (.u bits) x

/-- /repo/src/div_ops.rs:1576-1585 `div_rem_signed`, `div_rem_ref_signed` -/
def IBig.divRemSigned (cfg : Cfg) (o : Own) (a : IBig) (bits : Nat) (z : Int) : R (IBig × Int) := do
  let (q, m) ← IBig.viaPrim cfg (IBig.divRem cfg o .val) a (.i bits) z
  let t ← m.tryToSigned cfg bits
  let t ← unwrapR t
  .ok (q, t)

/-- /repo/src/div_ops.rs:1588-1601 `div_euclid_primitive`, … -/
def IBig.divEuclidPrim (cfg : Cfg) (o : Own) : IBig → PTy → Int → R IBig :=
  IBig.viaPrim cfg (IBig.divEuclid cfg o .val)

/-- /repo/src/div_ops.rs:1604-1621 `rem_euclid_primitive`, … -/
def IBig.remEuclidPrim (cfg : Cfg) (o : Own) (a : IBig) (t : PTy) (z : Int) : R Int := do
  let m ← IBig.viaPrim cfg (IBig.remEuclid cfg o .val) a t z
  let r ← m.tryToPrim cfg t
  unwrapR r

/-- /repo/src/div_ops.rs:1624-1643 `div_rem_euclid_primitive`, … -/
def IBig.divRemEuclidPrim (cfg : Cfg) (o : Own) (a : IBig) (t : PTy) (z : Int) : R (IBig × Int) := do
  let (q, m) ← IBig.viaPrim cfg (IBig.divRemEuclid cfg o .val) a t z
  let r ← m.tryToPrim cfg t
  let r ← unwrapR r
  .ok (q, r)

/-- /repo/src/bits.rs:1481-1492 `bitand_unsigned`, `bitand_ref_unsigned` -/
def IBig.bitandUnsigned (cfg : Cfg) (o : Own) (a : IBig) (bits x : Nat) : R Nat := do
  let m ← IBig.viaPrim cfg (IBig.bitand cfg o .val) a (.u bits) x
  let t ← m.tryToUnsigned cfg bits
  unwrapR t

/-- /repo/src/bits.rs:1495-1502 `bitand_signed`, `bitand_ref_signed`, and (all types)
1505-1510 `bitand_assign_primitive` -/
def IBig.bitandPrimBig (cfg : Cfg) (o : Own) : IBig → PTy → Int → R IBig :=
  IBig.viaPrim cfg (IBig.bitand cfg o .val)

/-- /repo/src/bits.rs:1513-1534 `bitor_primitive`, … -/
def IBig.bitorPrim (cfg : Cfg) (o : Own) : IBig → PTy → Int → R IBig :=
  IBig.viaPrim cfg (IBig.bitor cfg o .val)

/-- /repo/src/bits.rs:1537-1558 `bitxor_primitive`, … -/
def IBig.bitxorPrim (cfg : Cfg) (o : Own) : IBig → PTy → Int → R IBig :=
  IBig.viaPrim cfg (IBig.bitxor cfg o .val)

/-- /repo/src/bits.rs:1561-1575 `and_not_primitive`, … -/
def IBig.andNotPrim (cfg : Cfg) (o : Own) : IBig → PTy → Int → R IBig :=
  IBig.viaPrim cfg (IBig.andNot cfg o .val)

end Ibig
