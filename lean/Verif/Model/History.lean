import Verif.Model.AddOps
import Verif.Model.MulOps
import Verif.Model.DivOps
import Verif.Model.ShiftOps
import Verif.Model.Bits
import Verif.Model.Bytes
import Verif.Model.Convert
import Verif.Model.PrimOps
import Verif.Model.Gcd
import Verif.Model.Pow
import Verif.Model.Parse
import Verif.Model.Fmt
import Verif.Model.Float
import Verif.Model.NumTraits
/-!
# Programs: sequences of operations on variables of type `UBig` and `IBig`

A program is a list of instructions of the form `variable = operation(variables, primitives)`.  Each
instruction runs the model of the corresponding public function of the crate.  An assignment operator
`x op= y` is the instruction with the same destination and first operand, with the first operand passed by
value (`*self = mem::take(self) op rhs`: /repo/src/add_ops.rs:84, 91, 154, 161, 225, 232, 282, 289,
644, 659; mul_ops.rs:74, 81, 130, 137, 370; div_ops.rs:104, 111, 200, 207, 460, 467, 522, 529, 1432, 1451;
bits.rs:359 … 1465; shift_ops.rs:40, 47, 72, 79); `set_bit`,
`clear_bit` and `clone_from`, which work in place, have one variable as operand and destination.

Simplification: a variable passed by value can still be read afterwards, so the programs include all the
Rust programs and more.
-/
namespace Ibig

/-- Binary operations on `UBig` (/repo/src/{add_ops,mul_ops,div_ops,bits,gcd}.rs). -/
inductive UBin where
  | add | sub | mul | div | rem | divEuclid | remEuclid | and | or | xor | andNot | gcd
deriving DecidableEq, Repr

/-- Binary operations on `IBig`. -/
inductive IBin where
  | add | sub | mul | div | rem | divEuclid | remEuclid | and | or | xor | andNot | gcd
deriving DecidableEq, Repr

/-- Division with remainder, truncating or Euclidean. -/
inductive DRem where
  | trunc | euclid
deriving DecidableEq, Repr

/-- Unary operations on `IBig` (/repo/src/{sign,bits,ibig}.rs). -/
inductive IUn where
  | neg | abs | signum | not | clone
deriving DecidableEq, Repr

/-- Binary operations of an `IBig` with a primitive integer. -/
inductive IPrim where
  | add | sub | subFrom | mul | div | rem | divEuclid | and | or | xor | andNot
deriving DecidableEq, Repr

/-- Binary operations of a `UBig` with an unsigned primitive integer (`rem` and `and` are `%=` and `&=`; the
operators `%` and `&` return a primitive integer, see `Look`). -/
inductive UPrim where
  | add | sub | mul | div | rem | and | or | xor | andNot
deriving DecidableEq, Repr

/-- Binary operations of a `UBig` with a signed primitive integer (`rem` is `%=`). -/
inductive SPrim where
  | add | sub | mul | div | rem | divEuclid | and | or | xor | andNot
deriving DecidableEq, Repr

/-- What a program can look at. -/
inductive Look where
  | ucmp (a b : Nat)
  | icmp (a b : Nat)
  | ueq (a b : Nat)
  | ieq (a b : Nat)
  | ubit (a n : Nat)
  | ubitLen (a : Nat)
  | utrailingZeros (a : Nat)
  | uisPowerOfTwo (a : Nat)
  | ubytes (a : Nat)
  | ubytesBe (a : Nat)
  | itrailingZeros (a : Nat)
  | uisZero (a : Nat)
  | iisZero (a : Nat)
  | iisPositive (a : Nat)
  | iisNegative (a : Nat)
  | utoPrim (t : PTy) (a : Nat)
  | itoPrim (t : PTy) (a : Nat)
  | uremU (o : Own) (a bits x : Nat)
  | uremS (o : Own) (a bits : Nat) (z : Int)
  | uandU (o : Own) (a bits x : Nat)
  | iremS (o : Own) (a bits : Nat) (z : Int)
  | iremEuclid (o : Own) (a : Nat) (t : PTy) (z : Int)
  | iandU (o : Own) (a bits x : Nat)
  | uF32 (a : Nat)
  | uF64 (a : Nat)
  | iF32 (a : Nat)
  | iF64 (a : Nat)
  | utext (radix : Nat) (f : FmtFlags) (a : Nat)
  | itext (radix : Nat) (f : FmtFlags) (a : Nat)
  | ufmt (t : FmtTrait) (f : FmtFlags) (a : Nat)
  | ifmt (t : FmtTrait) (f : FmtFlags) (a : Nat)
deriving DecidableEq, Repr

/-- What a program has seen. -/
inductive Obs where
  | bool (b : Bool)
  | ord (o : Ordering)
  | nat (n : Nat)
  | int (z : Int)
  | optNat (n : Option Nat)
  | optInt (z : Option Int)
  | list (l : List Nat)
  | parseOk
  | parseError (e : ParseError)
  | outOfBounds
deriving DecidableEq, Repr

/-- One instruction.  `d`, `e` are destinations, `a`, `b` operands (indices of variables); `o1`, `o2` tell
which operands are passed by value and which by reference. -/
inductive Instr where
  | ubin (op : UBin) (o1 o2 : Own) (d a b : Nat)
  | ibin (op : IBin) (o1 o2 : Own) (d a b : Nat)
  | udivrem (k : DRem) (o1 o2 : Own) (d e a b : Nat)
  | idivrem (k : DRem) (o1 o2 : Own) (d e a b : Nat)
  | iun (op : IUn) (o : Own) (d a : Nat)
  | ushl (o : Own) (d a n : Nat)
  | ushr (o : Own) (d a n : Nat)
  | ishl (o : Own) (d a n : Nat)
  | ishr (o : Own) (d a n : Nat)
  | upow (d a n : Nat)
  | ipow (d a n : Nat)
  | setBit (d n : Nat)
  | clearBit (d n : Nat)
  | nextPow2 (o : Own) (d a : Nat)
  | uclone (d a : Nat)
  | ucloneFrom (d a : Nat)
  | ufromUnsigned (d bits x : Nat)
  | ifromUnsigned (d bits x : Nat)
  | ifromSigned (d bits : Nat) (z : Int)
  | uprim (op : UPrim) (o : Own) (d a bits x : Nat)
  | sprim (op : SPrim) (o : Own) (d a bits : Nat) (z : Int)
  | iprim (op : IPrim) (o : Own) (d a : Nat) (t : PTy) (z : Int)
  | udivremU (o : Own) (d a bits x : Nat)
  | udivremS (k : DRem) (o : Own) (d a bits : Nat) (z : Int)
  | idivremU (o : Own) (d e a bits x : Nat)
  | idivremS (o : Own) (d a bits : Nat) (z : Int)
  | idivremE (o : Own) (d a : Nat) (t : PTy) (z : Int)
  | utryFromPrim (d : Nat) (t : PTy) (z : Int)
  | ofUBig (d a : Nat)
  | unsignedAbs (o : Own) (d a : Nat)
  | tryFromIBig (o : Own) (d a : Nat)
  | fromLeBytes (d : Nat) (l : List Nat)
  | fromBeBytes (d : Nat) (l : List Nat)
  | uparse (radix d : Nat) (text : List Nat)
  | iparse (radix d : Nat) (text : List Nat)
  | uparsePrefix (d : Nat) (text : List Nat)
  | iparsePrefix (d : Nat) (text : List Nat)
  | look (l : Look)
deriving DecidableEq, Repr

/-- The variables of a program. -/
structure Store (α β : Type) where
  u : Nat → α
  i : Nat → β

/-- Assign a `UBig` variable. -/
def Store.setU {α β : Type} (s : Store α β) (d : Nat) (x : α) : Store α β :=
  { s with u := fun k => if k = d then x else s.u k }

/-- Assign an `IBig` variable. -/
def Store.setI {α β : Type} (s : Store α β) (d : Nat) (x : β) : Store α β :=
  { s with i := fun k => if k = d then x else s.i k }

/-- The operators and methods named by `UBin`. -/
def UBin.exec (cfg : Cfg) (op : UBin) (o1 o2 : Own) (a b : UBig) : R UBig :=
  match op with
  | .add => UBig.add cfg o1 o2 a b
  | .sub => UBig.sub cfg o1 o2 a b
  | .mul => UBig.mul cfg o1 o2 a b
  | .div => UBig.div cfg o1 o2 a b
  | .rem => UBig.rem cfg o1 o2 a b
  | .divEuclid => UBig.divEuclid cfg o1 o2 a b
  | .remEuclid => UBig.remEuclid cfg o1 o2 a b
  | .and => UBig.bitand cfg o1 o2 a b
  | .or => UBig.bitor cfg o1 o2 a b
  | .xor => UBig.bitxor cfg o1 o2 a b
  | .andNot => UBig.andNot cfg o1 o2 a b
  | .gcd => UBig.gcd cfg a b

/-- The operators and methods named by `IBin`. -/
def IBin.exec (cfg : Cfg) (op : IBin) (o1 o2 : Own) (a b : IBig) : R IBig :=
  match op with
  | .add => IBig.add cfg o1 o2 a b
  | .sub => IBig.sub cfg o1 o2 a b
  | .mul => IBig.mul cfg o1 o2 a b
  | .div => IBig.div cfg o1 o2 a b
  | .rem => IBig.rem cfg o1 o2 a b
  | .divEuclid => IBig.divEuclid cfg o1 o2 a b
  | .remEuclid => IBig.remEuclid cfg o1 o2 a b
  | .and => IBig.bitand cfg o1 o2 a b
  | .or => IBig.bitor cfg o1 o2 a b
  | .xor => IBig.bitxor cfg o1 o2 a b
  | .andNot => IBig.andNot cfg o1 o2 a b
  | .gcd => IBig.gcd cfg a b

/-- `div_rem`, `div_rem_euclid` -/
def DRem.execU (cfg : Cfg) (k : DRem) (o1 o2 : Own) (a b : UBig) : R (UBig × UBig) :=
  match k with
  | .trunc => UBig.divRem cfg o1 o2 a b
  | .euclid => UBig.divRemEuclid cfg o1 o2 a b

/-- `div_rem`, `div_rem_euclid` -/
def DRem.execI (cfg : Cfg) (k : DRem) (o1 o2 : Own) (a b : IBig) : R (IBig × IBig) :=
  match k with
  | .trunc => IBig.divRem cfg o1 o2 a b
  | .euclid => IBig.divRemEuclid cfg o1 o2 a b

/-- The operators and methods named by `IUn`. -/
def IUn.exec (cfg : Cfg) (op : IUn) (o : Own) (a : IBig) : R IBig :=
  match op with
  | .neg => a.negOwn cfg o
  | .abs => a.abs cfg o
  | .signum => .ok a.signum
  | .not => a.not cfg o
  | .clone => a.clone cfg

/-- The operators named by `UPrim`. -/
def UPrim.exec (cfg : Cfg) (op : UPrim) (o : Own) (a : UBig) (bits x : Nat) : R UBig :=
  match op with
  | .add => a.addUnsigned cfg o bits x
  | .sub => a.subUnsigned cfg o bits x
  | .mul => a.mulUnsigned cfg o bits x
  | .div => a.divUnsigned cfg o bits x
  | .rem => a.remAssignUnsigned cfg bits x
  | .and => a.bitandAssignUnsigned cfg bits x
  | .or => a.bitorUnsigned cfg o bits x
  | .xor => a.bitxorUnsigned cfg o bits x
  | .andNot => a.andNotUnsigned cfg o bits x

/-- The operators and methods named by `SPrim`. -/
def SPrim.exec (cfg : Cfg) (op : SPrim) (o : Own) (a : UBig) (bits : Nat) (z : Int) : R UBig :=
  match op with
  | .add => a.addSigned cfg o bits z
  | .sub => a.subSigned cfg o bits z
  | .mul => a.mulSigned cfg o bits z
  | .div => a.divSigned cfg o bits z
  | .rem => a.remAssignSigned cfg bits z
  | .divEuclid => a.divEuclidSigned cfg o bits z
  | .and => a.bitandSigned cfg o bits z
  | .or => a.bitorSigned cfg o bits z
  | .xor => a.bitxorSigned cfg o bits z
  | .andNot => a.andNotSigned cfg o bits z

/-- `div_rem`, `div_rem_euclid` of a `UBig` by a signed primitive integer -/
def DRem.execS (cfg : Cfg) (k : DRem) (o : Own) (a : UBig) (bits : Nat) (z : Int) : R (UBig × Int) :=
  match k with
  | .trunc => a.divRemSigned cfg o bits z
  | .euclid => a.divRemEuclidSigned cfg o bits z

/-- The operators and methods named by `IPrim`. -/
def IPrim.exec (cfg : Cfg) (op : IPrim) (o : Own) (a : IBig) (t : PTy) (z : Int) : R IBig :=
  match op with
  | .add => a.addPrim cfg o t z
  | .sub => a.subPrim cfg o t z
  | .subFrom => a.subFromPrim cfg o t z
  | .mul => a.mulPrim cfg o t z
  | .div => a.divPrim cfg o t z
  | .rem => a.remPrimBig cfg o t z
  | .divEuclid => a.divEuclidPrim cfg o t z
  | .and => a.bitandPrimBig cfg o t z
  | .or => a.bitorPrim cfg o t z
  | .xor => a.bitxorPrim cfg o t z
  | .andNot => a.andNotPrim cfg o t z

/-- Observations (`be`: the target is big-endian). -/
def Look.exec (cfg : Cfg) (be : Bool) (s : Store UBig IBig) : Look → R Obs
  | .ucmp a b => do return .ord (← (s.u a).cmp (s.u b))
  | .icmp a b => do return .ord (← (s.i a).cmp (s.i b))
  | .ueq a b => .ok (.bool ((s.u a).beq (s.u b)))
  | .ieq a b => .ok (.bool ((s.i a).beq (s.i b)))
  | .ubit a n => do return .bool (← (s.u a).bit cfg n)
  | .ubitLen a => do return .nat (← (s.u a).bitLen cfg)
  | .utrailingZeros a => do return .optNat (← (s.u a).trailingZeros cfg)
  | .uisPowerOfTwo a => do return .bool (← (s.u a).isPowerOfTwo)
  | .ubytes a => do return .list (← (s.u a).toLeBytes cfg)
  | .ubytesBe a => do return .list (← (s.u a).toBeBytes cfg)
  | .itrailingZeros a => do return .optNat (← (s.i a).trailingZeros cfg)
  | .uisZero a => do return .bool (← (s.u a).isZero cfg)
  | .iisZero a => do return .bool (← (s.i a).isZero cfg)
  | .iisPositive a => do return .bool (← (s.i a).isPositive cfg)
  | .iisNegative a => do return .bool (← (s.i a).isNegative cfg)
  | .utoPrim t a => do return .optInt (← (s.u a).tryToPrim cfg t)
  | .itoPrim t a => do return .optInt (← (s.i a).tryToPrim cfg t)
  | .uremU o a bits x => do return .nat (← (s.u a).remUnsigned cfg o bits x)
  | .uremS o a bits z => do return .int (← (s.u a).remSigned cfg o bits z)
  | .uandU o a bits x => do return .nat (← (s.u a).bitandUnsigned cfg o bits x)
  | .iremS o a bits z => do return .int (← (s.i a).remSigned cfg o bits z)
  | .iremEuclid o a t z => do return .int (← (s.i a).remEuclidPrim cfg o t z)
  | .iandU o a bits x => do return .nat (← (s.i a).bitandUnsigned cfg o bits x)
  | .uF32 a => do return .nat (← (s.u a).toF32 cfg)
  | .uF64 a => do return .nat (← (s.u a).toF64 cfg)
  | .iF32 a => do return .nat (← (s.i a).toF32 cfg)
  | .iF64 a => do return .nat (← (s.i a).toF64 cfg)
  | .utext radix f a => do return .list (← (s.u a).inRadixFmt cfg be radix f)
  | .itext radix f a => do return .list (← (s.i a).inRadixFmt cfg be radix f)
  | .ufmt t f a => do return .list (← (s.u a).fmt cfg be t f)
  | .ifmt t f a => do return .list (← (s.i a).fmt cfg be t f)

/-- Assign the result of an operation and see nothing. -/
def Store.putU {α β : Type} (s : Store α β) (d : Nat) (x : R α) : R (Store α β × List Obs) := do
  return (s.setU d (← x), [])

/-- Assign the result of an operation and see nothing. -/
def Store.putI {α β : Type} (s : Store α β) (d : Nat) (x : R β) : R (Store α β × List Obs) := do
  return (s.setI d (← x), [])

/-- Assign two results, the first one first. -/
def Store.putUU {α β : Type} (s : Store α β) (d e : Nat) (x : R (α × α)) : R (Store α β × List Obs) := do
  let (q, r) ← x
  return ((s.setU d q).setU e r, [])

/-- Assign two results, the first one first. -/
def Store.putII {α β : Type} (s : Store α β) (d e : Nat) (x : R (β × β)) : R (Store α β × List Obs) := do
  let (q, r) ← x
  return ((s.setI d q).setI e r, [])

/-- Assign a `UBig` and see a primitive integer. -/
def Store.putUZ {α β : Type} (s : Store α β) (d : Nat) (x : R (α × Int)) : R (Store α β × List Obs) := do
  let (q, r) ← x
  return (s.setU d q, [.int r])

/-- Assign an `IBig` and see a primitive integer. -/
def Store.putIZ {α β : Type} (s : Store α β) (d : Nat) (x : R (β × Int)) : R (Store α β × List Obs) := do
  let (q, r) ← x
  return (s.setI d q, [.int r])

/-- Assign the result of parsing if it succeeded, and see which. -/
def Store.putParsedU {α β : Type} (s : Store α β) (d : Nat) (x : R (PRes α)) : R (Store α β × List Obs) := do
  match ← x with
  | .ok c => return (s.setU d c, [.parseOk])
  | .error e => return (s, [.parseError e])

/-- Assign the result of parsing if it succeeded, and see which. -/
def Store.putParsedI {α β : Type} (s : Store α β) (d : Nat) (x : R (PRes β)) : R (Store α β × List Obs) := do
  match ← x with
  | .ok c => return (s.setI d c, [.parseOk])
  | .error e => return (s, [.parseError e])

/-- Assign the result of a conversion if it succeeded; otherwise see the error. -/
def Store.putOptU {α β : Type} (s : Store α β) (d : Nat) (x : R (Option α)) : R (Store α β × List Obs) := do
  match ← x with
  | some c => return (s.setU d c, [])
  | none => return (s, [.outOfBounds])

/-- See something. -/
def Store.see {α β : Type} (s : Store α β) (x : R Obs) : R (Store α β × List Obs) := do
  return (s, [← x])

/-- Run one instruction: the new variables, and what was seen. -/
def Instr.exec (cfg : Cfg) (be : Bool) (s : Store UBig IBig) : Instr → R (Store UBig IBig × List Obs)
  | .ubin op o1 o2 d a b => s.putU d (op.exec cfg o1 o2 (s.u a) (s.u b))
  | .ibin op o1 o2 d a b => s.putI d (op.exec cfg o1 o2 (s.i a) (s.i b))
  | .udivrem k o1 o2 d e a b => s.putUU d e (k.execU cfg o1 o2 (s.u a) (s.u b))
  | .idivrem k o1 o2 d e a b => s.putII d e (k.execI cfg o1 o2 (s.i a) (s.i b))
  | .iun op o d a => s.putI d (op.exec cfg o (s.i a))
  | .ushl o d a n => s.putU d ((s.u a).shl cfg o n)
  | .ushr o d a n => s.putU d ((s.u a).shr cfg o n)
  | .ishl o d a n => s.putI d ((s.i a).shl cfg o n)
  | .ishr o d a n => s.putI d ((s.i a).shr cfg o n)
  | .upow d a n => s.putU d ((s.u a).pow cfg n)
  | .ipow d a n => s.putI d ((s.i a).pow cfg n)
  | .setBit d n => s.putU d ((s.u d).setBit cfg n)
  | .clearBit d n => s.putU d ((s.u d).clearBit cfg n)
  | .nextPow2 o d a => s.putU d ((s.u a).nextPowerOfTwo cfg o)
  | .uclone d a => s.putU d ((s.u a).clone cfg)
  | .ucloneFrom d a => s.putU d ((s.u d).cloneFrom cfg (s.u a))
  | .ufromUnsigned d bits x => s.putU d (UBig.fromUnsigned cfg bits x)
  | .ifromUnsigned d bits x => s.putI d (IBig.fromUnsigned cfg bits x)
  | .ifromSigned d bits z => s.putI d (IBig.fromSigned cfg bits z)
  | .uprim op o d a bits x => s.putU d (op.exec cfg o (s.u a) bits x)
  | .sprim op o d a bits z => s.putU d (op.exec cfg o (s.u a) bits z)
  | .iprim op o d a t z => s.putI d (op.exec cfg o (s.i a) t z)
  | .udivremU o d a bits x => s.putUZ d ((s.u a).divRemUnsigned cfg o bits x |>.map fun p => (p.1, (p.2 : Int)))
  | .udivremS k o d a bits z => s.putUZ d (k.execS cfg o (s.u a) bits z)
  | .idivremU o d e a bits x => s.putII d e ((s.i a).divRemUnsigned cfg o bits x)
  | .idivremS o d a bits z => s.putIZ d ((s.i a).divRemSigned cfg o bits z)
  | .idivremE o d a t z => s.putIZ d ((s.i a).divRemEuclidPrim cfg o t z)
  | .utryFromPrim d t z => s.putOptU d (UBig.tryFromPrim cfg t z)
  | .ofUBig d a => s.putI d (.ok (IBig.ofUBig (s.u a)))
  | .unsignedAbs o d a => s.putU d ((s.i a).unsignedAbs cfg o)
  | .tryFromIBig o d a => s.putOptU d (UBig.tryFromIBig cfg o (s.i a))
  | .fromLeBytes d l => s.putU d (UBig.fromLeBytes cfg l)
  | .fromBeBytes d l => s.putU d (UBig.fromBeBytes cfg l)
  | .uparse radix d text => s.putParsedU d (UBig.fromStrRadix cfg text radix)
  | .iparse radix d text => s.putParsedI d (IBig.fromStrRadix cfg text radix)
  | .uparsePrefix d text => s.putParsedU d (UBig.fromStrWithRadixPrefix cfg text)
  | .iparsePrefix d text => s.putParsedI d (IBig.fromStrWithRadixPrefix cfg text)
  | .look l => s.see (l.exec cfg be s)

/-- Run a program: the final variables and everything seen, or the panic of the first instruction that
panics. -/
def runProgram (cfg : Cfg) (be : Bool) : List Instr → Store UBig IBig → R (Store UBig IBig × List Obs)
  | [], s => .ok (s, [])
  | c :: p, s => do
    let (s, o) ← c.exec cfg be s
    let (s, os) ← runProgram cfg be p s
    return (s, o ++ os)

end Ibig
