import Verif.Model.History
import Verif.Model.ModularFmt
/-!
# Programs with modular rings

The programs of `Model/History.lean`, extended by variables that hold rings (`ModuloRing`) and variables that hold
elements of rings (`Modulo`).  Each instruction runs the model of the corresponding public function of
/repo/src/modular.

A ring variable `d` lives at the address `addr d`.  Elements borrow the ring: a Rust program can assign a new ring to
the variable only when no element of the old ring is used any more.  So the assignment discards these
elements.  Reading a variable that holds nothing, which the Rust compiler rejects, is reported as `unwrap`.

As in `Model/History.lean`, `x op= y` is the instruction with the same destination and first operand
(/repo/src/modular/{add,mul,div}.rs: `AddAssign`, `SubAssign`, `MulAssign`, `DivAssign`).
-/
namespace Ibig

/-- One instruction: `d` is the destination, `r`, `r'` are ring variables, `a`, `b` operands, `e` an exponent. -/
inductive MInstr where
  | num (c : Instr)
  | ring (d a : Nat)
  | ofU (o : Own) (d r a : Nat)
  | ofI (o : Own) (d r a : Nat)
  | ofPrim (d r : Nat) (t : PTy) (z : Int)
  | ofBool (d r : Nat) (b : Bool)
  | neg (d a : Nat)
  | add (o1 o2 : Own) (d a b : Nat)
  | sub (o1 o2 : Own) (d a b : Nat)
  | mul (o1 o2 : Own) (d a b : Nat)
  | div (d a b : Nat)
  | inverse (d a : Nat)
  | pow (d a e : Nat)
  | powSigned (d a e : Nat)
  | clone (d a : Nat)
  | cloneFrom (d a : Nat)
  | residue (d a : Nat)
  | modulus (d r : Nat)
  | eq (a b : Nat)
  | ringEq (r r' : Nat)
  | fmt (t : FmtTrait) (f : FmtFlags) (a : Nat)
  | ringFmt (t : FmtTrait) (f : FmtFlags) (r : Nat)
deriving DecidableEq, Repr

/-- The variables of a program: numbers, rings, elements. -/
structure MStore (α β ρ ε : Type) where
  n : Store α β
  ring : Nat → Option ρ
  elem : Nat → Option ε

/-- No rings and no elements. -/
def MStore.start {α β ρ ε : Type} (s : Store α β) : MStore α β ρ ε := ⟨s, fun _ => none, fun _ => none⟩

/-- Assign the result of an operation to an element variable, and see nothing. -/
def MStore.putE {α β ρ ε : Type} (s : MStore α β ρ ε) (d : Nat) (x : R ε) : R (MStore α β ρ ε × List Obs) := do
  let x ← x
  return ({ s with elem := fun k => if k = d then some x else s.elem k }, [])

/-- Assign a result, if there is one, and see whether there is. -/
def MStore.putOptE {α β ρ ε : Type} (s : MStore α β ρ ε) (d : Nat) (x : R (Option ε)) :
    R (MStore α β ρ ε × List Obs) := do
  match ← x with
  | some x => return ({ s with elem := fun k => if k = d then some x else s.elem k }, [.bool true])
  | none => return (s, [.bool false])

/-- Assign the result of an operation to a `UBig` variable, and see nothing. -/
def MStore.putU {α β ρ ε : Type} (s : MStore α β ρ ε) (d : Nat) (x : R α) : R (MStore α β ρ ε × List Obs) := do
  return ({ s with n := s.n.setU d (← x) }, [])

/-- Assign a ring; `dead` are the elements of the ring that the variable held before. -/
def MStore.putRing {α β ρ ε : Type} (s : MStore α β ρ ε) (d : Nat) (dead : ε → Bool) (x : R ρ) :
    R (MStore α β ρ ε × List Obs) := do
  let x ← x
  return (⟨s.n, fun k => if k = d then some x else s.ring k, fun k => (s.elem k).filter (fun e => !dead e)⟩, [])

/-- Run an instruction on numbers. -/
def MStore.putN {α β ρ ε : Type} (s : MStore α β ρ ε) (x : R (Store α β × List Obs)) :
    R (MStore α β ρ ε × List Obs) := do
  let (n, o) ← x
  return ({ s with n := n }, o)

/-- See something. -/
def MStore.see {α β ρ ε : Type} (s : MStore α β ρ ε) (x : R Obs) : R (MStore α β ρ ε × List Obs) := do
  return (s, [← x])

/-- The variables of a program of the crate. -/
abbrev MState := MStore UBig IBig Ring Modulo

/-- Run one instruction: the new variables, and what was seen. -/
def MInstr.exec (cfg : Cfg) (be : Bool) (addr : Nat → Nat) (s : MState) : MInstr → R (MState × List Obs)
  | .num c => s.putN (c.exec cfg be s.n)
  | .ring d a => s.putRing d (fun x => x.addr == addr d) (Ring.new cfg (addr d) (s.n.u a))
  | .ofU o d r a => s.putE d (do (← unwrapR (s.ring r)).fromUBig cfg o (s.n.u a))
  | .ofI o d r a => s.putE d (do (← unwrapR (s.ring r)).fromIBig cfg o (s.n.i a))
  | .ofPrim d r t z => s.putE d (do (← unwrapR (s.ring r)).fromPrim cfg t z)
  | .ofBool d r b => s.putE d (do (← unwrapR (s.ring r)).fromBool cfg b)
  | .neg d a => s.putE d (do (← unwrapR (s.elem a)).neg cfg.W)
  | .add o1 o2 d a b => s.putE d (do Modulo.add cfg.W o1 o2 (← unwrapR (s.elem a)) (← unwrapR (s.elem b)))
  | .sub o1 o2 d a b => s.putE d (do Modulo.sub cfg.W o1 o2 (← unwrapR (s.elem a)) (← unwrapR (s.elem b)))
  | .mul o1 o2 d a b => s.putE d (do Modulo.mul cfg o1 o2 (← unwrapR (s.elem a)) (← unwrapR (s.elem b)))
  | .div d a b => s.putE d (do Modulo.div cfg (← unwrapR (s.elem a)) (← unwrapR (s.elem b)))
  | .inverse d a => s.putOptE d (do (← unwrapR (s.elem a)).inverse cfg)
  | .pow d a e => s.putE d (do (← unwrapR (s.elem a)).pow cfg (s.n.u e))
  | .powSigned d a e => s.putE d (do (← unwrapR (s.elem a)).powSigned cfg (s.n.i e))
  | .clone d a => s.putE d (do return (← unwrapR (s.elem a)).clone)
  | .cloneFrom d a => s.putE d (do (← unwrapR (s.elem d)).cloneFrom (← unwrapR (s.elem a)))
  | .residue d a => s.putU d (do (← unwrapR (s.elem a)).residue cfg)
  | .modulus d r => s.putU d (do (← unwrapR (s.ring r)).modulus cfg)
  | .eq a b => s.see (do return .bool (← Modulo.eq (← unwrapR (s.elem a)) (← unwrapR (s.elem b))))
  | .ringEq r r' => s.see (do return .bool (Ring.eq (← unwrapR (s.ring r)) (← unwrapR (s.ring r'))))
  | .fmt t f a => s.see (do return .list (← (← unwrapR (s.elem a)).fmt cfg be t f))
  | .ringFmt t f r => s.see (do return .list (← (← unwrapR (s.ring r)).fmt cfg be t f))

/-- Run a program: the final variables and everything seen, or the panic of the first instruction that
panics. -/
def runModular (cfg : Cfg) (be : Bool) (addr : Nat → Nat) : List MInstr → MState → R (MState × List Obs)
  | [], s => .ok (s, [])
  | c :: p, s => do
    let (s, o) ← c.exec cfg be addr s
    let (s, os) ← runModular cfg be addr p s
    return (s, o ++ os)

end Ibig
