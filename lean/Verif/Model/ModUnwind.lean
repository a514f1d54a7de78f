import Verif.Model.ModHistory
import Verif.Model.Unwind
/-!
# Panics in modular arithmetic that are caught

As `Model/Unwind.lean`, for programs with rings.  The operators `+=`, `-=`, `*=` and `clone_from` on `Modulo` work in
place, through `&mut`.  Here they are modelled a second time, so that one can see what is in the variable when
they panic half-way: `Left σ` is what an operation leaves in the variable, together with its panic if it panics.
(`x.toR` forgets what is left after a panic; Proofs/ModUnwind.lean shows that this gives the functions of
Model/Modular.lean.)

All other operations on rings and elements, `/=` too, compute a new value and assign it at the end.
-/
namespace Ibig

/-- What an operation through `&mut` leaves in the variable, and the panic if it panics. -/
abbrev Left (σ : Type) := σ × Option Panic

/-- The result of the operation, or the panic. -/
def Left.toR {σ : Type} (x : Left σ) : R σ :=
  match x.2 with
  | none => .ok x.1
  | some e => .error e

/-- Compute something while the variable holds `s`, then go on. -/
def Left.holding {σ α : Type} (s : σ) (x : R α) (f : α → Left σ) : Left σ :=
  match x with
  | .error e => (s, some e)
  | .ok a => f a

/-- /repo/src/modular/add.rs:253-255.  `add::sub_same_len_in_place` can panic only by its assertion about the lengths,
before it changes anything (/repo/src/add.rs:86), and `add_same_len_in_place` too (70). -/
def RingLarge.addFixLeft (W : Nat) (r : RingLarge) (words : List Nat) (overflow : Bool) : Left (List Nat) :=
  Left.holding words (subSameLen W words r.modulus) fun p =>
  Left.holding p.1 (assertR (overflow = p.2)) fun _ => (p.1, none)

/-- the closure of /repo/src/modular/add.rs:250-257 (`ModuloLarge::add_in_place`) -/
def RingLarge.addLeft (W : Nat) (r : RingLarge) (words rhs : List Nat) : Left (List Nat) :=
  Left.holding words (addSameLen W words rhs) fun p =>
  if p.2 = true then r.addFixLeft W p.1 p.2
  else Left.holding p.1 (cmpSameLen p.1 r.modulus) fun o => if o = .lt then (p.1, none) else r.addFixLeft W p.1 p.2

/-- /repo/src/modular/add.rs:267-270 -/
def RingLarge.subFixLeft (W : Nat) (r : RingLarge) (words : List Nat) (overflow : Bool) : Left (List Nat) :=
  if overflow = true then
    Left.holding words (addSameLen W words r.modulus) fun p =>
    Left.holding p.1 (assertR (p.2 = true)) fun _ => (p.1, none)
  else (words, none)

/-- the closure of /repo/src/modular/add.rs:264-271 (`ModuloLarge::sub_in_place`) -/
def RingLarge.subLeft (W : Nat) (r : RingLarge) (words rhs : List Nat) : Left (List Nat) :=
  Left.holding words (subSameLen W words rhs) fun p => r.subFixLeft W p.1 p.2

/-- the closure of /repo/src/modular/mul.rs:154-156 (`mul_normalized_in_place`): the product is computed in the scratch
memory and then copied. -/
def RingLarge.mulLeft (W : Nat) (r : RingLarge) (words v : List Nat) (mem : Nat) : Left (List Nat) :=
  Left.holding words (r.mulNormalized W words v mem) fun w =>
  Left.holding words (copyFromSlice words w) fun w => (w, none)

/-- /repo/src/modular/modulo.rs:154-160 `modify_normalized_value`: the closure changes the words, then there is an
assertion. -/
def ModLarge.modifyLeft (W : Nat) (x : ModLarge) (f : Left (List Nat)) : Left ModLarge :=
  match f.2 with
  | some e => (⟨x.addr, x.ring, f.1⟩, some e)
  | none => Left.holding ⟨x.addr, x.ring, f.1⟩ (ModLarge.new W x.addr x.ring f.1) fun m => (m, none)

/-- /repo/src/modular/modulo.rs:116-120 `set_raw`: the assertion comes before the assignment. `v` is the computation of
the new value. -/
def ModSmall.setLeft (W : Nat) (x : ModSmall) (v : R Nat) : Left ModSmall :=
  Left.holding x v fun v => Left.holding x (ModSmall.new W x.addr x.ring v) fun m => (m, none)

/-- An operation on the contents of a `Modulo`. -/
def Left.map {σ τ : Type} (f : σ → τ) (x : Left σ) : Left τ := (f x.1, x.2)

/-- /repo/src/modular/add.rs:75-92 `AddAssign<&Modulo> for Modulo` (with 213-217, 247-258) -/
def Modulo.addAssignLeft (W : Nat) (x y : Modulo) : Left Modulo :=
  match x, y with
  | .small x, .small y =>
    (Left.holding x (checkSameRing x.addr y.addr) fun _ => x.setLeft W (x.ring.add W x.raw y.raw)).map .small
  | .large x, .large y =>
    (Left.holding x (checkSameRing x.addr y.addr) fun _ => x.modifyLeft W (x.ring.addLeft W x.words y.words)).map .large
  | x, _ => (x, some .differentRings)

/-- /repo/src/modular/add.rs:149-161 `SubAssign<&Modulo> for Modulo` (with 219-224, 261-272) -/
def Modulo.subAssignLeft (W : Nat) (x y : Modulo) : Left Modulo :=
  match x, y with
  | .small x, .small y =>
    (Left.holding x (checkSameRing x.addr y.addr) fun _ => x.setLeft W (x.ring.sub W x.raw y.raw)).map .small
  | .large x, .large y =>
    (Left.holding x (checkSameRing x.addr y.addr) fun _ => x.modifyLeft W (x.ring.subLeft W x.words y.words)).map .large
  | x, _ => (x, some .differentRings)

/-- /repo/src/modular/mul.rs:61-79 `MulAssign<&Modulo> for Modulo` -/
def Modulo.mulAssignLeft (cfg : Cfg) (x y : Modulo) : Left Modulo :=
  match x, y with
  | .small x, .small y =>
    (Left.holding x (checkSameRing x.addr y.addr) fun _ => x.setLeft cfg.W (x.ring.mul cfg.W x.raw y.raw)).map .small
  | .large x, .large y =>
    (Left.holding x (checkSameRing x.addr y.addr) fun _ =>
     Left.holding x (x.ring.mulMemory cfg) fun req =>
     Left.holding x (allocMemory cfg req) fun mem =>
     x.modifyLeft cfg.W (x.ring.mulLeft cfg.W x.words y.words mem)).map .large
  | x, _ => (x, some .differentRings)

/-- /repo/src/modular/modulo.rs:210-220 `ModuloLarge::clone_from`: the ring is assigned first, then the words. -/
def ModLarge.cloneFromLeft (x source : ModLarge) : Left ModLarge :=
  if x.words.length = source.words.length then
    Left.holding ⟨source.addr, source.ring, x.words⟩ (copyFromSlice x.words source.words) fun ws =>
    (⟨source.addr, source.ring, ws⟩, none)
  else (⟨source.addr, source.ring, source.words⟩, none)

/-- /repo/src/modular/modulo.rs:176-179, 191-200 `Clone::clone_from` for `Modulo` -/
def Modulo.cloneFromLeft (x source : Modulo) : Left Modulo :=
  match x, source with
  | .large x, .large s => (x.cloneFromLeft s).map .large
  | _, _ => (source.clone, none)

/-- What is left in the variable `d` by an operation in place on it with the variable `b`. -/
def MStore.leftE (s : MState) (d b : Nat) (f : Modulo → Modulo → Left Modulo) : MState :=
  match s.elem d, s.elem b with
  | some x, some y => { s with elem := fun k => if k = d then some (f x y).1 else s.elem k }
  | _, _ => s

/-- What is left in the variables if the instruction panics.  `x += y` is the instruction with the same destination
and first operand, passed by value. -/
def MInstr.leaves (cfg : Cfg) (s : MState) : MInstr → MState
  | .num c => { s with n := c.leaves s.n }
  | .add .val _ d a b => if d = a then s.leftE d b (Modulo.addAssignLeft cfg.W) else s
  | .sub .val _ d a b => if d = a then s.leftE d b (Modulo.subAssignLeft cfg.W) else s
  | .mul .val _ d a b => if d = a then s.leftE d b (Modulo.mulAssignLeft cfg) else s
  | .cloneFrom d a => s.leftE d a Modulo.cloneFromLeft
  | _ => s

/-- Run a block of instructions up to the first panic: the variables, what was seen, and the panic. -/
def runModBlock (cfg : Cfg) (be : Bool) (addr : Nat → Nat) : List MInstr → MState → MState × List Obs × Option Panic
  | [], s => (s, [], none)
  | c :: p, s =>
    match c.exec cfg be addr s with
    | .error e => (c.leaves cfg s, [], some e)
    | .ok (t, o) =>
      let (t, os, e) := runModBlock cfg be addr p t
      (t, o ++ os, e)

/-- Run a sequence of blocks, catching the panic of each. -/
def runModCaught (cfg : Cfg) (be : Bool) (addr : Nat → Nat) :
    List (List MInstr) → MState → MState × List (List Obs × Option Panic)
  | [], s => (s, [])
  | b :: bs, s =>
    let (t, o) := runModBlock cfg be addr b s
    let (t, os) := runModCaught cfg be addr bs t
    (t, o :: os)

end Ibig
