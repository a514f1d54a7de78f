import Mathlib.Data.ZMod.Basic
import Verif.Spec.History
import Verif.Spec.Modular
import Verif.Model.ModHistory
/-!
# What a program with modular rings should compute (specification)

The same programs over the mathematical integers and the rings `ℤ/n` (`ZMod n`).
-/
namespace Ibig

/-- An element: the variable that holds its ring, the modulus, and the residue (less than the modulus). -/
structure MElem where
  ring : Nat
  n : Nat
  k : Nat
deriving DecidableEq, Repr

/-- Numbers, moduli and elements. -/
abbrev MathState := MStore Nat Int Nat MElem

/-- An element of the ring of `e`, as a residue. -/
def MElem.put (e : MElem) (x : ZMod e.n) : MElem := ⟨e.ring, e.n, x.val⟩

/-- Both elements must belong to the same ring object. -/
def sameRing {α : Type} (e f : MElem) (x : R α) : R α := if e.ring = f.ring then x else .error .differentRings

/-- The divisor must be a unit. -/
def unlessUnit {α : Type} (e : MElem) (x : R α) : R α := if Nat.gcd e.k e.n = 1 then x else .error .notInvertible

/-- The text of an element. -/
def ringText (t : FmtTrait) (f : FmtFlags) (n : Nat) : List Nat :=
  "mod ".toList.map Char.toNat ++ traitText t f n

/-- The text of an element. -/
def elemText (t : FmtTrait) (f : FmtFlags) (e : MElem) : List Nat :=
  traitText t f e.k ++ " (".toList.map Char.toNat ++ ringText t f e.n ++ ")".toList.map Char.toNat

/-- One instruction over the mathematical numbers and rings. -/
noncomputable def MInstr.math (N : Nat) (s : MathState) : MInstr → R (MathState × List Obs)
  | .num c => s.putN (c.math N s.n)
  | .ring d a => s.putRing d (fun e => e.ring == d) (unlessZero (s.n.u a) (s.n.u a))
  | .ofU _ d r a => s.putE d (do
    let n ← unwrapR (s.ring r)
    return ⟨r, n, (s.n.u a : ZMod n).val⟩)
  | .ofI _ d r a => s.putE d (do
    let n ← unwrapR (s.ring r)
    return ⟨r, n, (s.n.i a : ZMod n).val⟩)
  | .ofPrim d r _ z => s.putE d (do
    let n ← unwrapR (s.ring r)
    return ⟨r, n, (z : ZMod n).val⟩)
  | .ofBool d r b => s.putE d (do
    let n ← unwrapR (s.ring r)
    return ⟨r, n, (if b then 1 else 0 : ZMod n).val⟩)
  | .neg d a => s.putE d (do
    let x ← unwrapR (s.elem a)
    return x.put (-x.k))
  | .add _ _ d a b => s.putE d (do
    let x ← unwrapR (s.elem a)
    let y ← unwrapR (s.elem b)
    sameRing x y (.ok (x.put (x.k + y.k))))
  | .sub _ _ d a b => s.putE d (do
    let x ← unwrapR (s.elem a)
    let y ← unwrapR (s.elem b)
    sameRing x y (.ok (x.put (x.k - y.k))))
  | .mul _ _ d a b => s.putE d (do
    let x ← unwrapR (s.elem a)
    let y ← unwrapR (s.elem b)
    sameRing x y (.ok (x.put (x.k * y.k))))
  | .div d a b => s.putE d (do
    let x ← unwrapR (s.elem a)
    let y ← unwrapR (s.elem b)
    unlessUnit y (sameRing x y (.ok (x.put (x.k * (y.k : ZMod x.n)⁻¹)))))
  | .inverse d a => s.putOptE d (do
    let x ← unwrapR (s.elem a)
    return if Nat.gcd x.k x.n = 1 then some (x.put (x.k : ZMod x.n)⁻¹) else none)
  | .pow d a e => s.putE d (do
    let x ← unwrapR (s.elem a)
    return x.put ((x.k : ZMod x.n) ^ s.n.u e))
  | .powSigned d a e => s.putE d (do
    let x ← unwrapR (s.elem a)
    if 0 ≤ s.n.i e then return x.put ((x.k : ZMod x.n) ^ (s.n.i e).natAbs)
    else unlessUnit x (.ok (x.put ((x.k : ZMod x.n)⁻¹ ^ (s.n.i e).natAbs))))
  | .clone d a => s.putE d (unwrapR (s.elem a))
  | .cloneFrom d a => s.putE d (do
    let _ ← unwrapR (s.elem d)
    unwrapR (s.elem a))
  | .residue d a => s.putU d (do return (← unwrapR (s.elem a)).k)
  | .modulus d r => s.putU d (unwrapR (s.ring r))
  | .eq a b => s.see (do
    let x ← unwrapR (s.elem a)
    let y ← unwrapR (s.elem b)
    sameRing x y (.ok (.bool (decide (x.k = y.k)))))
  | .ringEq r r' => s.see (do
    let _ ← unwrapR (s.ring r)
    let _ ← unwrapR (s.ring r')
    return .bool (decide (r = r')))
  | .fmt t f a => s.see (do return .list (elemText t f (← unwrapR (s.elem a))))
  | .ringFmt t f r => s.see (do return .list (ringText t f (← unwrapR (s.ring r))))

/-- A program over the mathematical numbers and rings. -/
noncomputable def mathModular (N : Nat) : List MInstr → MathState → R (MathState × List Obs)
  | [], s => .ok (s, [])
  | c :: p, s => do
    let (s, o) ← c.math N s
    let (s, os) ← mathModular N p s
    return (s, o ++ os)

/-- The primitive arguments are values of their types. -/
def MInstr.OK (cfg : Cfg) : MInstr → Prop
  | .num c => c.OK cfg
  | .ofPrim _ _ t z => t.Valid ∧ t.InRange z
  | _ => True

/-- There is enough room for the intermediate results of the instruction, far enough from the limits of
the build: a number to be converted is a word below the size limit or the modulus has one word; for products the
square of the modulus fits in a number; for inverses twice the modulus; for powers, a power of the
modulus that depends on the length of the exponent.  (The last three are sufficient conditions.) -/
def MInstr.Room (cfg : Cfg) (s : MathState) : MInstr → Prop
  | .ofU _ _ r a => ∀ n, s.ring r = some n → Accepts cfg n (s.n.u a)
  | .ofI _ _ r a => ∀ n, s.ring r = some n → Accepts cfg n (s.n.i a).natAbs
  | .mul _ _ _ a _ => ∀ x, s.elem a = some x → Fits cfg (x.n * x.n)
  | .div _ a b => (∀ x, s.elem a = some x → Fits cfg (x.n * x.n)) ∧ ∀ y, s.elem b = some y → Fits cfg (2 * y.n)
  | .inverse _ a => ∀ x, s.elem a = some x → Fits cfg (2 * x.n)
  | .pow _ a e => ∀ x, s.elem a = some x → Fits cfg (x.n ^ (Nat.size (s.n.u e) + 6))
  | .powSigned _ a e => ∀ x, s.elem a = some x → Fits cfg (2 * x.n) ∧
    Fits cfg (x.n ^ (Nat.size (s.n.i e).natAbs + 6))
  | _ => True

/-- The variables of the crate hold these numbers, rings with these moduli, and elements with these residues, in
the rings of these variables. -/
structure MState.Means (cfg : Cfg) (addr : Nat → Nat) (s : MState) (v : MathState) : Prop where
  wf : s.n.WF cfg
  values : s.n.values cfg = v.n
  ring : ∀ k, match s.ring k, v.ring k with
    | none, none => True
    | some r, some n => IsRing cfg r n ∧ r.addr = addr k
    | _, _ => False
  elem : ∀ k, match s.elem k, v.elem k with
    | none, none => True
    | some x, some e => v.ring e.ring = some e.n ∧ ∃ r, s.ring e.ring = some r ∧ Elem cfg r x e.k
    | _, _ => False

/-- The variables that the instruction reads hold something.  (The Rust compiler checks this.) -/
def MInstr.Defined {α β ρ ε : Type} (s : MStore α β ρ ε) : MInstr → Prop
  | .num _ | .ring _ _ => True
  | .ofU _ _ r _ | .ofI _ _ r _ | .ofPrim _ r _ _ | .ofBool _ r _ | .modulus _ r | .ringFmt _ _ r => s.ring r ≠ none
  | .ringEq r r' => s.ring r ≠ none ∧ s.ring r' ≠ none
  | .neg _ a | .inverse _ a | .pow _ a _ | .powSigned _ a _ | .clone _ a | .residue _ a | .fmt _ _ a => s.elem a ≠ none
  | .add _ _ _ a b | .sub _ _ _ a b | .mul _ _ _ a b | .div _ a b | .eq a b => s.elem a ≠ none ∧ s.elem b ≠ none
  | .cloneFrom d a => s.elem d ≠ none ∧ s.elem a ≠ none

/-- The panics documented for the operations of programs with rings. -/
def DocumentedM (p : Panic) : Prop := Documented p ∨ p = .differentRings ∨ p = .notInvertible

end Ibig
