import Verif.Model.Unwind
import Verif.Spec.History
/-!
# What a program that catches panics should compute (specification)

As `Spec/History.lean`; in addition, a variable modified in place by an operation that panics becomes zero, and
all other variables keep their values.
-/
namespace Ibig

/-- The variable that an instruction of the form `x op= …`, `x.set_bit(n)` or `x.clear_bit(n)` modifies.  There is no
`op=` for the Euclidean operations, `gcd`, the combination "and not", and subtraction from a primitive integer. -/
def Instr.modifies : Instr → Option Var
  | .ubin op o _ d a _ =>
    if o = .val ∧ d = a ∧ op ∉ [.divEuclid, .remEuclid, .gcd, .andNot] then some (.u d) else none
  | .ibin op o _ d a _ =>
    if o = .val ∧ d = a ∧ op ∉ [.divEuclid, .remEuclid, .gcd, .andNot] then some (.i d) else none
  | .uprim op o d a _ _ => if o = .val ∧ d = a ∧ op ≠ .andNot then some (.u d) else none
  | .sprim op o d a _ _ => if o = .val ∧ d = a ∧ op ∉ [.divEuclid, .andNot] then some (.u d) else none
  | .iprim op o d a _ _ => if o = .val ∧ d = a ∧ op ∉ [.divEuclid, .andNot, .subFrom] then some (.i d) else none
  | .ushl o d a _ | .ushr o d a _ => if o = .val ∧ d = a then some (.u d) else none
  | .ishl o d a _ | .ishr o d a _ => if o = .val ∧ d = a then some (.i d) else none
  | .setBit x _ | .clearBit x _ => some (.u x)
  | _ => none

/-- The numbers in the variables after a panic. -/
def Instr.mathLeaves (s : Store Nat Int) (c : Instr) : Store Nat Int :=
  match c.modifies with
  | some (.u k) => s.setU k 0
  | some (.i k) => s.setI k 0
  | none => s

/-- A block up to the first panic. -/
noncomputable def mathBlock (N : Nat) : List Instr → Store Nat Int → Store Nat Int × List Obs × Option Panic
  | [], s => (s, [], none)
  | c :: p, s =>
    match c.math N s with
    | .error e => (c.mathLeaves s, [], some e)
    | .ok (t, o) =>
      let (t, os, e) := mathBlock N p t
      (t, o ++ os, e)

/-- A sequence of blocks. -/
noncomputable def mathCaught (N : Nat) :
    List (List Instr) → Store Nat Int → Store Nat Int × List (List Obs × Option Panic)
  | [], s => (s, [])
  | b :: bs, s =>
    let (t, o) := mathBlock N b s
    let (t, os) := mathCaught N bs t
    (t, o :: os)

end Ibig
