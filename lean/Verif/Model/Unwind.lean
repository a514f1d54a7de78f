import Verif.Model.History
/-!
# Panics that are caught

A Rust program can catch a panic (`std::panic::catch_unwind`) and go on.  What it then finds in its variables
depends on how the operation that panicked works:

 * the assignment operators and `set_bit`, `clear_bit` first take the value out of the variable, leaving the
   default value, zero (`mem::take`); if the operation panics, the variable stays zero;
 * all other operations work on their own copies or on moved values and assign the result at the end; if
   they panic, the variables they only borrowed are as before.  (A variable moved into an operation that panicked
   cannot be looked at any more; the model leaves it as it was.)
-/
namespace Ibig

/-- A variable. -/
inductive Var where
  | u (k : Nat)
  | i (k : Nat)
deriving DecidableEq, Repr

/-- The operators with an assignment form: `+= -= *= /= %= &= |= ^=`. -/
def UBin.hasAssign : UBin → Bool
  | .add | .sub | .mul | .div | .rem | .and | .or | .xor => true
  | .divEuclid | .remEuclid | .andNot | .gcd => false

/-- The same for `IBig`. -/
def IBin.hasAssign : IBin → Bool
  | .add | .sub | .mul | .div | .rem | .and | .or | .xor => true
  | .divEuclid | .remEuclid | .andNot | .gcd => false

/-- The same for an unsigned primitive argument. -/
def UPrim.hasAssign : UPrim → Bool
  | .add | .sub | .mul | .div | .rem | .and | .or | .xor => true
  | .andNot => false

/-- The same for `UBig` with a signed primitive argument. -/
def SPrim.hasAssign : SPrim → Bool
  | .add | .sub | .mul | .div | .rem | .and | .or | .xor => true
  | .divEuclid | .andNot => false

/-- The same for `IBig` with a primitive argument. -/
def IPrim.hasAssign : IPrim → Bool
  | .add | .sub | .mul | .div | .rem | .and | .or | .xor => true
  | .subFrom | .divEuclid | .andNot => false

/-- The variable whose value is taken out at the start: the destination of an assignment operator (the same
variable is destination and first operand, passed by value), of `set_bit` and of `clear_bit`.
/repo/src/add_ops.rs:84, 91, 154, 161, 225, 232, 282, 289, 613-663, 747-777; mul_ops.rs:74, 81, 130, 137, 370;
div_ops.rs:104, 111, 200, 207, 460, 467, 522, 529, 1389-1455, 1530-1565;
bits.rs:55, 101, 359, 366, 448, 455, 545, 552, 721, 728, 786, 793, 851, 858, 1374-1468, 1505-1560;
shift_ops.rs:40, 47, 72, 79 -/
def Instr.taken : Instr → Option Var
  | .ubin op .val _ d a _ => if op.hasAssign ∧ d = a then some (.u d) else none
  | .ibin op .val _ d a _ => if op.hasAssign ∧ d = a then some (.i d) else none
  | .uprim op .val d a _ _ => if op.hasAssign ∧ d = a then some (.u d) else none
  | .sprim op .val d a _ _ => if op.hasAssign ∧ d = a then some (.u d) else none
  | .iprim op .val d a _ _ => if op.hasAssign ∧ d = a then some (.i d) else none
  | .ushl .val d a _ => if d = a then some (.u d) else none
  | .ushr .val d a _ => if d = a then some (.u d) else none
  | .ishl .val d a _ => if d = a then some (.i d) else none
  | .ishr .val d a _ => if d = a then some (.i d) else none
  | .setBit d _ => some (.u d)
  | .clearBit d _ => some (.u d)
  | _ => none

/-- /repo/src/convert.rs:22-28 `Default for IBig` -/
def IBig.default : IBig := ⟨.pos, .small 0⟩

/-- What is left in the variables if the instruction panics. -/
def Instr.leaves (s : Store UBig IBig) (c : Instr) : Store UBig IBig :=
  match c.taken with
  | some (.u k) => s.setU k .default
  | some (.i k) => s.setI k .default
  | none => s

/-- Run a block of instructions up to the first panic: the variables, what was seen, and the panic. -/
def runBlock (cfg : Cfg) (be : Bool) :
    List Instr → Store UBig IBig → Store UBig IBig × List Obs × Option Panic
  | [], s => (s, [], none)
  | c :: p, s =>
    match c.exec cfg be s with
    | .error e => (c.leaves s, [], some e)
    | .ok (t, o) =>
      let (t, os, e) := runBlock cfg be p t
      (t, o ++ os, e)

/-- Run a sequence of blocks, catching the panic of each. -/
def runCaught (cfg : Cfg) (be : Bool) :
    List (List Instr) → Store UBig IBig → Store UBig IBig × List (List Obs × Option Panic)
  | [], s => (s, [])
  | b :: bs, s =>
    let (t, o) := runBlock cfg be b s
    let (t, os) := runCaught cfg be bs t
    (t, o :: os)

end Ibig
