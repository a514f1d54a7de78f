import Verif.Model.Address
import Verif.Spec.Number
/-! Specification of scratch memory: what the target guarantees, and what a user of the memory sees. -/
namespace Ibig

/-- What is assumed about the target: the alignment of a word is a power of two that divides its size, and
`Layout` accepts at least `isize::MAX` and less than `usize::MAX + 1` bytes. -/
structure Target.OK (t : Target) : Prop where
  valid : t.cfg.Valid
  align : ∃ k, t.align = 2 ^ k
  dvd : t.align ∣ t.size
  lo : t.isizeMax ≤ t.layoutMax
  hi : t.layoutMax < 2 ^ t.cfg.U

/-- The contract of the global allocator: null, or an aligned address of a block that does not reach the end of
the address space. -/
def AllocatorOK (t : Target) (layout : Layout) (answer : Nat) : Prop :=
  answer = 0 ∨ (answer % layout.align = 0 ∧ answer + layout.size < 2 ^ t.cfg.U)

/-- A layout for `n` words, as the crate requests them: an array of words, or the layout of size zero. -/
def Layout.Words (t : Target) (l : Layout) (n : Nat) : Prop :=
  l.size = n * t.size ∧ (l.align = t.align ∨ n = 0 ∧ l.align = 1)

/-- The request for memory `x` has the outcome `y` of the request for a number of words: a layout for that
many words was allocated, or the same panic. -/
def Provides (t : Target) (x : Raw MemoryAllocation) (y : R Nat) : Prop :=
  match y with
  | .ok w => ∃ A, x = .ok A ∧ A.layout.Words t w
  | .error p => x = .error (.panic p)

/-- What the allocator handed out for a layout: nothing if the size is zero. -/
def handedOut (layout : Layout) (answer : Nat) : Option (Nat × Layout) :=
  if layout.size = 0 then none else some (answer, layout)

/-- The words written by an operation are words. -/
def MemOp.OK (W : Nat) : MemOp → Prop
  | .fill _ x => x < base W
  | .copy source => IsWords W source
  | .copyFill _ source x => IsWords W source ∧ x < base W
  | .release => True
  | .write _ _ v => v < base W
  | .read _ _ => True

/-- Scratch memory of `room` words, as its user sees it: a stack of lists.  Allocation succeeds if there is
room, and if not the operation panics.  (`usable` is false for the layout of size zero and alignment one, from
which not even an empty slice can be allocated.) -/
def pureAlloc (room : Nat) (usable : Bool) (ls : List (List Nat)) (l : List Nat) :
    R (List (List Nat) × List Nat) :=
  if usable = true ∧ (ls.map List.length).sum + l.length ≤ room then .ok (l :: ls, [])
  else .error .allocatedTooLittle

/-- One operation on the stack of lists. -/
def MemOp.pure (room : Nat) (usable : Bool) (ls : List (List Nat)) : MemOp → R (List (List Nat) × List Nat)
  | .fill n x => pureAlloc room usable ls (List.replicate n x)
  | .copy source => pureAlloc room usable ls source
  | .copyFill n source x =>
    if source.length ≤ n then pureAlloc room usable ls (source ++ List.replicate (n - source.length) x)
    else .error .assertFailed
  | .release => .ok (ls.tail, [])
  | .write k i v =>
    match ls[k]? with
    | none => .error .index
    | some l => if i < l.length then .ok (ls.set k (l.set i v), []) else .error .index
  | .read k i =>
    match ls[k]? with
    | none => .error .index
    | some l =>
      match l[i]? with
      | none => .error .index
      | some v => .ok (ls, [v])

/-- A sequence of operations on the stack of lists: the words read, and the panic if there is one. -/
def runPure (room : Nat) (usable : Bool) : List (List Nat) → List MemOp → List Nat × Option Panic
  | _, [] => ([], none)
  | ls, op :: ops =>
    match op.pure room usable ls with
    | .error p => ([], some p)
    | .ok (ls, o) =>
      let r := runPure room usable ls ops
      (o ++ r.1, r.2)

end Ibig
