import Verif.Model.Modular
/-!
Model of /repo/src/memory.rs at the level of addresses and bytes, and of the memory requirements as
`core::alloc::Layout`s.

Pointers are numbers.  The contents of memory are a function from addresses to bytes, `none` for a byte that
has not been initialised.  What the Rust reference and the documentation of `core` call undefined behaviour is
the outcome `Fault.ub`.  The lifetimes of `Memory<'a>` and of the slices allocated from it make the live
slices a stack: `allocate_slice_*` borrows the `Memory` mutably until both the slice and the remaining
`Memory` are dropped.
-/
namespace Ibig

/-- Outcomes of code that uses raw pointers, other than returning: a panic, or undefined behaviour. -/
inductive Fault where
  | panic (p : Panic)
  | ub
deriving DecidableEq, Repr

/-- Results of code that uses raw pointers. -/
abbrev Raw (α : Type) := Except Fault α

/-- Safe code inside unsafe code. -/
def R.raw {α : Type} : R α → Raw α
  | .ok a => .ok a
  | .error p => .error (.panic p)

/-- The operation has undefined behaviour unless `p` holds. -/
def requireR (p : Prop) [Decidable p] : Raw Unit := if p then .ok () else .error .ub

/-- What the compiler and `core` add to the build parameters: `align_of::<Word>()`, the largest size a `Layout`
may have (`isize::MAX`, or `usize::MAX` before Rust 1.65), and the byte order. -/
structure Target where
  cfg : Cfg
  /-- `align_of::<Word>()` -/
  align : Nat
  /-- largest size of a `Layout`, rounded up to its alignment -/
  layoutMax : Nat
  /-- big endian -/
  be : Bool

/-- `size_of::<Word>()` -/
def Target.size (t : Target) : Nat := t.cfg.W / 8

/-- `isize::MAX` -/
def Target.isizeMax (t : Target) : Nat := 2 ^ (t.cfg.U - 1) - 1

/-! ### Layouts -/

/-- `core::alloc::Layout` -/
structure Layout where
  size : Nat
  align : Nat
deriving DecidableEq, Repr

/-- Round up to a multiple, as in the documentation of `Layout`. -/
def roundUpTo (x a : Nat) : Nat := (x + (a - 1)) / a * a

/-- `Layout::from_size_align`, from its documentation: `None` unless the alignment is a power of two and the
size rounded up to it is within the limit. -/
def Layout.fromSizeAlign (t : Target) (size align : Nat) : Option Layout :=
  if align ≠ 0 ∧ align &&& (align - 1) = 0 ∧ roundUpTo size align ≤ t.layoutMax then some ⟨size, align⟩
  else none

/-- `Layout::array::<Word>(n)`, from its documentation -/
def Layout.array (t : Target) (n : Nat) : Option Layout :=
  if n * t.size < 2 ^ t.cfg.U then Layout.fromSizeAlign t (n * t.size) t.align else none

/-- `a.extend(b)`, from its documentation: `b` after `a`, with padding to align it. -/
def Layout.extend (t : Target) (a b : Layout) : Option Layout :=
  let offset := roundUpTo a.size b.align
  if offset + b.size < 2 ^ t.cfg.U then
    Layout.fromSizeAlign t (offset + b.size) (max a.align b.align)
  else none

/-- /repo/src/memory.rs:168-170 `zero_layout` -/
def zeroLayout (t : Target) : R Layout := unwrapR (Layout.fromSizeAlign t 0 1)

/-- `unwrap_or_else(|_| panic_out_of_memory())` -/
def orOutOfMemory {α : Type} : Option α → R α
  | some a => .ok a
  | none => .error .outOfMemory

/-- /repo/src/memory.rs:172-174 `array_layout::<Word>` -/
def arrayLayout (t : Target) (n : Nat) : R Layout := orOutOfMemory (Layout.array t n)

/-- /repo/src/memory.rs:176-179 `add_layout` -/
def addLayout (t : Target) (a b : Layout) : R Layout := orOutOfMemory (Layout.extend t a b)

/-- /repo/src/memory.rs:181-184 `max_layout` -/
def maxLayout (t : Target) (a b : Layout) : R Layout :=
  orOutOfMemory (Layout.fromSizeAlign t (max a.size b.size) (max a.align b.align))

/-- /repo/src/math.rs:22-25 `ceil_log_2` of a `usize` -/
def ceilLog2R (x : Nat) : R Nat := do
  assertR (x ≠ 0)
  let y ← ckSub x 1
  .ok (bitLen y)

/-- /repo/src/mul/karatsuba.rs:23-36 `memory_requirement_up_to` -/
def karatsubaLayout (t : Target) (n : Nat) : R Layout := do
  let a ← ckMul t.cfg.U 2 n
  let l ← ceilLog2R n
  let b ← ckMul t.cfg.U 2 l
  let words ← ckAdd t.cfg.U a b
  arrayLayout t words

/-- /repo/src/mul/toom_3.rs:31-55 `memory_requirement_up_to` -/
def toom3Layout (t : Target) (n : Nat) : R Layout := do
  let a ← ckMul t.cfg.U 4 n
  let l ← ceilLog2R n
  let b ← ckMul t.cfg.U 13 l
  let words ← ckAdd t.cfg.U a b
  arrayLayout t words

/-- /repo/src/mul/mod.rs:111-124 `memory_requirement_up_to`, `memory_requirement_exact`
(the first argument, the total length, is not used), with simple.rs:23-25 -/
def mulLayout (t : Target) (smallerLen : Nat) : R Layout :=
  if smallerLen ≤ mulMaxLenSimple then zeroLayout t
  else if smallerLen ≤ mulMaxLenKaratsuba then karatsubaLayout t smallerLen
  else toom3Layout t smallerLen

/-- /repo/src/div/divide_conquer.rs:16-24 `memory_requirement_exact` -/
def dcLayout (t : Target) (lhsLen rhsLen : Nat) : R Layout := do
  assertR (rhsLen ≤ lhsLen)
  let d ← ckSub lhsLen rhsLen
  mulLayout t (min (rhsLen / 2) d)

/-- /repo/src/div/mod.rs:112-119 `memory_requirement_exact` -/
def divLayout (t : Target) (lhsLen rhsLen : Nat) : R Layout := do
  assertR (rhsLen ≤ lhsLen ∧ 2 ≤ rhsLen)
  if rhsLen ≤ divMaxLenSimple ∨ lhsLen - rhsLen ≤ divMaxLenSimple then zeroLayout t
  else dcLayout t lhsLen rhsLen

/-- /repo/src/modular/mul.rs:103-112 `mul_memory_requirement`, for a modulus of `n` words.
(The arguments of `add_layout` are evaluated from left to right.) -/
def ringMulLayout (t : Target) (n : Nat) : R Layout := do
  let n2 ← ckMul t.cfg.U 2 n
  let a ← arrayLayout t n2
  let m ← mulLayout t n
  let d ← divLayout t n2 n
  let b ← maxLayout t m d
  addLayout t a b

/-- /repo/src/modular/pow.rs:147-154: the layout of the table and of the scratch memory for multiplication;
`entries` is `(1usize << (window_len - 1)) - 1` -/
def powLayout (t : Target) (entries n : Nat) : R Layout := do
  let tableWords ← orOutOfMemory (if entries * n < 2 ^ t.cfg.U then some (entries * n) else none)
  let a ← arrayLayout t tableWords
  let b ← ringMulLayout t n
  addLayout t a b

/-! ### Raw memory -/

/-- Contents of memory: address ↦ byte, `none` if not initialised. -/
abbrev Bytes := Nat → Option Nat

/-- Byte number `j` of a word in memory. -/
def Target.byteOf (t : Target) (v j : Nat) : Nat :=
  v / 256 ^ (if t.be then t.size - 1 - j else j) % 256

/-- Writing a word at an address. -/
def Target.store (t : Target) (m : Bytes) (p v : Nat) : Bytes := fun a =>
  if p ≤ a ∧ a < p + t.size then some (t.byteOf v (a - p)) else m a

/-- Reading a word at an address; `none` if some byte is not initialised. -/
def Target.load (t : Target) (m : Bytes) (p : Nat) : Option Nat := do
  let bs ← (List.range t.size).mapM fun j => m (p + j)
  some (val 8 (if t.be then bs.reverse else bs))

/-- /repo/src/memory.rs:7-10 `MemoryAllocation` -/
structure MemoryAllocation where
  layout : Layout
  start : Nat
deriving DecidableEq, Repr

/-- /repo/src/memory.rs:13-20 `Memory` -/
structure Chunk where
  start : Nat
  stop : Nat
deriving DecidableEq, Repr

/-- A slice `&mut [Word]`: address and length. -/
structure Slice where
  ptr : Nat
  len : Nat
deriving DecidableEq, Repr

/-- The first address after the allocation. -/
def MemoryAllocation.stop (A : MemoryAllocation) : Nat := A.start + A.layout.size

/-- `alloc::alloc::alloc(layout)`: undefined behaviour if the size is zero; `answer` is what the allocator
returns (0 = null). -/
def globalAlloc (layout : Layout) (answer : Nat) : Raw Nat := do
  requireR (layout.size ≠ 0)
  .ok answer

/-- /repo/src/memory.rs:24-42 `MemoryAllocation::new` -/
def MemoryAllocation.new (t : Target) (layout : Layout) (answer : Nat) : Raw MemoryAllocation :=
  if layout.size = 0 then .ok ⟨layout, layout.align⟩
  else if t.isizeMax < layout.size then .error (.panic .outOfMemory)
  else do
    let ptr ← globalAlloc layout answer
    if ptr = 0 then .error (.panic .outOfMemory) else .ok ⟨layout, ptr⟩

/-- /repo/src/memory.rs:44-50 `memory` -/
def MemoryAllocation.memory (t : Target) (A : MemoryAllocation) : Chunk :=
  ⟨A.start, (A.start + A.layout.size) % 2 ^ t.cfg.U⟩

/-- /repo/src/memory.rs:54-59 `drop`: undefined behaviour unless the memory was allocated with this layout; result:
whether memory was given back.  `owned` says whether the allocator handed out memory. -/
def MemoryAllocation.drop (A : MemoryAllocation) (owned : Option (Nat × Layout)) : Raw Bool :=
  if A.layout.size ≠ 0 then do
    requireR (owned = some (A.start, A.layout))
    .ok true
  else .ok false

/-- /repo/src/memory.rs:152-165 `try_find_memory_for_slice::<Word>`: address of the slice, and its end -/
def tryFind (t : Target) (m : Chunk) (n : Nat) : Option (Nat × Nat) :=
  let padding := (2 ^ t.cfg.U - m.start) % 2 ^ t.cfg.U &&& (t.align - 1)
  if m.start + padding < 2 ^ t.cfg.U then
    if n * t.size < 2 ^ t.cfg.U then
      if m.start + padding + n * t.size < 2 ^ t.cfg.U then
        if m.start + padding + n * t.size ≤ m.stop then
          some (m.start + padding, m.start + padding + n * t.size)
        else none
      else none
    else none
  else none

/-- `ptr.add(i)`: undefined behaviour if the offset in bytes exceeds `isize::MAX` or the result is outside
the allocation (one past the end is allowed). -/
def ptrAdd (t : Target) (A : MemoryAllocation) (p i : Nat) : Raw Nat := do
  requireR (i * t.size ≤ t.isizeMax ∧ A.start ≤ p + i * t.size ∧ p + i * t.size ≤ A.stop)
  .ok (p + i * t.size)

/-- `ptr.write(v)`: undefined behaviour if the pointer is not aligned, or the word not inside the
allocation. -/
def ptrWrite (t : Target) (A : MemoryAllocation) (m : Bytes) (p v : Nat) : Raw Bytes := do
  requireR (p % t.align = 0 ∧ A.start ≤ p ∧ p + t.size ≤ A.stop)
  .ok (t.store m p v)

/-- The loops of /repo/src/memory.rs:71-78, 89-96, 115-127: `ptr.add(i).write(v)` for consecutive `i`. -/
def writeFrom (t : Target) (A : MemoryAllocation) (ptr : Nat) : Bytes → Nat → List Nat → Raw Bytes
  | m, _, [] => .ok m
  | m, i, v :: vs => do
    let p ← ptrAdd t A ptr i
    let m ← ptrWrite t A m p v
    writeFrom t A ptr m (i + 1) vs

/-- Two address ranges have no address in common. -/
def Slice.Disjoint (t : Target) (a b : Slice) : Prop :=
  a.len = 0 ∨ b.len = 0 ∨ a.ptr + a.len * t.size ≤ b.ptr ∨ b.ptr + b.len * t.size ≤ a.ptr

instance (t : Target) (a b : Slice) : Decidable (a.Disjoint t b) := by
  unfold Slice.Disjoint; infer_instance

/-- `slice::from_raw_parts_mut(ptr, n)`: undefined behaviour if the pointer is null or not aligned, the size
exceeds `isize::MAX`, the slice is not inside the allocation, some byte is not initialised, or a live slice
overlaps. -/
def fromRawPartsMut (t : Target) (A : MemoryAllocation) (m : Bytes) (live : List Slice) (p n : Nat) :
    Raw Slice := do
  requireR (p ≠ 0 ∧ p % t.align = 0 ∧ n * t.size ≤ t.isizeMax)
  requireR (n = 0 ∨ (A.start ≤ p ∧ p + n * t.size ≤ A.stop))
  requireR (∀ i ∈ List.range n, (t.load m (p + i * t.size)).isSome)
  requireR (∀ s ∈ live, s.Disjoint t ⟨p, n⟩)
  .ok ⟨p, n⟩

/-- /repo/src/memory.rs:130-150 `allocate_slice_initialize`; `init` writes `first` and then `second`
(`live` are the slices in use) -/
def allocateSlice (t : Target) (A : MemoryAllocation) (m : Bytes) (live : List Slice) (c : Chunk) (n : Nat)
    (first second : List Nat) : Raw (Bytes × Slice × Chunk) :=
  match tryFind t c n with
  | none => .error (.panic .allocatedTooLittle)
  | some (ptr, sliceEnd) => do
    let m ← writeFrom t A ptr m 0 first
    let m ← writeFrom t A ptr m first.length second
    let s ← fromRawPartsMut t A m live ptr n
    .ok (m, s, ⟨sliceEnd, c.stop⟩)

/-! ### Histories of scratch memory -/

/-- One use of the scratch memory.  Live slices are numbered from the newest, which is 0. -/
inductive MemOp where
  /-- /repo/src/memory.rs:70-79 `allocate_slice_fill` -/
  | fill (n x : Nat)
  /-- /repo/src/memory.rs:88-97 `allocate_slice_copy` -/
  | copy (source : List Nat)
  /-- /repo/src/memory.rs:106-128 `allocate_slice_copy_fill` -/
  | copyFill (n : Nat) (source : List Nat) (x : Nat)
  /-- the newest slice and the memory after it go out of scope -/
  | release
  /-- `slice[i] = v` -/
  | write (k i v : Nat)
  /-- `slice[i]` -/
  | read (k i : Nat)
deriving DecidableEq, Repr

/-- State: contents of memory, and the live slices with the memory that remains after each, newest first. -/
structure Scratch where
  bytes : Bytes
  frames : List (Slice × Chunk)

/-- The memory from which the next slice is allocated. -/
def Scratch.chunk (t : Target) (A : MemoryAllocation) (s : Scratch) : Chunk :=
  match s.frames with
  | [] => A.memory t
  | (_, c) :: _ => c

/-- The live slices. -/
def Scratch.live (s : Scratch) : List Slice := s.frames.map Prod.fst

/-- Allocate, and make the slice live. -/
def Scratch.alloc (t : Target) (A : MemoryAllocation) (s : Scratch) (n : Nat) (first second : List Nat) :
    Raw (Scratch × List Nat) := do
  let (m, sl, c) ← allocateSlice t A s.bytes s.live (s.chunk t A) n first second
  .ok (⟨m, (sl, c) :: s.frames⟩, [])

/-- One operation: new state, and the words read. -/
def MemOp.exec (t : Target) (A : MemoryAllocation) (s : Scratch) : MemOp → Raw (Scratch × List Nat)
  | .fill n x => s.alloc t A n (List.replicate n x) []
  | .copy source => s.alloc t A source.length source []
  | .copyFill n source x =>
    if source.length ≤ n then s.alloc t A n source (List.replicate (n - source.length) x)
    else .error (.panic .assertFailed)
  | .release => .ok (⟨s.bytes, s.frames.tail⟩, [])
  | .write k i v =>
    match s.frames[k]? with
    | none => .error (.panic .index)
    | some (sl, _) =>
      if i < sl.len then .ok (⟨t.store s.bytes (sl.ptr + i * t.size) v, s.frames⟩, [])
      else .error (.panic .index)
  | .read k i =>
    match s.frames[k]? with
    | none => .error (.panic .index)
    | some (sl, _) =>
      if i < sl.len then
        match t.load s.bytes (sl.ptr + i * t.size) with
        | some v => .ok (s, [v])
        | none => .error .ub
      else .error (.panic .index)

/-- A sequence of operations: the words read, in order, and how it ended. -/
def runScratch (t : Target) (A : MemoryAllocation) : Scratch → List MemOp → List Nat × Option Fault
  | _, [] => ([], none)
  | s, op :: ops =>
    match op.exec t A s with
    | .error f => ([], some f)
    | .ok (s, o) =>
      let r := runScratch t A s ops
      (o ++ r.1, r.2)

end Ibig
