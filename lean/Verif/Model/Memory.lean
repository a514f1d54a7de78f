import Verif.Model.Prim
/-!
Model of /repo/src/memory.rs.

Scratch memory is represented by the number of `Word`s still available.  Every slice allocated by the
crate from a `Memory` has element type `Word`, so after the first allocation the padding computed by
`try_find_memory_for_slice` (memory.rs:152-165) is zero, and a `Layout` for words starts aligned.
A zero-sized layout has alignment 1 (`zero_layout`, memory.rs:168-170), and then even an empty slice of
words does not fit, because its start is rounded up past the end.  So the model refuses every allocation
when no word is available (this is stricter than the code when the pointer happens to be aligned).
Model/Address.lean models the same file at the level of addresses and bytes.
The memory is handed back when the returned chunk goes out of scope, so functions take the available amount
as a plain argument.
-/
namespace Ibig

/-- /repo/src/memory.rs:70-79 `allocate_slice_fill` (via 130-165): slice and remaining memory -/
def allocFill (mem n x : Nat) : R (List Nat × Nat) :=
  if n ≤ mem ∧ mem ≠ 0 then .ok (List.replicate n x, mem - n) else .error .allocatedTooLittle

/-- /repo/src/memory.rs:88-97 `allocate_slice_copy` -/
def allocCopy (mem : Nat) (source : List Nat) : R (List Nat × Nat) :=
  if source.length ≤ mem ∧ mem ≠ 0 then .ok (source, mem - source.length) else .error .allocatedTooLittle

/-- /repo/src/memory.rs:106-128 `allocate_slice_copy_fill` -/
def allocCopyFill (mem n : Nat) (source : List Nat) (x : Nat) : R (List Nat × Nat) := do
  assertR (source.length ≤ n)
  if n ≤ mem ∧ mem ≠ 0 then .ok (source ++ List.replicate (n - source.length) x, mem - n)
  else .error .allocatedTooLittle

end Ibig
