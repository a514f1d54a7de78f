import Verif.Model.Prim
/-! Model of /repo/src/cmp.rs:52-56. -/
namespace Ibig

/-- `Iterator::cmp`: lexicographic comparison (on `Word`s, which compare as naturals). -/
def lexCmp : List Nat → List Nat → Ordering
  | [], [] => .eq
  | [], _ :: _ => .lt
  | _ :: _, [] => .gt
  | x :: xs, y :: ys => if x < y then .lt else if y < x then .gt else lexCmp xs ys

/-- /repo/src/cmp.rs:53-56 `cmp_same_len` -/
def cmpSameLen (lhs rhs : List Nat) : R Ordering := do
  assertR (lhs.length = rhs.length)
  .ok (lexCmp lhs.reverse rhs.reverse)

end Ibig
