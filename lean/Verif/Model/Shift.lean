import Verif.Model.Prim
/-! Model of /repo/src/shift.rs. -/
namespace Ibig

/-- loop of /repo/src/shift.rs:15-21.
Simplification: the shifted double word is not reduced (no bits are lost, see `C66_shl`). -/
def shlLoop (W s : Nat) : List Nat → Nat → List Nat × Nat
  | [], carry => ([], carry)
  | w :: ws, carry =>
    let (newWord, newCarry) := splitDoubleWord W (w * 2 ^ s)
    let (r, c) := shlLoop W s ws newCarry
    ((newWord ||| carry) :: r, c)

/-- /repo/src/shift.rs:10-22 `shl_in_place` -/
def shlInPlace (W : Nat) (words : List Nat) (shift : Nat) : R (List Nat × Nat) := do
  assertR (shift < W)
  if shift = 0 then .ok (words, 0) else .ok (shlLoop W shift words 0)

/-- loop of /repo/src/shift.rs:31-36 (most significant word first) -/
def shrLoop (W s : Nat) : List Nat → List Nat × Nat
  | [] => ([], 0)
  | w :: ws =>
    let (r, carry) := shrLoop W s ws
    let (newCarry, newWord) := splitDoubleWord W (doubleWord W 0 w / 2 ^ s)
    ((newWord ||| carry) :: r, newCarry)

/-- /repo/src/shift.rs:26-38 `shr_in_place` -/
def shrInPlace (W : Nat) (words : List Nat) (shift : Nat) : R (List Nat × Nat) := do
  assertR (shift < W)
  if shift = 0 then .ok (words, 0)
  else
    let (r, carry) := shrLoop W shift words
    .ok (r, carry / 2 ^ (W - shift))

end Ibig
