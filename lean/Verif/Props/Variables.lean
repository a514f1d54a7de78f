import Mathlib.Logic.Function.Basic
import Verif.Model.Interact
/-!
# C39, C49, C74: what the instructions of programs do to the variables

The programs of the crate and the mathematical programs assign results to variables with the same functions
(`Store.putU` and so on, for any type of numbers).  These theorems say what the functions do: they change exactly the
variables named by the instruction (`Function.update`), a panic goes through, and the program sees what it should.
-/
namespace Ibig
open Function (update)

/-- C39: an instruction assigns its results to its destinations, the first one first, and leaves the other
variables alone; it shows the primitive results, whether parsing or a conversion succeeded, and what was looked at. -/
theorem C39_variables {α β : Type} (u : Nat → α) (i : Nat → β) (d e : Nat) :
    (∀ x, Store.putU ⟨u, i⟩ d (.ok x) = .ok (⟨update u d x, i⟩, [])) ∧
    (∀ x, Store.putI ⟨u, i⟩ d (.ok x) = .ok (⟨u, update i d x⟩, [])) ∧
    (∀ x y, Store.putUU ⟨u, i⟩ d e (.ok (x, y)) = .ok (⟨update (update u d x) e y, i⟩, [])) ∧
    (∀ x y, Store.putII ⟨u, i⟩ d e (.ok (x, y)) = .ok (⟨u, update (update i d x) e y⟩, [])) ∧
    (∀ x z, Store.putUZ ⟨u, i⟩ d (.ok (x, z)) = .ok (⟨update u d x, i⟩, [.int z])) ∧
    (∀ x z, Store.putIZ ⟨u, i⟩ d (.ok (x, z)) = .ok (⟨u, update i d x⟩, [.int z])) ∧
    (∀ x, Store.putParsedU ⟨u, i⟩ d (.ok (.ok x)) = .ok (⟨update u d x, i⟩, [.parseOk])) ∧
    (∀ x, Store.putParsedI ⟨u, i⟩ d (.ok (.ok x)) = .ok (⟨u, update i d x⟩, [.parseOk])) ∧
    (∀ r, Store.putParsedU ⟨u, i⟩ d (.ok (.error r)) = .ok (⟨u, i⟩, [.parseError r])) ∧
    (∀ r, Store.putParsedI ⟨u, i⟩ d (.ok (.error r)) = .ok (⟨u, i⟩, [.parseError r])) ∧
    (∀ x, Store.putOptU ⟨u, i⟩ d (.ok (some x)) = .ok (⟨update u d x, i⟩, [])) ∧
    Store.putOptU ⟨u, i⟩ d (.ok none) = .ok (⟨u, i⟩, [.outOfBounds]) ∧
    (∀ o, Store.see ⟨u, i⟩ (.ok o) = .ok (⟨u, i⟩, [o])) ∧
    ∀ p, Store.putU ⟨u, i⟩ d (.error p) = .error p ∧ Store.putI ⟨u, i⟩ d (.error p) = .error p ∧
      Store.putUU ⟨u, i⟩ d e (.error p) = .error p ∧ Store.putII ⟨u, i⟩ d e (.error p) = .error p ∧
      Store.putUZ ⟨u, i⟩ d (.error p) = .error p ∧ Store.putIZ ⟨u, i⟩ d (.error p) = .error p ∧
      Store.putParsedU ⟨u, i⟩ d (.error p) = .error p ∧ Store.putParsedI ⟨u, i⟩ d (.error p) = .error p ∧
      Store.putOptU ⟨u, i⟩ d (.error p) = .error p ∧ Store.see ⟨u, i⟩ (.error p) = .error p := by
  have h {γ : Type} (f : Nat → γ) (d : Nat) (x : γ) : (fun k => if k = d then x else f k) = update f d x := by
    funext k; rw [Function.update_apply]
  refine ⟨?_, ?_, ?_, ?_, ?_, ?_, ?_, ?_, fun _ => rfl, fun _ => rfl, ?_, rfl, fun _ => rfl,
    fun _ => ⟨rfl, rfl, rfl, rfl, rfl, rfl, rfl, rfl, rfl, rfl⟩⟩ <;> intros <;>
    simp only [← h] <;> rfl

/-- Quotient and remainder go to the variables 1 and 2; with one destination for both, the remainder stays. -/
example : (Store.putUU (α := Nat) (β := Int) ⟨fun _ => 7, fun _ => 0⟩ 1 2 (.ok (10, 3))).map
      (fun r => (List.range 4).map r.1.u) = .ok [7, 10, 3, 7] ∧
    (Store.putUU (α := Nat) (β := Int) ⟨fun _ => 7, fun _ => 0⟩ 1 1 (.ok (10, 3))).map
      (fun r => (List.range 4).map r.1.u) = .ok [7, 3, 7, 7] := ⟨rfl, rfl⟩

/-- C49: the same for rings and elements.  Assigning a ring removes the elements of the ring that the variable held; an
inverse that does not exist is not assigned; a program sees whether it exists. -/
theorem C49_variables {α β ρ ε : Type} (n : Store α β) (ring : Nat → Option ρ) (elem : Nat → Option ε) (d : Nat) :
    (∀ x, MStore.putE ⟨n, ring, elem⟩ d (.ok x) = .ok (⟨n, ring, update elem d (some x)⟩, [])) ∧
    (∀ x, MStore.putOptE ⟨n, ring, elem⟩ d (.ok (some x)) =
      .ok (⟨n, ring, update elem d (some x)⟩, [.bool true])) ∧
    MStore.putOptE ⟨n, ring, elem⟩ d (.ok none) = .ok (⟨n, ring, elem⟩, [.bool false]) ∧
    (∀ x, MStore.putU ⟨n, ring, elem⟩ d (.ok x) = .ok (⟨⟨update n.u d x, n.i⟩, ring, elem⟩, [])) ∧
    (∀ n' o, MStore.putN ⟨n, ring, elem⟩ (.ok (n', o)) = .ok (⟨n', ring, elem⟩, o)) ∧
    (∀ o, MStore.see ⟨n, ring, elem⟩ (.ok o) = .ok (⟨n, ring, elem⟩, [o])) ∧
    (∀ dead x, ∃ elem', MStore.putRing ⟨n, ring, elem⟩ d dead (.ok x) =
        .ok (⟨n, update ring d (some x), elem'⟩, []) ∧
      ∀ k e, elem' k = some e ↔ elem k = some e ∧ dead e = false) ∧
    ∀ p dead, MStore.putE ⟨n, ring, elem⟩ d (.error p) = .error p ∧
      MStore.putOptE ⟨n, ring, elem⟩ d (.error p) = .error p ∧
      MStore.putU ⟨n, ring, elem⟩ d (.error p) = .error p ∧
      MStore.putN ⟨n, ring, elem⟩ (.error p) = .error p ∧
      MStore.see ⟨n, ring, elem⟩ (.error p) = .error p ∧
      MStore.putRing ⟨n, ring, elem⟩ d dead (.error p) = .error p := by
  have h {γ : Type} (f : Nat → γ) (d : Nat) (x : γ) : (fun k => if k = d then x else f k) = update f d x := by
    funext k; rw [Function.update_apply]
  refine ⟨?_, ?_, rfl, ?_, fun _ _ => rfl, fun _ => rfl, fun dead x => ?_, fun _ _ => ⟨rfl, rfl, rfl, rfl, rfl, rfl⟩⟩
  · intro x; rw [← h]; rfl
  · intro x; rw [← h]; rfl
  · intro x; rw [← h]; rfl
  · refine ⟨fun k => (elem k).filter fun e => !dead e, ?_, fun k e => ?_⟩
    · rw [← h]; rfl
    · rw [Option.filter_eq_some_iff]; simp

/-- A new ring in the variable 1: the elements of the old one are gone. -/
example : (MStore.putRing (α := Nat) (β := Int) (ρ := Nat) (ε := Nat × Nat)
      ⟨⟨fun _ => 0, fun _ => 0⟩, fun _ => some 7, fun k => some (k % 2, k)⟩ 1 (fun e => e.1 == 1) (.ok 9)).map
      (fun r => ((List.range 3).map r.1.ring, (List.range 4).map r.1.elem)) =
    .ok ([some 7, some 9, some 7], [some (0, 0), none, some (0, 2), none]) := rfl

/-- C74: `extended_gcd` assigns the divisor first, and then the two coefficients. -/
theorem C74_variables {α β ρ ε : Type} (n : Store α β) (ring : Nat → Option ρ) (elem : Nat → Option ε) (d x y : Nat) :
    (∀ g p q, MStore.putBezoutU ⟨n, ring, elem⟩ d x y (.ok (g, p, q)) =
      .ok (⟨⟨update n.u d g, update (update n.i x p) y q⟩, ring, elem⟩, [])) ∧
    (∀ g p q, MStore.putBezoutI ⟨n, ring, elem⟩ d x y (.ok (g, p, q)) =
      .ok (⟨⟨n.u, update (update (update n.i d g) x p) y q⟩, ring, elem⟩, [])) ∧
    (∀ z, MStore.putI ⟨n, ring, elem⟩ d (.ok z) = .ok (⟨⟨n.u, update n.i d z⟩, ring, elem⟩, [])) ∧
    ∀ e, MStore.putBezoutU ⟨n, ring, elem⟩ d x y (.error e) = .error e ∧
      MStore.putBezoutI ⟨n, ring, elem⟩ d x y (.error e) = .error e ∧
      MStore.putI ⟨n, ring, elem⟩ d (.error e) = .error e := by
  have h {γ : Type} (f : Nat → γ) (d : Nat) (x : γ) : (fun k => if k = d then x else f k) = update f d x := by
    funext k; rw [Function.update_apply]
  refine ⟨?_, ?_, ?_, fun _ => ⟨rfl, rfl, rfl⟩⟩ <;> intros <;> simp only [← h] <;> rfl

/-- The greatest common divisor of 12 and 18 and its coefficients go to the variables 0, 1 and 2. -/
example : (MStore.putBezoutU (α := Nat) (β := Int) (ρ := Nat) (ε := Nat) (.start ⟨fun _ => 5, fun _ => 5⟩) 0 1 2
      (.ok (6, -1, 1))).map (fun r => ((List.range 3).map r.1.n.u, (List.range 4).map r.1.n.i)) =
    .ok ([6, 5, 5], [5, -1, 1, 5]) := rfl

end Ibig
