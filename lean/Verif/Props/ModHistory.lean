import Verif.Proofs.ModHistory
import Verif.Props.History
/-!
# C49: programs with modular rings

A program (`Model/ModHistory.lean`) is a sequence of operations on variables that hold numbers, rings and
elements of rings; `mathModular` (`Spec/ModHistory.lean`) is the same sequence over the mathematical numbers and the
rings `ℤ/n`.  `addr` gives the addresses of the variables that hold rings.
-/
namespace Ibig

/-- C49: every program that starts without rings either stops at a limit of the build, or computes what it
computes over the mathematical numbers and the rings `ℤ/n`: it panics with the same panic, or it sees the
same things and ends with the same numbers, rings, and elements in its variables.  It stops at a limit of the build
only at an instruction that has no room (`MInstr.Room`), when the program before it computed what it should. -/
theorem C49_programs {cfg : Cfg} (hv : cfg.Valid) (be : Bool) {addr : Nat → Nat} (ha : Function.Injective addr)
    {p : List MInstr} (hp : ∀ c ∈ p, c.OK cfg) {s : Store UBig IBig} (hs : s.WF cfg) :
    (match mathModular (cfg.maxLen * cfg.W) p (.start (s.values cfg)) with
     | .ok (v, seen) => ∃ t, runModular cfg be addr p (.start s) = .ok (t, seen) ∧ MState.Means cfg addr t v
     | .error e => runModular cfg be addr p (.start s) = .error e) ∨
    ((runModular cfg be addr p (.start s) = .error .tooLarge ∨
      runModular cfg be addr p (.start s) = .error .outOfMemory) ∧
     ∃ q c q' v seen, p = q ++ c :: q' ∧
       mathModular (cfg.maxLen * cfg.W) q (.start (s.values cfg)) = .ok (v, seen) ∧ ¬ c.Room cfg v) :=
  runModular_ref hv ha be p hp (s := .start s) (v := .start (s.values cfg))
    ⟨hs, rfl, fun _ => trivial, fun _ => trivial⟩

/-- C49: if every instruction has room, the program computes exactly what it should; if moreover every instruction
reads only variables that hold something, every panic is one of the documented panics. -/
theorem C49_room {cfg : Cfg} (hv : cfg.Valid) (be : Bool) {addr : Nat → Nat} (ha : Function.Injective addr)
    {p : List MInstr} (hp : ∀ c ∈ p, c.OK cfg) {s : Store UBig IBig} (hs : s.WF cfg)
    (hr : ∀ q c q' v seen, p = q ++ c :: q' →
      mathModular (cfg.maxLen * cfg.W) q (.start (s.values cfg)) = .ok (v, seen) → c.Room cfg v ∧ c.Defined v) :
    match mathModular (cfg.maxLen * cfg.W) p (.start (s.values cfg)) with
    | .ok (v, seen) => ∃ t, runModular cfg be addr p (.start s) = .ok (t, seen) ∧ MState.Means cfg addr t v
    | .error e => runModular cfg be addr p (.start s) = .error e ∧ DocumentedM e := by
  have hd := mathModular_docs (cfg.maxLen * cfg.W) p (.start (s.values cfg)) fun q c q' w seen h1 h2 =>
    (hr q c q' w seen h1 h2).2
  rcases C49_programs hv be ha hp hs with h | ⟨-, q, c, q', v, seen, h1, h2, h3⟩
  · generalize mathModular (cfg.maxLen * cfg.W) p (.start (s.values cfg)) = y at h hd ⊢
    match y, h with
    | .error e, h => exact ⟨h, hd e rfl⟩
    | .ok (v, o), h => exact h
  · exact absurd (hr q c q' v seen h1 h2).1 h3

/-- C49: the result does not depend on the build or on the addresses of the rings: on two builds, a program run on
the same numbers gives the same result, unless one of them stops at its limits: both panic with the same panic, or both
see the same things, and end with variables that stand for the same numbers, rings and elements. -/
theorem C49_independent {cfg cfg' : Cfg} (hv : cfg.Valid) (hv' : cfg'.Valid) (be be' : Bool) {addr addr' : Nat → Nat}
    (ha : Function.Injective addr) (ha' : Function.Injective addr') {p : List MInstr}
    (hp : ∀ c ∈ p, c.OK cfg) (hp' : ∀ c ∈ p, c.OK cfg') {s s' : Store UBig IBig} (hs : s.WF cfg)
    (hs' : s'.WF cfg') (heq : s.values cfg = s'.values cfg')
    (h1 : runModular cfg be addr p (.start s) ≠ .error .tooLarge)
    (h2 : runModular cfg be addr p (.start s) ≠ .error .outOfMemory)
    (h1' : runModular cfg' be' addr' p (.start s') ≠ .error .tooLarge)
    (h2' : runModular cfg' be' addr' p (.start s') ≠ .error .outOfMemory) :
    (∃ e, runModular cfg be addr p (.start s) = .error e ∧ runModular cfg' be' addr' p (.start s') = .error e) ∨
    (∃ t t' v seen, runModular cfg be addr p (.start s) = .ok (t, seen) ∧
      runModular cfg' be' addr' p (.start s') = .ok (t', seen) ∧ MState.Means cfg addr t v ∧
      MState.Means cfg' addr' t' v) := by
  have a := (C49_programs hv be ha hp hs).resolve_right fun h => h.1.elim h1 h2
  have a' := (C49_programs hv' be' ha' hp' hs').resolve_right fun h => h.1.elim h1' h2'
  rw [← heq] at a'
  have key : mathModular (cfg.maxLen * cfg.W) p (.start (s.values cfg)) =
      mathModular (cfg'.maxLen * cfg'.W) p (.start (s.values cfg)) := by
    rcases Nat.le_total (cfg.maxLen * cfg.W) (cfg'.maxLen * cfg'.W) with hle | hle
    · rcases mathModular_stops hle p (.start (s.values cfg)) with e | e
      · rw [e] at a; exact absurd a h1
      · exact e
    · rcases mathModular_stops hle p (.start (s.values cfg)) with e | e
      · rw [e] at a'; exact absurd a' h1'
      · exact e.symm
  rw [← key] at a'
  generalize mathModular (cfg.maxLen * cfg.W) p (.start (s.values cfg)) = y at a a'
  match y, a, a' with
  | .error e, a, a' => exact Or.inl ⟨e, a, a'⟩
  | .ok (v, o), ⟨t, g1, g2⟩, ⟨t', g1', g2'⟩ => exact Or.inr ⟨t, t', v, o, g1, g1', g2, g2'⟩

/-- Two rings modulo `2^64 + 5` and one modulo 7; a sum, a product, an inverse, a quotient, powers, the residue used as a
number, and a new ring in the same variable. -/
def exModular : List MInstr :=
  [.ring 0 1, .ring 1 1, .ofU .ref 0 0 0, .ofI .val 1 0 0, .add .ref .val 2 0 1, .ofPrim 3 0 (.u 8) 5, .mul .val .ref 3 3 3,
   .inverse 4 3, .div 5 2 3, .ofPrim 6 1 (.i 8) (-1), .pow 7 3 1, .num (.ifromSigned 1 8 (-5)),
   .powSigned 8 3 1, .cloneFrom 5 8, .residue 2 7, .modulus 3 0,
   .num (.ubin .sub .ref .ref 4 3 2), .eq 2 1, .eq 5 8, .ringEq 0 1, .fmt .display .default 6, .num (.look (.ueq 2 3)),
   .ofBool 9 0 true, .num (.uparse 10 5 (asciiBytes "7")), .ring 0 5, .ofU .ref 0 0 1, .fmt .display .default 0,
   .ringFmt .lowerHex .default 0]

/-- What the program sees. -/
def exModularSeen : List Obs :=
  [.bool true, .bool false, .bool true, .bool false, .list (asciiBytes "18446744073709551620 (mod 18446744073709551621)"),
   .bool false, .parseOk, .list (asciiBytes "0 (mod 7)"), .list (asciiBytes "mod 7")]

theorem exModular_seen64 : (runModular cfg64 false (fun k => 1000 + 8 * k) exModular (.start exStore)).map
    (fun r => r.2) = .ok exModularSeen := by decide +kernel

theorem exModular_seen16 : (runModular cfg16 true (fun k => k) exModular (.start exStore16)).map (fun r => r.2) =
    .ok exModularSeen := by decide +kernel

/-- Elements of the two rings with the same modulus cannot be combined. -/
example : (runModular cfg64 false id [.ring 0 1, .ring 1 1, .ofU .ref 0 0 0, .ofU .ref 1 1 0, .mul .ref .ref 2 0 1]
    (.start exStore)).map (fun r => r.2) = .error .differentRings := by decide +kernel

/-- The instructions of the example take valid arguments. -/
theorem exModular_ok {cfg : Cfg} (hU : 16 ≤ cfg.U) : ∀ c ∈ exModular, c.OK cfg := by
  intro c hc
  simp only [exModular, List.mem_cons, List.not_mem_nil, or_false] at hc
  have hnum : IsNumeral 10 (asciiBytes "7") [7] := by
    refine .cons ?_ .nil; unfold IsDigit; decide +kernel
  have e : splitPlus (asciiBytes "7") = asciiBytes "7" := by decide +kernel
  rcases hc with rfl | rfl | rfl | rfl | rfl | rfl | rfl | rfl | rfl | rfl | rfl | rfl | rfl | rfl | rfl | rfl |
    rfl | rfl | rfl | rfl | rfl | rfl | rfl | rfl | rfl | rfl | rfl | rfl <;> try trivial
  · show (PTy.u 8).Valid ∧ (PTy.u 8).InRange 5
    simp [PTy.Valid, PTy.InRange]
  · show (PTy.i 8).Valid ∧ (PTy.i 8).InRange (-1)
    simp [PTy.Valid, PTy.InRange]
  · show (PTy.i 8).Valid ∧ (PTy.i 8).InRange (-5)
    simp [PTy.Valid, PTy.InRange]
  · refine ⟨?_, Or.inl ⟨[7], ?_⟩⟩
    · show 1 < 2 ^ (cfg.U - 1)
      exact Nat.one_lt_two_pow (by omega)
    · rw [e]; exact hnum

/-- The program on the variables `exStore` on the 64-bit build, and on `exStore16` on the 16-bit build. -/
example {cfg : Cfg} (hv : cfg.Valid) (hU : 16 ≤ cfg.U) {s : Store UBig IBig} (hs : s.WF cfg) :=
  C49_programs hv false (addr := fun k => 1000 + 8 * k) (fun a b h => by simpa using h) (exModular_ok hU) hs
example := C49_independent cfg64_valid cfg16_valid false true (addr := fun k => 1000 + 8 * k) (addr' := fun k => k)
  (fun a b h => by simpa using h) (fun _ _ h => h) (exModular_ok (by decide)) (exModular_ok (by decide)) exStore_wf
  exStore16_wf exStores_values
  (fun h => by have := exModular_seen64; rw [h] at this; cases this)
  (fun h => by have := exModular_seen64; rw [h] at this; cases this)
  (fun h => by have := exModular_seen16; rw [h] at this; cases this)
  (fun h => by have := exModular_seen16; rw [h] at this; cases this)

/-- A short program whose instructions have room and read defined variables: the square of an element. -/
example (q : List MInstr) (c : MInstr) (q' : List MInstr) (v : MathState) (seen : List Obs)
    (h : [MInstr.ring 0 1, .ofPrim 0 0 (.u 8) 5, .mul .ref .ref 1 0 0, .residue 2 1] = q ++ c :: q')
    (hm : mathModular (cfg64.maxLen * cfg64.W) q (.start (exStore.values cfg64)) = .ok (v, seen)) :
    c.Room cfg64 v ∧ c.Defined v := by
  have hB : (exStore.values cfg64).u 1 = 2 ^ 64 + 5 := by decide +kernel
  generalize exStore.values cfg64 = s at hB hm
  have h0 : s.u 1 ≠ 0 := by omega
  have hf : Fits cfg64 ((2 ^ 64 + 5) * (2 ^ 64 + 5)) := by
    unfold Fits
    calc (2 ^ 64 + 5) * (2 ^ 64 + 5) < 2 ^ 200 := by norm_num
      _ ≤ _ := Nat.pow_le_pow_right (by norm_num) (by decide +kernel)
  generalize cfg64.maxLen * cfg64.W = N at hm
  rcases q with _ | ⟨c1, _ | ⟨c2, _ | ⟨c3, _ | ⟨c4, q⟩⟩⟩⟩
  all_goals simp only [List.nil_append, List.cons_append, List.cons.injEq] at h
  · obtain ⟨rfl, -⟩ := h
    exact ⟨trivial, trivial⟩
  · obtain ⟨rfl, rfl, -⟩ := h
    simp [mathModular, MInstr.math, MStore.start, MStore.putRing, unlessZero, h0, bind, Except.bind, pure, Except.pure] at hm
    obtain ⟨rfl, -⟩ := hm
    exact ⟨trivial, by simp [MInstr.Defined]⟩
  · obtain ⟨rfl, rfl, rfl, -⟩ := h
    simp [mathModular, MInstr.math, MStore.start, MStore.putRing, MStore.putE, unlessZero, unwrapR, h0, bind, Except.bind, pure,
      Except.pure] at hm
    obtain ⟨rfl, -⟩ := hm
    refine ⟨?_, by simp [MInstr.Defined]⟩
    intro x hx
    simp at hx
    subst hx
    simp only [hB]
    exact hf
  · obtain ⟨rfl, rfl, rfl, rfl, -⟩ := h
    simp [mathModular, MInstr.math, MStore.start, MStore.putRing, MStore.putE, unlessZero, unwrapR, sameRing, h0, bind, Except.bind,
      pure, Except.pure] at hm
    obtain ⟨rfl, -⟩ := hm
    exact ⟨trivial, by simp [MInstr.Defined]⟩
  · simp at h

end Ibig
