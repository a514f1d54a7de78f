import Verif.Proofs.History
import Verif.Spec.Unwind
/-! Programs that catch panics refine the mathematical ones. -/
namespace Ibig

theorem Instr.taken_eq (c : Instr) : c.taken = c.modifies := by
  cases c <;> try rfl
  case ubin op o _ d a _ => cases o <;> cases op <;> simp [Instr.taken, Instr.modifies, UBin.hasAssign]
  case ibin op o _ d a _ => cases o <;> cases op <;> simp [Instr.taken, Instr.modifies, IBin.hasAssign]
  case uprim op o d a _ _ => cases o <;> cases op <;> simp [Instr.taken, Instr.modifies, UPrim.hasAssign]
  case sprim op o d a _ _ => cases o <;> cases op <;> simp [Instr.taken, Instr.modifies, SPrim.hasAssign]
  case iprim op o d a _ _ => cases o <;> cases op <;> simp [Instr.taken, Instr.modifies, IPrim.hasAssign]
  all_goals rename_i o _ _ _; cases o <;> simp [Instr.taken, Instr.modifies]

theorem Instr.leaves_ref {cfg : Cfg} (hv : cfg.Valid) {s : Store UBig IBig} (hs : s.WF cfg) (c : Instr) :
    (c.leaves s).WF cfg ∧ (c.leaves s).values cfg = c.mathLeaves (s.values cfg) := by
  have hz : UBig.default.WF cfg := base_pos cfg.W
  unfold Instr.leaves Instr.mathLeaves
  rw [← c.taken_eq]
  cases c.taken with
  | none => exact ⟨hs, rfl⟩
  | some v =>
    cases v with
    | u k => exact hs.setU k hz
    | i k =>
      have hi : IBig.default.WF cfg := ⟨hz, fun _ => rfl⟩
      exact hs.setI k hi

theorem runBlock_ref {cfg : Cfg} (hv : cfg.Valid) (be : Bool) (p : List Instr) (hp : ∀ c ∈ p, c.OK cfg)
    {s : Store UBig IBig} (hs : s.WF cfg) :
    (runBlock cfg be p s).1.WF cfg ∧
    mathBlock cfg.bits p (s.values cfg) = ((runBlock cfg be p s).1.values cfg, (runBlock cfg be p s).2) ∧
    ∀ e, (runBlock cfg be p s).2.2 = some e → Documented e := by
  induction p generalizing s with
  | nil => exact ⟨hs, rfl, fun e h => by cases h⟩
  | cons c p ih =>
    have h := Instr.ref hv be hs (hp c (by simp))
    have hd := Instr.docs cfg.bits (s.values cfg) c
    unfold runBlock mathBlock
    generalize c.math cfg.bits (s.values cfg) = y at h hd
    match y, h with
    | .error e, h =>
      have h : c.exec cfg be s = .error e := h
      obtain ⟨h1, h2⟩ := Instr.leaves_ref hv hs c
      rw [h]
      refine ⟨h1, by rw [h2], fun e' he => ?_⟩
      cases he
      exact hd e rfl
    | .ok (v, o), ⟨t, h1, h2, h3⟩ =>
      subst h3
      rw [h1]
      obtain ⟨g1, g2, g3⟩ := ih (fun c hc => hp c (by simp [hc])) h2
      refine ⟨g1, ?_, g3⟩
      simp only [g2]

theorem runCaught_ref {cfg : Cfg} (hv : cfg.Valid) (be : Bool) (bs : List (List Instr))
    (hp : ∀ b ∈ bs, ∀ c ∈ b, c.OK cfg) {s : Store UBig IBig} (hs : s.WF cfg) :
    (runCaught cfg be bs s).1.WF cfg ∧
    mathCaught cfg.bits bs (s.values cfg) = ((runCaught cfg be bs s).1.values cfg, (runCaught cfg be bs s).2) ∧
    ∀ r ∈ (runCaught cfg be bs s).2, ∀ e, r.2 = some e → Documented e := by
  induction bs generalizing s with
  | nil => exact ⟨hs, rfl, fun e h => by cases h⟩
  | cons b bs ih =>
    obtain ⟨h1, h2, h3⟩ := runBlock_ref hv be b (hp b (by simp)) hs
    obtain ⟨g1, g2, g3⟩ := ih (fun b hb => hp b (by simp [hb])) h1
    unfold runCaught mathCaught
    refine ⟨g1, ?_, ?_⟩
    · simp only [h2, g2]
    · intro r hr
      simp only [List.mem_cons] at hr
      rcases hr with rfl | hr
      · exact h3
      · exact g3 r hr

end Ibig
