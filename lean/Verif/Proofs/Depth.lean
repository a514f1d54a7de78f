import Verif.Proofs.Div
import Verif.Proofs.FmtSink
namespace Ibig

/-- The number of powers that parsing computes is limited by the number of rounds. -/
theorem npPowersLoop_length {cfg : Cfg} {chunk len : Nat} : ∀ (fuel : Nat) (ps qs : List UBig),
    npPowersLoop cfg chunk len fuel ps = .ok qs → qs.length < ps.length + fuel := by
  intro fuel
  induction fuel with
  | zero => intro ps qs h; cases h
  | succ fuel ih =>
    intro ps qs h
    unfold npPowersLoop at h
    obtain ⟨n, -, h⟩ := ok_of_bind h
    obtain ⟨top, -, h⟩ := ok_of_bind h
    split at h
    · cases ps with
      | nil => cases h
      | cons p ps =>
        obtain ⟨q, -, h⟩ := ok_of_bind h
        have := ih _ _ h
        simp only [List.length_cons] at this ⊢
        omega
    · cases h; omega

/-- The number of powers that printing computes is limited by the number of rounds. -/
theorem fmtPowersLoop_length {cfg : Cfg} {n : UBig} : ∀ (fuel : Nat) (ps qs : List UBig),
    fmtPowersLoop cfg n fuel ps = .ok qs → qs.length < ps.length + fuel := by
  intro fuel
  induction fuel with
  | zero => intro ps qs h; cases h
  | succ fuel ih =>
    intro ps qs h
    unfold fmtPowersLoop at h
    cases hl : ps.getLast? with
    | none => rw [hl] at h; cases h
    | some prev =>
      rw [hl] at h
      simp only at h
      obtain ⟨a, -, h⟩ := ok_of_bind h
      obtain ⟨b, -, h⟩ := ok_of_bind h
      split at h
      · cases h; omega
      · obtain ⟨q, -, h⟩ := ok_of_bind h
        obtain ⟨gt, -, h⟩ := ok_of_bind h
        split at h
        · cases h; omega
        · have := ih _ _ h
          simp only [List.length_append, List.length_singleton] at this
          omega

theorem fmtChunksLoop_index {cfg : Cfg} {len : Nat} : ∀ (ps : List UBig) (x : UBig)
    (cs : List (Nat × UBig)) (r : UBig × List (Nat × UBig)), ps.length ≤ len → (∀ c ∈ cs, c.1 < len) →
    fmtChunksLoop cfg ps x cs = .ok r → ∀ c ∈ r.2, c.1 < len := by
  intro ps
  induction ps with
  | nil => intro x cs r _ hc h; cases h; exact hc
  | cons p ps ih =>
    intro x cs r hl hc h
    unfold fmtChunksLoop at h
    obtain ⟨ge, -, h⟩ := ok_of_bind h
    simp only [List.length_cons] at hl
    split at h
    · obtain ⟨q, -, h⟩ := ok_of_bind h
      refine ih _ _ _ (by omega) ?_ h
      intro c hcm
      rcases List.mem_cons.mp hcm with rfl | hcm
      · exact (show ps.length < len by omega)
      · exact hc c hcm
    · exact ih _ _ _ (by omega) hc h

theorem npLargeNew_depth {cfg : Cfg} {n : UBig} {radix : Nat} {p : PreparedLarge}
    (h : npLargeNew cfg n radix = .ok p) :
    p.powers.length ≤ bitLen (n.len * cfg.W) ∧ ∀ c ∈ p.chunks, c.1 < p.powers.length := by
  unfold npLargeNew at h
  obtain ⟨_, -, h⟩ := ok_of_bind h
  obtain ⟨info, -, h⟩ := ok_of_bind h
  obtain ⟨power, -, h⟩ := ok_of_bind h
  obtain ⟨gt, -, h⟩ := ok_of_bind h
  split at h
  · obtain ⟨top, -, h⟩ := ok_of_bind h
    cases h
    simp
  · unfold npLargeNewBig at h
    obtain ⟨powers, hp, h⟩ := ok_of_bind h
    have hlen := fmtPowersLoop_length _ _ _ hp
    simp only [List.length_singleton] at hlen
    have hrev := List.length_reverse (as := powers)
    cases hr : powers.reverse with
    | nil => rw [hr] at h; cases h
    | cons q qs =>
      rw [hr] at h hrev
      simp only at h
      obtain ⟨⟨d, r⟩, -, h⟩ := ok_of_bind h
      obtain ⟨⟨x, chunks⟩, hc, h⟩ := ok_of_bind h
      obtain ⟨top, -, h⟩ := ok_of_bind h
      cases h
      simp only [List.length_cons] at hrev
      refine ⟨by show powers.length ≤ _; omega, ?_⟩
      refine fmtChunksLoop_index (len := powers.length) _ _ _ _ (by omega) ?_ hc
      intro c hcm
      rw [List.mem_singleton] at hcm
      subst hcm
      show qs.length < powers.length
      omega

end Ibig
