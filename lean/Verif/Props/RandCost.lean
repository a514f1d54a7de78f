import Verif.Proofs.RandCost
import Verif.Proofs.MulOpsTime
import Verif.Spec.Examples
import Verif.Spec.ExamplesModular
/-!
# C76: how many random words are drawn

`Draw.draws` (Spec/RandCost.lean) is the expected number of draws.  `sample t` is the sampler that gives up after `t`
failed attempts (C32); the bound does not depend on `t`, so it holds for the unbounded loop of the program.
-/
namespace Ibig

/-- C76 (`UBig`): drawing from `low..high` where `high - low` has at most `n` words, or from `low..=high` where
`high - low + 1` has at most `n` words, takes at most `n + 3` random words on average. -/
theorem C76_ubig {cfg : Cfg} (hv : cfg.Valid) {low high : UBig} (hl : low.WF cfg) (hh : high.WF cfg) {n : Nat}
    (hn : 1 ≤ n) (t : Nat) :
    (∀ d, UniformUBig.new cfg low high = .ok d → high.value cfg - low.value cfg < 2 ^ (n * cfg.W) →
      (d.sample cfg t).draws ≤ n + 3) ∧
    (∀ d, UniformUBig.newInclusive cfg low high = .ok d → high.value cfg - low.value cfg + 1 < 2 ^ (n * cfg.W) →
      (d.sample cfg t).draws ≤ n + 3) := by
  constructor
  · intro d hd hs
    have h := UniformUBig.new_spec hv hl hh
    have hlt : low.value cfg < high.value cfg := by
      rcases lt_trichotomy (low.value cfg) (high.value cfg) with g | g | g
      · exact g
      · rw [h.2.1 g] at hd; cases hd
      · rw [h.2.2 g] at hd; cases hd
    obtain ⟨d', e, hr, -, hv', -⟩ := h.1 hlt
    rw [e] at hd; cases hd
    refine (UniformUBig.sample_draws hv t hr).trans ?_
    have : d.range.len ≤ n := Timed.UBig.len_le hv hr hn (by rw [hv']; exact hs)
    have : (d.range.len : ℚ) ≤ n := by exact_mod_cast this
    linarith
  · intro d hd hs
    have h := UniformUBig.newInclusive_spec hv hl hh
    have hle : low.value cfg ≤ high.value cfg := by
      by_contra g
      rw [h.2.2 (by omega)] at hd; cases hd
    have hf : Fits cfg (high.value cfg - low.value cfg + 1) := by
      by_contra g
      rw [h.2.1 hle g] at hd; cases hd
    obtain ⟨d', e, hr, -, hv', -⟩ := h.1 hle hf
    rw [e] at hd; cases hd
    refine (UniformUBig.sample_draws hv t hr).trans ?_
    have : d.range.len ≤ n := Timed.UBig.len_le hv hr hn (by rw [hv']; exact hs)
    have : (d.range.len : ℚ) ≤ n := by exact_mod_cast this
    linarith

/-- From `2^64 + 5` up to `2^128 - 1`, two words: five random words on average are enough. -/
example : ∃ d, UniformUBig.new cfg64 exB exA = .ok d ∧ ∀ t, (d.sample cfg64 t).draws ≤ 2 + 3 := by
  obtain ⟨d, hd, -⟩ := (UniformUBig.new_spec cfg64_valid exB_wf exA_wf).1 (by decide +kernel)
  exact ⟨d, hd, fun t => (C76_ubig cfg64_valid exB_wf exA_wf (n := 2) (by norm_num) t).1 d hd (by decide +kernel)⟩

/-- C76 (`IBig`). -/
theorem C76_ibig {cfg : Cfg} (hv : cfg.Valid) {low high : IBig} (hl : low.WF cfg) (hh : high.WF cfg) {n : Nat}
    (hn : 1 ≤ n) (t : Nat) :
    (∀ d, UniformIBig.new cfg low high = .ok d → high.value cfg - low.value cfg < 2 ^ (n * cfg.W) →
      (d.sample cfg t).draws ≤ n + 3) ∧
    (∀ d, UniformIBig.newInclusive cfg low high = .ok d → high.value cfg - low.value cfg + 1 < 2 ^ (n * cfg.W) →
      (d.sample cfg t).draws ≤ n + 3) := by
  have key : ∀ (d : UniformIBig) (z : Int), d.range.WF cfg → (d.range.value cfg : Int) = z →
      z < 2 ^ (n * cfg.W) → (d.sample cfg t).draws ≤ n + 3 := by
    intro d z hr hz hs
    refine (UniformIBig.sample_draws hv t hr).trans ?_
    have : d.range.len ≤ n := Timed.UBig.len_le hv hr hn (by rw [← hz] at hs; exact_mod_cast hs)
    have : (d.range.len : ℚ) ≤ n := by exact_mod_cast this
    linarith
  have h := UniformIBig.new_spec hv hl hh
  constructor
  · intro d hd hs
    have hf : Fits cfg (high.value cfg - low.value cfg).natAbs := by
      by_contra g
      rw [h.2.2 g] at hd; cases hd
    have hlt : low.value cfg < high.value cfg := by
      by_contra g
      rw [h.2.1 (by omega) hf] at hd; cases hd
    obtain ⟨d', e, hr, -, hv', -⟩ := h.1 hlt hf
    rw [e] at hd; cases hd
    exact key d _ hr hv' hs
  · intro d hd hs
    have hf : Fits cfg (high.value cfg - low.value cfg).natAbs := by
      by_contra g
      unfold UniformIBig.newInclusive at hd
      rw [(IBig.sub_spec hv .ref .ref hh hl).2 g] at hd; cases hd
    have h := UniformIBig.newInclusive_spec hv hl hh hf
    have hle : low.value cfg ≤ high.value cfg := by
      by_contra g
      rw [h.2.1 (by omega)] at hd; cases hd
    have hf1 : Fits cfg (high.value cfg - low.value cfg + 1).natAbs := by
      by_contra g
      rw [h.2.2 g] at hd; cases hd
    obtain ⟨d', e, hr, -, hv', -⟩ := h.1 hle hf1
    rw [e] at hd; cases hd
    exact key d _ hr hv' hs

/-- From `-(2^128 - 1)` to `2^64 + 5` inclusive, three words. -/
example : ∃ d, UniformIBig.newInclusive cfg64 exNegA exPosB = .ok d ∧ ∀ t, (d.sample cfg64 t).draws ≤ 3 + 3 := by
  obtain ⟨d, hd, -⟩ := (UniformIBig.newInclusive_spec cfg64_valid exNegA_wf exPosB_wf
    (fitsEx 200 (by decide +kernel) (by decide))).1 (by decide +kernel) (fitsEx 200 (by decide +kernel) (by decide))
  exact ⟨d, hd, fun t => (C76_ibig cfg64_valid exNegA_wf exPosB_wf (n := 3) (by norm_num) t).2 d hd (by decide +kernel)⟩

/-- C76: a range of at most one word takes exactly one draw. -/
theorem C76_one_word {cfg : Cfg} (hv : cfg.Valid) {low high : UBig} (hl : low.WF cfg) (hh : high.WF cfg)
    (h : low.value cfg < high.value cfg) (hs : high.value cfg - low.value cfg < 2 ^ cfg.W) :
    ∃ d, UniformUBig.new cfg low high = .ok d ∧ ∀ t, (d.sample cfg t).draws = 1 := by
  obtain ⟨d, e, hr, -, hv', -⟩ := (UniformUBig.new_spec hv hl hh).1 h
  refine ⟨d, e, fun t => ?_⟩
  have hlen : d.range.len ≤ 1 := Timed.UBig.len_le hv hr le_rfl (by rw [hv', one_mul]; exact hs)
  have hne : d.range.beq (.small 0) = false := by
    rw [← Bool.not_eq_true, UBig.beq_zero hv hr]; omega
  rw [Draw.draws_eq]
  unfold UniformUBig.sample UBig.uniform
  rw [assertR_true hne]
  cases hw : d.range with
  | small w =>
    simp only [Draw.ofR_ok_bind, Draw.cost_bind, Draw.cost_uniform, Draw.cost, Draw.cost_const_ofR]
    norm_num
  | large b =>
    rw [hw] at hr hlen
    have := Buffer.WF.two hr
    simp only [UBig.len, Buffer.len] at hlen
    omega

/-- A throw of a die. -/
example := C76_one_word cfg64_valid (low := .small 1) (high := .small 7) (show 1 < 2 ^ 64 by norm_num) (show 7 < 2 ^ 64 by norm_num)
  (by decide +kernel) (by decide +kernel)

end Ibig
