import Verif.Proofs.RandTimeGen
import Verif.Props.Rand
import Verif.Spec.Examples
import Verif.Spec.ExamplesModular
/-!
C80: the expected time of drawing a random number from a range.

`TDraw.genUBig`, … (Model/RandTime.lean) draw a number from `low..high` or `low..=high` and count steps, like
`Timed.UBig.mul` (C60).  `TDraw.meanSteps` (Spec/RandTime.lean) is the expected number of steps.  As in C32 and C76 the number of
attempts is cut off after `t` failures; the bound does not depend on `t`.  Exact numbers of steps are in Tests/Steps.lean.
-/
namespace Ibig

/-- C80: counting steps does not change the random computations. -/
theorem C80_same_result (cfg : Cfg) (inclusive : Bool) (t : Nat) :
    (∀ low high : UBig, (TDraw.genUBig cfg inclusive low high t).result = genUBig cfg inclusive low high t) ∧
    (∀ low high : IBig, (TDraw.genIBig cfg inclusive low high t).result = genIBig cfg inclusive low high t) :=
  ⟨fun low high => TDraw.genUBig_result cfg inclusive low high t, fun low high => TDraw.genIBig_result cfg inclusive low high t⟩

/-- C80 (`UBig`): drawing a number from a range whose ends have at most `n` words takes at most `71 n + 140` steps on
average. -/
theorem C80_ubig {cfg : Cfg} (hv : cfg.Valid) (inclusive : Bool) {low high : UBig} (hl : low.WF cfg) (hh : high.WF cfg)
    {n : ℕ} (hn : 1 ≤ n) (hln : low.value cfg < 2 ^ (n * cfg.W)) (hhn : high.value cfg < 2 ^ (n * cfg.W)) {t : ℕ} (ht : 1 ≤ t) :
    (TDraw.genUBig cfg inclusive low high t).meanSteps ≤ 71 * n + 140 := by
  have h1 := Timed.UBig.len_le hv hl hn hln
  have h2 := Timed.UBig.len_le hv hh hn hhn
  have h3 := Timed.pow_words hv n
  have hnq : (0 : ℚ) ≤ n := by positivity
  have key : ∀ d : UniformUBig, d.range.WF cfg → d.offset.WF cfg → 0 < d.range.value cfg →
      d.range.value cfg ≤ 2 ^ (n * cfg.W) → d.offset.value cfg = low.value cfg →
      (TDraw.UniformUBig.sample cfg t d).cost (fun _ => 0) ≤ 30 * n + 44 := by
    intro d hr ho h0 hrv hov
    have hp : 0 < 2 ^ (n * cfg.W) := Nat.two_pow_pos _
    have := TDraw.UniformUBig.sample_cost hv ht hr ho h0 (n := n + 1) (m := n) (by omega) (by omega)
      (Timed.UBig.len_le hv ho hn (by rw [hov]; exact hln))
    push_cast at this
    linarith
  rw [TDraw.meanSteps_eq]
  unfold TDraw.genUBig
  cases inclusive with
  | false =>
    refine (TDraw.cost_ofT (N := 30 * n + 44) (Timed.takes_unew hl hh h1 h2) (by linarith) fun d hd => ?_).trans
      (by push_cast; linarith)
    rw [Timed.UniformUBig.new_result] at hd
    obtain ⟨g1, g2, g3⟩ := UniformUBig.new_spec hv hl hh
    have hlt : low.value cfg < high.value cfg := by
      rcases lt_trichotomy (low.value cfg) (high.value cfg) with g | g | g
      · exact g
      · rw [g2 g] at hd; cases hd
      · rw [g3 g] at hd; cases hd
    obtain ⟨d', e, hr, ho, hrv, hov⟩ := g1 hlt
    rw [e] at hd; cases hd
    exact key d hr ho (by omega) (by omega) hov
  | true =>
    refine (TDraw.cost_ofT (N := 30 * n + 44) (Timed.takes_unewInclusive hv hl hh hn hln hhn) (by linarith) fun d hd => ?_).trans
      (by push_cast; linarith)
    rw [Timed.UniformUBig.newInclusive_result] at hd
    obtain ⟨g1, g2, g3⟩ := UniformUBig.newInclusive_spec hv hl hh
    have hle : low.value cfg ≤ high.value cfg := by
      by_contra g
      rw [g3 (by omega)] at hd; cases hd
    have hf : Fits cfg (high.value cfg - low.value cfg + 1) := by
      by_contra g
      rw [g2 hle g] at hd; cases hd
    obtain ⟨d', e, hr, ho, hrv, hov⟩ := g1 hle hf
    rw [e] at hd; cases hd
    exact key d hr ho (by omega) (by omega) hov

/-- From a number of 100 words to one of 300 words. -/
example (t : ℕ) := C80_ubig cfg64_valid false exMid_wf exLong_wf (n := 300) (by norm_num) (by decide +kernel)
  (by decide +kernel) (t := t + 1) (by omega)

/-- C80 (`IBig`). -/
theorem C80_ibig {cfg : Cfg} (hv : cfg.Valid) (inclusive : Bool) {low high : IBig} (hl : low.WF cfg) (hh : high.WF cfg)
    {n : ℕ} (hn : 1 ≤ n) (hln : (low.value cfg).natAbs < 2 ^ (n * cfg.W)) (hhn : (high.value cfg).natAbs < 2 ^ (n * cfg.W))
    {t : ℕ} (ht : 1 ≤ t) : (TDraw.genIBig cfg inclusive low high t).meanSteps ≤ 71 * n + 140 := by
  have h3 := Timed.pow_words hv n
  have hnq : (0 : ℚ) ≤ n := by positivity
  have key : ∀ d : UniformIBig, d.range.WF cfg → d.offset.WF cfg → 0 < d.range.value cfg →
      d.range.value cfg < 2 * 2 ^ (n * cfg.W) → d.offset.value cfg = low.value cfg →
      (TDraw.UniformIBig.sample cfg t d).cost (fun _ => 0) ≤ 30 * n + 44 := by
    intro d hr ho h0 hrv hov
    have := TDraw.UniformIBig.sample_cost hv ht hr ho h0 (n := n + 1) (m := n) (by omega) (by omega)
      (Timed.natAbs_len_le hv ho hn (by rw [hov]; exact hln))
    push_cast at this
    linarith
  rw [TDraw.meanSteps_eq]
  unfold TDraw.genIBig
  cases inclusive with
  | false =>
    refine (TDraw.cost_ofT (N := 30 * n + 44) (Timed.takes_inew hv hl hh hn hln hhn) (by linarith) fun d hd => ?_).trans
      (by push_cast; linarith)
    rw [Timed.UniformIBig.new_result] at hd
    obtain ⟨g1, g2, g3⟩ := UniformIBig.new_spec hv hl hh
    have hf : Fits cfg (high.value cfg - low.value cfg).natAbs := by
      by_contra g
      rw [g3 g] at hd; cases hd
    have hlt : low.value cfg < high.value cfg := by
      by_contra g
      rw [g2 (by omega) hf] at hd; cases hd
    obtain ⟨d', e, hr, ho, hrv, hov⟩ := g1 hlt hf
    rw [e] at hd; cases hd
    exact key d hr ho (by omega) (by omega) hov
  | true =>
    refine (TDraw.cost_ofT (N := 30 * n + 44) (Timed.takes_inewInclusive hv hl hh hn hln hhn) (by linarith) fun d hd => ?_).trans
      (by push_cast; linarith)
    rw [Timed.UniformIBig.newInclusive_result] at hd
    have hf : Fits cfg (high.value cfg - low.value cfg).natAbs := by
      by_contra g
      unfold UniformIBig.newInclusive at hd
      rw [(IBig.sub_spec hv .ref .ref hh hl).2 g] at hd; cases hd
    obtain ⟨g1, g2, g3⟩ := UniformIBig.newInclusive_spec hv hl hh hf
    have hle : low.value cfg ≤ high.value cfg := by
      by_contra g
      rw [g2 (by omega)] at hd; cases hd
    have hf1 : Fits cfg (high.value cfg - low.value cfg + 1).natAbs := by
      by_contra g
      rw [g3 g] at hd; cases hd
    obtain ⟨d', e, hr, ho, hrv, hov⟩ := g1 hle hf1
    rw [e] at hd; cases hd
    exact key d hr ho (by omega) (by omega) hov

/-- From `-(2^128 - 1)` to `2^64 + 5` inclusive. -/
example (t : ℕ) := C80_ibig cfg64_valid true exNegA_wf exPosB_wf (n := 2) (by norm_num) (by decide +kernel)
  (by decide +kernel) (t := t + 1) (by omega)

end Ibig
