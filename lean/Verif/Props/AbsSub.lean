import Verif.Props.NumTraits
/-!
# C43: exactly when `abs_sub` is right
-/
namespace Ibig

/-- C43: `abs_sub` is the distance of the two numbers.  So it gives what the contract of `num_traits` asks for, the
difference if it is positive and zero otherwise, exactly if the first number is not less than the second. -/
theorem C43_abs_sub_exact {cfg : Cfg} (hv : cfg.Valid) {a b : IBig} (ha : a.WF cfg) (hb : b.WF cfg) :
    IYields cfg (a.absSub cfg b) |a.value cfg - b.value cfg| ∧
    (IYields cfg (a.absSub cfg b) (max (a.value cfg - b.value cfg) 0) ↔ b.value cfg ≤ a.value cfg) := by
  have h := IBig.absSub_spec hv ha hb
  refine ⟨h, fun h2 => ?_, fun h2 => ?_⟩
  · by_contra hlt
    rw [max_eq_right (by omega)] at h2
    obtain ⟨c, c1, -, c3⟩ := h2.1 ((ha.fits hv).mono (by simp))
    by_cases hf : Fits cfg |a.value cfg - b.value cfg|.natAbs
    · obtain ⟨d, d1, -, d3⟩ := h.1 hf
      rw [c1] at d1
      cases d1
      have := abs_pos.mpr (show a.value cfg - b.value cfg ≠ 0 by omega)
      omega
    · rw [h.2 hf] at c1
      cases c1
  · rw [max_eq_left (by omega)]
    exact C43_abs_sub_partial hv ha hb h2

/-- `2^64 + 5` and `-(2^128 - 1)`, in both orders -/
example := (C43_abs_sub_exact cfg64_valid exPosB_wf exNegA_wf).2.mpr (by decide +kernel)
example : ¬IYields cfg64 (exNegA.absSub cfg64 exPosB) (max (exNegA.value cfg64 - exPosB.value cfg64) 0) := fun h =>
  absurd ((C43_abs_sub_exact cfg64_valid exNegA_wf exPosB_wf).2.mp h) (by decide +kernel)

end Ibig
