import Verif.Model.NumTraits
import Verif.Proofs.Convert
import Verif.Proofs.AddOps
import Verif.Spec.Examples
/-!
# Properties C37 and C43: the `num_traits` implementations
-/
namespace Ibig

/-- C37: the predicates and constants of `num_traits`. -/
theorem C37_num_traits {cfg : Cfg} (hv : cfg.Valid) :
    (∀ a : UBig, a.WF cfg → a.isZero cfg = .ok (decide (a.value cfg = 0))) ∧
    (∀ a : IBig, a.WF cfg → a.isZero cfg = .ok (decide (a.value cfg = 0)) ∧
      a.isPositive cfg = .ok (decide (0 < a.value cfg)) ∧
      a.isNegative cfg = .ok (decide (a.value cfg < 0))) ∧
    (∃ c, UBig.zero cfg = .ok c ∧ c.WF cfg ∧ c.value cfg = 0) ∧
    (∃ c, UBig.one cfg = .ok c ∧ c.WF cfg ∧ c.value cfg = 1) ∧
    (∃ c, IBig.zero cfg = .ok c ∧ c.WF cfg ∧ c.value cfg = 0) ∧
    (∃ c, IBig.one cfg = .ok c ∧ c.WF cfg ∧ c.value cfg = 1) := by
  have u := fun n (h : n < 2 ^ 8) => UBig.fromUnsigned_ok hv (Or.inl rfl : PBits 8) h
  have i := fun n (h : n < 2 ^ 8) => IBig.fromUnsigned_spec hv (Or.inl rfl : PBits 8) h
  refine ⟨fun a ha => ?_, fun a ha => ?_, u 0 (by norm_num), u 1 (by norm_num), i 0 (by norm_num),
    i 1 (by norm_num)⟩
  · obtain ⟨z, z1, z2, z3⟩ := u 0 (by norm_num)
    unfold UBig.isZero
    rw [z1]
    show Except.ok _ = _
    congr 1
    rw [Bool.eq_iff_iff, UBig.beq_iff hv ha z2, z3, decide_eq_true_iff]
  · obtain ⟨z, z1, z2, z3⟩ := i 0 (by norm_num)
    unfold IBig.isZero IBig.isPositive IBig.isNegative
    rw [z1]
    have hc := IBig.cmp_spec hv ha z2
    rw [z3] at hc
    refine ⟨?_, ?_, ?_⟩
    · show Except.ok _ = _
      congr 1
      rw [Bool.eq_iff_iff, IBig.beq_iff hv ha z2, z3, decide_eq_true_iff]; rfl
    · show (do let o ← a.cmp z; _) = _
      rw [hc]
      show Except.ok _ = _
      congr 1
      rw [Bool.eq_iff_iff, beq_iff_eq, compare_gt_iff_gt, decide_eq_true_iff]; rfl
    · show (do let o ← a.cmp z; _) = _
      rw [hc]
      show Except.ok _ = _
      congr 1
      rw [Bool.eq_iff_iff, beq_iff_eq, compare_lt_iff_lt, decide_eq_true_iff]; rfl

/-- The integer `-(2^128 - 1)`. -/
example := (C37_num_traits cfg64_valid).2.1 exNegA exNegA_wf

example : exNegA.isNegative cfg64 = .ok true ∧ exNegA.isPositive cfg64 = .ok false ∧
    exNegA.isZero cfg64 = .ok false := by decide +kernel

/-- What `abs_sub` computes: `|a - b|`. -/
theorem IBig.absSub_spec {cfg : Cfg} (hv : cfg.Valid) {a b : IBig} (ha : a.WF cfg) (hb : b.WF cfg) :
    IYields cfg (a.absSub cfg b) |a.value cfg - b.value cfg| := by
  unfold IBig.absSub
  obtain ⟨h1, h2⟩ := IBig.sub_spec hv .ref .ref ha hb
  constructor
  · rw [Int.natAbs_abs]
    intro hf
    obtain ⟨d, d1, d2, d3⟩ := h1 hf
    rw [d1, ← d3]
    exact IBig.abs_spec hv .val d2
  · rw [Int.natAbs_abs]
    intro hf
    rw [h2 hf]; rfl

/-- C43, the part that holds: `abs_sub` is `a - b` if `b ≤ a`. -/
theorem C43_abs_sub_partial {cfg : Cfg} (hv : cfg.Valid) {a b : IBig} (ha : a.WF cfg) (hb : b.WF cfg)
    (h : b.value cfg ≤ a.value cfg) : IYields cfg (a.absSub cfg b) (a.value cfg - b.value cfg) := by
  have := IBig.absSub_spec hv ha hb
  rwa [abs_of_nonneg (by omega)] at this

/-- `2^64 + 5` and `-(2^128 - 1)` -/
example := C43_abs_sub_partial cfg64_valid exPosB_wf exNegA_wf (by decide +kernel)

/-- C43 is violated: the `num_traits` contract asks for `0` whenever `a ≤ b`, but for all `a < b` the code
returns `b - a` (or panics if that is too large); for example `abs_sub(3, 5) = 2`. -/
theorem C43_abs_sub_violated {cfg : Cfg} (hv : cfg.Valid) :
    (∀ {a b : IBig}, a.WF cfg → b.WF cfg → a.value cfg < b.value cfg →
      IYields cfg (a.absSub cfg b) (b.value cfg - a.value cfg)) ∧
    ∃ a b : IBig, a.WF cfg ∧ b.WF cfg ∧ a.value cfg ≤ b.value cfg ∧
      ∃ c, a.absSub cfg b = .ok c ∧ c.value cfg ≠ 0 := by
  have h1 : ∀ {a b : IBig}, a.WF cfg → b.WF cfg → a.value cfg < b.value cfg →
      IYields cfg (a.absSub cfg b) (b.value cfg - a.value cfg) := by
    intro a b ha hb h
    have := IBig.absSub_spec hv ha hb
    rwa [abs_of_neg (by omega), neg_sub] at this
  refine ⟨h1, ?_⟩
  obtain ⟨x, -, x2, x3⟩ := IBig.fromUnsigned_spec hv (Or.inl rfl : PBits 8) (x := 3) (by norm_num)
  obtain ⟨y, -, y2, y3⟩ := IBig.fromUnsigned_spec hv (Or.inl rfl : PBits 8) (x := 5) (by norm_num)
  refine ⟨x, y, x2, y2, by rw [x3, y3]; norm_num, ?_⟩
  have hf := y2.fits hv
  obtain ⟨c, c1, -, c3⟩ := (h1 x2 y2 (by rw [x3, y3]; norm_num)).1
    (hf.mono (by rw [x3, y3]; norm_num))
  exact ⟨c, c1, by rw [c3, x3, y3]; norm_num⟩

/-- `-(2^128 - 1)` and `2^64 + 5` -/
example := (C43_abs_sub_violated cfg64_valid).1 exNegA_wf exPosB_wf (by decide +kernel)

example : (⟨.pos, .small 3⟩ : IBig).absSub cfg64 ⟨.pos, .small 5⟩ = .ok ⟨.pos, .small 2⟩ := by decide +kernel

end Ibig
