import Verif.Proofs.Rand
import Verif.Spec.Examples
import Mathlib.Analysis.SpecificLimits.Basic
import Verif.Spec.ExamplesModular
/-!
# C32: uniform random numbers

`UniformOn` (Spec/Rand.lean) says what it means for a sampler to be uniform.  `C32_limit` derives from it the
statement about the unbounded loop of the program: it ends with probability 1, and each number in the range comes
out with probability `1 / (high - low)`.
-/
namespace Ibig

open Filter Topology

theorem Draw.UniformBelow.uniformOn {α : Type} {sample : Nat → Draw (Option α)} {wf : α → Prop} {value : α → Int}
    {low : Int} {N : Nat} (hN : 0 < N) {high : Int} (hh : high = low + N)
    (h : ∃ q : ℚ, 0 ≤ q ∧ q ≤ 1 / 2 ∧ ∀ t, 1 ≤ t → ∃ h : Nat → α,
      (∀ x < N, wf (h x) ∧ value (h x) = low + x) ∧ (sample t).UniformBelow (q ^ t) N h) :
    UniformOn sample wf value low high := by
  obtain ⟨q, h1, h2, h3⟩ := h
  refine ⟨q, h1, h2, fun t ht => ?_⟩
  obtain ⟨f, g1, g2⟩ := h3 t ht
  refine ⟨g2.all hN ?_ (by simp), g2.prob_none, fun v hv1 hv2 => ?_⟩
  · rintro x hx y ⟨⟩
    obtain ⟨k1, k2⟩ := g1 x hx
    exact ⟨k1, by omega, by omega⟩
  · have hc : ((high : ℚ) - low) = N := by rw [hh]; push_cast; ring
    rw [hc]
    refine g2.prob (v := (v - low).toNat) (by omega) (fun x hx => ?_) (by simp)
    obtain ⟨-, k2⟩ := g1 x hx
    simp only [Option.some.injEq, exists_eq_left', k2]
    omega

/-- C32 (`UBig`, half-open range): `gen_range(low..high)` / `Uniform::new(low, high)` samples uniformly from
`low ≤ v < high`; an empty range panics. -/
theorem C32_ubig_new {cfg : Cfg} (hv : cfg.Valid) {low high : UBig} (hl : low.WF cfg) (hh : high.WF cfg) :
    (low.value cfg < high.value cfg → ∃ d, UniformUBig.new cfg low high = .ok d ∧
      UniformOn (fun t => d.sample cfg t) (fun y => y.WF cfg) (fun y => (y.value cfg : Int))
        (low.value cfg) (high.value cfg)) ∧
    (low.value cfg = high.value cfg → UniformUBig.new cfg low high = .error .emptyRange) ∧
    (high.value cfg < low.value cfg → UniformUBig.new cfg low high = .error .negativeUBig) := by
  obtain ⟨h1, h2, h3⟩ := UniformUBig.new_spec hv hl hh
  refine ⟨fun h => ?_, h2, h3⟩
  obtain ⟨d, e, hr, ho, hrv, hov⟩ := h1 h
  refine ⟨d, e, Draw.UniformBelow.uniformOn (N := d.range.value cfg) (by omega) (by omega) ?_⟩
  obtain ⟨q, g1, g2, g3⟩ := UniformUBig.sample_spec hv hr ho (by omega)
    ((UBig.WF.fits hv hh).mono (by omega))
  refine ⟨q, g1, g2, fun t ht => ?_⟩
  obtain ⟨f, k1, k2⟩ := g3 t ht
  exact ⟨f, fun x hx => ⟨(k1 x hx).1, by rw [(k1 x hx).2, hov]; push_cast; rfl⟩, k2⟩

/-- C32 (`UBig`, closed range): `Uniform::new_inclusive(low, high)` samples uniformly from `low ≤ v ≤ high`; an
empty range panics.  (The range of all numbers that fit has one element too many and panics too.) -/
theorem C32_ubig_new_inclusive {cfg : Cfg} (hv : cfg.Valid) {low high : UBig} (hl : low.WF cfg) (hh : high.WF cfg) :
    (low.value cfg ≤ high.value cfg → Fits cfg (high.value cfg - low.value cfg + 1) →
      ∃ d, UniformUBig.newInclusive cfg low high = .ok d ∧
      UniformOn (fun t => d.sample cfg t) (fun y => y.WF cfg) (fun y => (y.value cfg : Int))
        (low.value cfg) (high.value cfg + 1)) ∧
    (low.value cfg ≤ high.value cfg → ¬Fits cfg (high.value cfg - low.value cfg + 1) →
      UniformUBig.newInclusive cfg low high = .error .tooLarge) ∧
    (high.value cfg < low.value cfg → UniformUBig.newInclusive cfg low high = .error .negativeUBig) := by
  obtain ⟨h1, h2, h3⟩ := UniformUBig.newInclusive_spec hv hl hh
  refine ⟨fun h hf => ?_, h2, h3⟩
  obtain ⟨d, e, hr, ho, hrv, hov⟩ := h1 h hf
  refine ⟨d, e, Draw.UniformBelow.uniformOn (N := d.range.value cfg) (by omega) (by omega) ?_⟩
  obtain ⟨q, g1, g2, g3⟩ := UniformUBig.sample_spec hv hr ho (by omega)
    ((UBig.WF.fits hv hh).mono (by omega))
  refine ⟨q, g1, g2, fun t ht => ?_⟩
  obtain ⟨f, k1, k2⟩ := g3 t ht
  exact ⟨f, fun x hx => ⟨(k1 x hx).1, by rw [(k1 x hx).2, hov]; push_cast; rfl⟩, k2⟩

/-- Between `2^64 + 5` and `2^128 - 1`. -/
example := (C32_ubig_new_inclusive cfg64_valid exB_wf exA_wf).1 (by decide +kernel)
  (fitsEx 200 (by decide +kernel) (by decide))

/-- C32 (`IBig`, half-open range).  (A range longer than the largest number panics with "number too large".) -/
theorem C32_ibig_new {cfg : Cfg} (hv : cfg.Valid) {low high : IBig} (hl : low.WF cfg) (hh : high.WF cfg) :
    (low.value cfg < high.value cfg → Fits cfg (high.value cfg - low.value cfg).natAbs →
      ∃ d, UniformIBig.new cfg low high = .ok d ∧
      UniformOn (fun t => d.sample cfg t) (fun y => y.WF cfg) (fun y => y.value cfg)
        (low.value cfg) (high.value cfg)) ∧
    (high.value cfg ≤ low.value cfg → Fits cfg (high.value cfg - low.value cfg).natAbs →
      UniformIBig.new cfg low high = .error .emptyRange) ∧
    (¬Fits cfg (high.value cfg - low.value cfg).natAbs → UniformIBig.new cfg low high = .error .tooLarge) := by
  obtain ⟨h1, h2, h3⟩ := UniformIBig.new_spec hv hl hh
  refine ⟨fun h hf => ?_, h2, h3⟩
  obtain ⟨d, e, hr, ho, hrv, hov⟩ := h1 h hf
  refine ⟨d, e, Draw.UniformBelow.uniformOn (N := d.range.value cfg) (by omega) (by omega) ?_⟩
  have hfl := UBig.WF.fits hv hl.mag
  have hfh := UBig.WF.fits hv hh.mag
  rw [← IBig.natAbs_value] at hfl hfh
  obtain ⟨q, g1, g2, g3⟩ := UniformIBig.sample_spec hv hr ho (by omega) (fun x hx => by
    rcases Nat.le_total (low.value cfg).natAbs (high.value cfg).natAbs with g | g
    · exact hfh.mono (by omega)
    · exact hfl.mono (by omega))
  refine ⟨q, g1, g2, fun t ht => ?_⟩
  obtain ⟨f, k1, k2⟩ := g3 t ht
  exact ⟨f, fun x hx => ⟨(k1 x hx).1, by rw [(k1 x hx).2, hov]⟩, k2⟩

/-- From `-(2^128 - 1)` up to `2^64 + 5`. -/
example := (C32_ibig_new cfg64_valid exNegA_wf exPosB_wf).1 (by decide +kernel)
  (fitsEx 200 (by decide +kernel) (by decide))

/-- C32 (`IBig`, closed range).  (A range longer than the largest number panics with "number too large".) -/
theorem C32_ibig_new_inclusive {cfg : Cfg} (hv : cfg.Valid) {low high : IBig} (hl : low.WF cfg) (hh : high.WF cfg) :
    (low.value cfg ≤ high.value cfg → Fits cfg (high.value cfg - low.value cfg + 1).natAbs →
      ∃ d, UniformIBig.newInclusive cfg low high = .ok d ∧
      UniformOn (fun t => d.sample cfg t) (fun y => y.WF cfg) (fun y => y.value cfg)
        (low.value cfg) (high.value cfg + 1)) ∧
    (high.value cfg < low.value cfg → Fits cfg (high.value cfg - low.value cfg).natAbs →
      UniformIBig.newInclusive cfg low high = .error .emptyRange) ∧
    (¬Fits cfg (high.value cfg - low.value cfg).natAbs ∨ ¬Fits cfg (high.value cfg - low.value cfg + 1).natAbs →
      UniformIBig.newInclusive cfg low high = .error .tooLarge) := by
  have h0 : ¬Fits cfg (high.value cfg - low.value cfg).natAbs →
      UniformIBig.newInclusive cfg low high = .error .tooLarge := fun hf => by
    unfold UniformIBig.newInclusive
    rw [(IBig.sub_spec hv .ref .ref hh hl).2 hf]
    rfl
  refine ⟨fun h hf => ?_, fun h hf => (UniformIBig.newInclusive_spec hv hl hh hf).2.1 h, fun hf => ?_⟩
  rotate_left
  · by_cases hd : Fits cfg (high.value cfg - low.value cfg).natAbs
    · exact (UniformIBig.newInclusive_spec hv hl hh hd).2.2 (hf.resolve_left (not_not.mpr hd))
    · exact h0 hd
  obtain ⟨d, e, hr, ho, hrv, hov⟩ := (UniformIBig.newInclusive_spec hv hl hh (hf.mono (by omega))).1 h hf
  refine ⟨d, e, Draw.UniformBelow.uniformOn (N := d.range.value cfg) (by omega) (by omega) ?_⟩
  have hfl := UBig.WF.fits hv hl.mag
  have hfh := UBig.WF.fits hv hh.mag
  rw [← IBig.natAbs_value] at hfl hfh
  obtain ⟨q, g1, g2, g3⟩ := UniformIBig.sample_spec hv hr ho (by omega) (fun x hx => by
    rcases Nat.le_total (low.value cfg).natAbs (high.value cfg).natAbs with g | g
    · exact hfh.mono (by omega)
    · exact hfl.mono (by omega))
  refine ⟨q, g1, g2, fun t ht => ?_⟩
  obtain ⟨f, k1, k2⟩ := g3 t ht
  exact ⟨f, fun x hx => ⟨(k1 x hx).1, by rw [(k1 x hx).2, hov]⟩, k2⟩

/-- Between `-(2^128 - 1)` and `2^64 + 5`. -/
example := (C32_ibig_new_inclusive cfg64_valid exNegA_wf exPosB_wf).1
  (by decide +kernel) (fitsEx 200 (by decide +kernel) (by decide))

/-- C32: without a bound on the number of attempts the sampler ends with probability 1, and each number of the range
has probability exactly `1 / (high - low)`. -/
theorem C32_limit {α : Type} {sample : Nat → Draw (Option α)} {wf : α → Prop} {value : α → Int} {low high : Int}
    (h : UniformOn sample wf value low high) :
    Tendsto (fun t => (sample t).prob fun o => o = none) atTop (𝓝 0) ∧
    ∀ v, low ≤ v → v < high →
      Tendsto (fun t => (sample t).prob fun o => ∃ y, o = some y ∧ value y = v) atTop
        (𝓝 (1 / ((high : ℚ) - low))) := by
  obtain ⟨q, h1, h2, h3⟩ := h
  have hq : Tendsto (fun t => q ^ t) atTop (𝓝 0) := tendsto_pow_atTop_nhds_zero_of_lt_one h1 (by linarith)
  refine ⟨?_, fun v hv1 hv2 => ?_⟩
  · refine hq.congr' ?_
    filter_upwards [eventually_ge_atTop 1] with t ht
    exact (h3 t ht).2.1.symm
  · have : Tendsto (fun t => (1 - q ^ t) / ((high : ℚ) - low)) atTop (𝓝 ((1 - 0) / ((high : ℚ) - low))) :=
      (hq.const_sub 1).div_const _
    rw [sub_zero] at this
    refine this.congr' ?_
    filter_upwards [eventually_ge_atTop 1] with t ht
    exact ((h3 t ht).2.2 v hv1 hv2).symm

/-- The distribution between `2^64 + 5` and `2^128 - 1`. -/
example : ∃ d, UniformUBig.new cfg64 exB exA = .ok d ∧
    Tendsto (fun t => (d.sample cfg64 t).prob fun o => o = none) atTop (𝓝 0) := by
  obtain ⟨d, h, hu⟩ := (C32_ubig_new cfg64_valid exB_wf exA_wf).1 (by decide +kernel)
  exact ⟨d, h, (C32_limit hu).1⟩

/-- C32 combined: half-open `UBig` ranges, unbounded sampling. -/
theorem C32_ubig_gen_range {cfg : Cfg} (hv : cfg.Valid) {low high : UBig} (hl : low.WF cfg) (hh : high.WF cfg)
    (h : low.value cfg < high.value cfg) : ∃ d, UniformUBig.new cfg low high = .ok d ∧
      ∀ v, low.value cfg ≤ v → v < high.value cfg →
        Tendsto (fun t => (d.sample cfg t).prob fun o => ∃ y, o = some y ∧ y.value cfg = v) atTop
          (𝓝 (1 / ((high.value cfg : ℚ) - low.value cfg))) := by
  obtain ⟨d, e, hd⟩ := (C32_ubig_new hv hl hh).1 h
  refine ⟨d, e, fun v hv1 hv2 => ?_⟩
  have := (C32_limit hd).2 v (by omega) (by omega)
  simpa using this

-- the hypotheses are met by `2^64+5 .. 2^128-1` and by `-(2^128-1) ..= 2^64+5`
example : ∃ d, UniformUBig.new cfg64 exB exA = .ok d ∧
    UniformOn (fun t => d.sample cfg64 t) (fun y => y.WF cfg64) (fun y => (y.value cfg64 : Int))
      (exB.value cfg64) (exA.value cfg64) :=
  (C32_ubig_new cfg64_valid exB_wf exA_wf).1 (by decide +kernel)

/-- From `2^64 + 5` up to `2^128 - 1`. -/
example := C32_ubig_gen_range cfg64_valid exB_wf exA_wf (by decide +kernel)

example : UniformUBig.new cfg64 exA exA = .error .emptyRange := by decide +kernel
example : UniformIBig.newInclusive cfg64 exPosB exNegA = .error .emptyRange := by decide +kernel

end Ibig
