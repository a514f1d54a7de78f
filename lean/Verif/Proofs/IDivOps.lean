import Verif.Proofs.DivOps
import Mathlib.Data.Int.Lemmas
/-! Signed division (/repo/src/div_ops.rs): truncated and Euclidean. -/
namespace Ibig

theorem tdiv_sign (s t : Sign) (a b : Nat) :
    (s.toInt * (a : Int)).tdiv (t.toInt * b) = (s.mul t).toInt * ((a / b : Nat) : Int) := by
  cases s <;> cases t <;> simp [Sign.toInt, Sign.mul, Int.neg_tdiv, Int.tdiv_neg]

theorem tmod_sign (s t : Sign) (a b : Nat) :
    (s.toInt * (a : Int)).tmod (t.toInt * b) = s.toInt * ((a % b : Nat) : Int) := by
  cases s <;> cases t <;> rw [Int.ofNat_tmod] <;> simp [Sign.toInt, Int.neg_tmod, Int.tmod_neg]

theorem IBig.value_eq_zero {cfg : Cfg} {x : IBig} : x.value cfg = 0 ↔ x.mag.value cfg = 0 := by
  rw [← IBig.natAbs_value, Int.natAbs_eq_zero]

/-- A division result: the number `z`, or the documented panic when the divisor is zero. -/
def IDivYields (cfg : Cfg) (x : R IBig) (b z : Int) : Prop :=
  (b ≠ 0 → ∃ c, x = .ok c ∧ c.WF cfg ∧ c.value cfg = z) ∧ (b = 0 → x = .error .divideByZero)

/-- A division result with quotient and remainder. -/
def IDivRemYields (cfg : Cfg) (x : R (IBig × IBig)) (b q r : Int) : Prop :=
  (b ≠ 0 → ∃ c, x = .ok c ∧ c.1.WF cfg ∧ c.2.WF cfg ∧ c.1.value cfg = q ∧ c.2.value cfg = r) ∧
  (b = 0 → x = .error .divideByZero)

theorem IBig.div_spec {cfg : Cfg} (hv : cfg.Valid) (o0 o1 : Own) {a b : IBig} (ha : a.WF cfg)
    (hb : b.WF cfg) :
    IDivYields cfg (IBig.div cfg o0 o1 a b) (b.value cfg) ((a.value cfg).tdiv (b.value cfg)) := by
  obtain ⟨h1, h2⟩ := UBig.div_spec hv o0 o1 ha.mag hb.mag
  refine ⟨fun h0 => ?_, fun h0 => ?_⟩
  · refine Returns.bind (h1 (fun e => h0 (IBig.value_eq_zero.mpr e))) ?_
    rintro q ⟨q1, q2⟩
    have := IBig.fromSignMagnitude_spec hv (a.sign.mul b.sign) q1
    refine returns_ok.mpr ⟨this.1, ?_⟩
    rw [this.2, q2, IBig.value_def, IBig.value_def, tdiv_sign]
  · unfold IBig.div
    rw [h2 (IBig.value_eq_zero.mp h0)]; rfl

theorem IBig.rem_spec {cfg : Cfg} (hv : cfg.Valid) (o0 o1 : Own) {a b : IBig} (ha : a.WF cfg)
    (hb : b.WF cfg) :
    IDivYields cfg (IBig.rem cfg o0 o1 a b) (b.value cfg) ((a.value cfg).tmod (b.value cfg)) := by
  obtain ⟨h1, h2⟩ := UBig.rem_spec hv o0 o1 ha.mag hb.mag
  refine ⟨fun h0 => ?_, fun h0 => ?_⟩
  · refine Returns.bind (h1 (fun e => h0 (IBig.value_eq_zero.mpr e))) ?_
    rintro q ⟨q1, q2⟩
    have := IBig.fromSignMagnitude_spec hv a.sign q1
    refine returns_ok.mpr ⟨this.1, ?_⟩
    rw [this.2, q2, IBig.value_def, IBig.value_def, tmod_sign]
  · unfold IBig.rem
    rw [h2 (IBig.value_eq_zero.mp h0)]; rfl

theorem IBig.divRem_spec {cfg : Cfg} (hv : cfg.Valid) (o0 o1 : Own) {a b : IBig} (ha : a.WF cfg)
    (hb : b.WF cfg) :
    IDivRemYields cfg (IBig.divRem cfg o0 o1 a b) (b.value cfg) ((a.value cfg).tdiv (b.value cfg))
      ((a.value cfg).tmod (b.value cfg)) := by
  obtain ⟨h1, h2⟩ := UBig.divRem_spec hv o0 o1 ha.mag hb.mag
  refine ⟨fun h0 => ?_, fun h0 => ?_⟩
  · refine Returns.bind (h1 (fun e => h0 (IBig.value_eq_zero.mpr e))) ?_
    rintro ⟨q, r⟩ ⟨q1, q2, q3, q4⟩
    have e1 := IBig.fromSignMagnitude_spec hv (a.sign.mul b.sign) q1
    have e2 := IBig.fromSignMagnitude_spec hv a.sign q2
    refine returns_ok.mpr ⟨e1.1, e2.1, ?_, ?_⟩
    · simp only at q3
      simp only
      rw [e1.2, q3, IBig.value_def, IBig.value_def, tdiv_sign]
    · simp only at q4
      simp only
      rw [e2.2, q4, IBig.value_def, IBig.value_def, tmod_sign]
  · unfold IBig.divRem
    rw [h2 (IBig.value_eq_zero.mp h0)]; rfl

/-- how Euclidean division follows from truncated division -/
theorem euclid_of_trunc {a b : Int} (hb : b ≠ 0) :
    (0 ≤ a.tmod b → a / b = a.tdiv b ∧ a % b = a.tmod b) ∧
    (a.tmod b < 0 → a / b = a.tdiv b - b.sign ∧ a % b = a.tmod b + |b|) := by
  have h := Int.tmod_add_mul_tdiv a b
  have habs : |a.tmod b| < |b| := by
    rw [Int.abs_eq_natAbs, Int.abs_eq_natAbs]; 
    rw [Int.natAbs_tmod]
    exact_mod_cast Nat.mod_lt _ (Int.natAbs_pos.mpr hb)
  constructor
  · intro h0
    rw [abs_of_nonneg h0] at habs
    have := Int.ediv_emod_unique'' hb (r := a.tmod b) (q := a.tdiv b) (a := a)
    exact this.mpr ⟨by linarith, h0, habs⟩
  · intro h0
    rw [abs_of_neg h0] at habs
    have := Int.ediv_emod_unique'' hb (r := a.tmod b + |b|) (q := a.tdiv b - b.sign) (a := a)
    refine this.mpr ⟨?_, by linarith, by linarith⟩
    have : b * b.sign = |b| := by rw [Int.mul_sign_self, Int.abs_eq_natAbs]
    linarith

theorem fits_ediv {cfg : Cfg} {a : Int} (b : Int) (h : Fits cfg a.natAbs) : Fits cfg (a / b).natAbs :=
  h.mono (Int.natAbs_ediv_le_natAbs a b)

theorem fits_emod {cfg : Cfg} (a : Int) {b : Int} (hb : b ≠ 0) (h : Fits cfg b.natAbs) :
    Fits cfg (a % b).natAbs := by
  have h1 := Int.emod_nonneg a hb
  have h2 := Int.emod_lt_abs a hb
  rw [Int.abs_eq_natAbs] at h2
  exact h.mono (by omega)

theorem IBig.divEuclid_spec {cfg : Cfg} (hv : cfg.Valid) (o0 o1 : Own) {a b : IBig} (ha : a.WF cfg)
    (hb : b.WF cfg) :
    IDivYields cfg (IBig.divEuclid cfg o0 o1 a b) (b.value cfg) (a.value cfg / b.value cfg) := by
  obtain ⟨h1, h2⟩ := IBig.divRem_spec hv o0 o1 ha hb
  unfold IBig.divEuclid
  refine ⟨fun h0 => ?_, fun h0 => by rw [h2 h0]; rfl⟩
  obtain ⟨e1, e2⟩ := euclid_of_trunc (a := a.value cfg) h0
  refine Returns.bind (h1 h0) ?_
  rintro ⟨q, r⟩ ⟨q1, q2, q3, q4⟩
  simp only at q1 q2 q3 q4 ⊢
  have hs := IBig.value_nonneg_iff q2
  rw [q4] at hs
  rcases hh : r.sign <;> simp only
  · refine returns_ok.mpr ⟨q1, ?_⟩
    rw [q3, (e1 (hs.mp hh)).1]
  · have hneg : (a.value cfg).tmod (b.value cfg) < 0 := by
      rw [hh] at hs; simpa using hs
    obtain ⟨s1, s2⟩ := IBig.signum_spec hv hb
    have := (IBig.sub_spec hv .val .val q1 s1)
    rw [q3, s2, ← (e2 hneg).1] at this
    exact this.returns (fits_ediv _ (ha.fits hv))

theorem IBig.remEuclid_spec {cfg : Cfg} (hv : cfg.Valid) (o0 o1 : Own) {a b : IBig} (ha : a.WF cfg)
    (hb : b.WF cfg) :
    IDivYields cfg (IBig.remEuclid cfg o0 o1 a b) (b.value cfg) (a.value cfg % b.value cfg) := by
  obtain ⟨h1, h2⟩ := IBig.rem_spec hv o0 .ref ha hb
  unfold IBig.remEuclid
  refine ⟨fun h0 => ?_, fun h0 => by rw [h2 h0]; rfl⟩
  obtain ⟨e1, e2⟩ := euclid_of_trunc (a := a.value cfg) h0
  refine Returns.bind (h1 h0) ?_
  rintro r ⟨q2, q4⟩
  have hs := IBig.value_nonneg_iff q2
  rw [q4] at hs
  rcases hh : r.sign <;> simp only
  · refine returns_ok.mpr ⟨q2, ?_⟩
    rw [q4, (e1 (hs.mp hh)).2]
  · have hneg : (a.value cfg).tmod (b.value cfg) < 0 := by
      rw [hh] at hs; simpa using hs
    refine Returns.bind (IBig.abs_spec hv o1 hb) ?_
    rintro m ⟨m1, m2⟩
    have := (IBig.add_spec hv .val .val q2 m1)
    rw [q4, m2, ← (e2 hneg).2] at this
    exact this.returns (fits_emod _ h0 (hb.fits hv))

theorem IBig.divRemEuclid_spec {cfg : Cfg} (hv : cfg.Valid) (o0 o1 : Own) {a b : IBig}
    (ha : a.WF cfg) (hb : b.WF cfg) :
    IDivRemYields cfg (IBig.divRemEuclid cfg o0 o1 a b) (b.value cfg) (a.value cfg / b.value cfg)
      (a.value cfg % b.value cfg) := by
  obtain ⟨h1, h2⟩ := IBig.divRem_spec hv o0 .ref ha hb
  unfold IBig.divRemEuclid
  refine ⟨fun h0 => ?_, fun h0 => by rw [h2 h0]; rfl⟩
  obtain ⟨e1, e2⟩ := euclid_of_trunc (a := a.value cfg) h0
  refine Returns.bind (h1 h0) ?_
  rintro ⟨q, r⟩ ⟨q1, q2, q3, q4⟩
  simp only at q1 q2 q3 q4 ⊢
  have hs := IBig.value_nonneg_iff q2
  rw [q4] at hs
  rcases hh : r.sign <;> simp only
  · refine returns_ok.mpr ⟨q1, q2, ?_, ?_⟩
    · rw [q3, (e1 (hs.mp hh)).1]
    · rw [q4, (e1 (hs.mp hh)).2]
  · have hneg : (a.value cfg).tmod (b.value cfg) < 0 := by
      rw [hh] at hs; simpa using hs
    obtain ⟨s1, s2⟩ := IBig.signum_spec hv hb
    have hq := (IBig.sub_spec hv .val .val q1 s1)
    rw [q3, s2, ← (e2 hneg).1] at hq
    refine Returns.bind (hq.returns (fits_ediv _ (ha.fits hv))) ?_
    rintro Q ⟨Q1, Q2⟩
    refine Returns.bind (IBig.abs_spec hv o1 hb) ?_
    rintro m ⟨m1, m2⟩
    have hr := (IBig.add_spec hv .val .val q2 m1)
    rw [q4, m2, ← (e2 hneg).2] at hr
    refine Returns.bind (hr.returns (fits_emod _ h0 (hb.fits hv))) ?_
    rintro Rm ⟨r1, r2⟩
    exact returns_ok.mpr ⟨Q1, r1, Q2, r2⟩

end Ibig
