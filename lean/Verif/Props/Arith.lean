import Verif.Proofs.IDivOps
import Verif.Spec.Examples
/-!
# Properties C01–C08: arithmetic

`cfg.Valid` covers every word size and every `usize` (see `Spec/Number.lean`); `WF` says that an operand
is a value the type can hold; `Yields`/`IYields` say that the result is the given number, or the
"number too large" panic exactly when that number is beyond the limit. `o1 o2 : Own` range over the
by-value and by-reference forms; `op=` is the by-value form.
-/
namespace Ibig

/-- C01: `a + b` is exact for `UBig`. -/
theorem C01_ubig_add {cfg : Cfg} (hv : cfg.Valid) (o1 o2 : Own) {a b : UBig} (ha : a.WF cfg)
    (hb : b.WF cfg) : Yields cfg (UBig.add cfg o1 o2 a b) (a.value cfg + b.value cfg) :=
  UBig.add_spec hv o1 o2 ha hb

/-- the carry runs through all 300 words -/
example : Yields cfg64 (UBig.add cfg64 .ref .val (.small 1) exLong) 
    ((UBig.small 1).value cfg64 + exLong.value cfg64) :=
  C01_ubig_add cfg64_valid _ _ (wf_small (by decide +kernel)) exLong_wf
example : UBig.add cfg64 .val .ref exA exB = .ok (.large ⟨[4, 1, 1], 5⟩) := by decide +kernel

/-- C02: `a - b` is exact for `UBig`, and panics exactly when it would be negative. -/
theorem C02_ubig_sub {cfg : Cfg} (hv : cfg.Valid) (o1 o2 : Own) {a b : UBig} (ha : a.WF cfg)
    (hb : b.WF cfg) :
    (b.value cfg ≤ a.value cfg → ∃ c, UBig.sub cfg o1 o2 a b = .ok c ∧ c.WF cfg ∧
      c.value cfg = a.value cfg - b.value cfg) ∧
    (a.value cfg < b.value cfg → UBig.sub cfg o1 o2 a b = .error .negativeUBig) := by
  obtain ⟨h1, h2⟩ := UBig.sub_spec hv o1 o2 ha hb
  exact ⟨fun h => (h1 h).1 ((ha.fits hv).mono (Nat.sub_le _ _)), h2⟩

/-- The case of two two-word numbers, in both orders. -/
example := (C02_ubig_sub cfg64_valid .ref .val exA_wf exB_wf).1 (by decide +kernel)
example := (C02_ubig_sub cfg64_valid .ref .val exB_wf exA_wf).2 (by decide +kernel)

example : UBig.sub cfg64 .ref .val exA exB = .ok (.large ⟨[2 ^ 64 - 6, 2 ^ 64 - 2], 2⟩) ∧
    UBig.sub cfg64 .ref .val exB exA = .error .negativeUBig := by decide +kernel
example : exB.value cfg64 ≤ exA.value cfg64 ∧ exB.value cfg64 < exLong.value cfg64 := by decide +kernel

/-- C03: `a + b` and `a - b` are exact for `IBig`. -/
theorem C03_ibig_add_sub {cfg : Cfg} (hv : cfg.Valid) (o1 o2 : Own) {a b : IBig} (ha : a.WF cfg)
    (hb : b.WF cfg) :
    IYields cfg (IBig.add cfg o1 o2 a b) (a.value cfg + b.value cfg) ∧
    IYields cfg (IBig.sub cfg o1 o2 a b) (a.value cfg - b.value cfg) :=
  ⟨IBig.add_spec hv o1 o2 ha hb, IBig.sub_spec hv o1 o2 ha hb⟩

example : IYields cfg64 (IBig.sub cfg64 .val .ref exPosB exNegA)
    (exPosB.value cfg64 - exNegA.value cfg64) :=
  (C03_ibig_add_sub cfg64_valid _ _ exPosB_wf exNegA_wf).2
example : IBig.add cfg64 .ref .val exNegB exPosB = .ok ⟨.pos, .small 0⟩ := by decide +kernel

/-- C04: `a * b` is exact for `UBig` and `IBig`. -/
theorem C04_mul {cfg : Cfg} (hv : cfg.Valid) (o1 o2 : Own) :
    (∀ {a b : UBig}, a.WF cfg → b.WF cfg →
      Yields cfg (UBig.mul cfg o1 o2 a b) (a.value cfg * b.value cfg)) ∧
    (∀ {a b : IBig}, a.WF cfg → b.WF cfg →
      IYields cfg (IBig.mul cfg o1 o2 a b) (a.value cfg * b.value cfg)) :=
  ⟨fun ha hb => UBig.mul_spec hv o1 o2 ha hb, fun ha hb => IBig.mul_spec hv o1 o2 ha hb⟩

/-- 300 words by 300 words: the Toom-3 range -/
example : Yields cfg64 (UBig.mul cfg64 .ref .ref exLong exLong)
    (exLong.value cfg64 * exLong.value cfg64) :=
  (C04_mul cfg64_valid _ _).1 exLong_wf exLong_wf
example : IBig.mul cfg64 .ref .val exNegA exPosB =
    .ok ⟨.neg, .large ⟨[2 ^ 64 - 5, 2 ^ 64 - 2, 4, 1], 6⟩⟩ := by decide +kernel

/-- C05: `UBig` division. -/
theorem C05_ubig_div {cfg : Cfg} (hv : cfg.Valid) (o1 o2 : Own) {a b : UBig} (ha : a.WF cfg)
    (hb : b.WF cfg) (h0 : b.value cfg ≠ 0) :
    ∃ q r : UBig, UBig.div cfg o1 o2 a b = .ok q ∧ UBig.rem cfg o1 o2 a b = .ok r ∧
      q.WF cfg ∧ r.WF cfg ∧
      a.value cfg = q.value cfg * b.value cfg + r.value cfg ∧ r.value cfg < b.value cfg ∧
      ∃ q' r' : UBig, UBig.divRem cfg o1 o2 a b = .ok (q', r') ∧ q'.WF cfg ∧ r'.WF cfg ∧
        q'.value cfg = q.value cfg ∧ r'.value cfg = r.value cfg := by
  obtain ⟨q, q1, q2, q3⟩ := (UBig.div_spec hv o1 o2 ha hb).1 h0
  obtain ⟨r, r1, r2, r3⟩ := (UBig.rem_spec hv o1 o2 ha hb).1 h0
  obtain ⟨⟨q', r'⟩, p1, p2, p3, p4, p5⟩ := (UBig.divRem_spec hv o1 o2 ha hb).1 h0
  refine ⟨q, r, q1, r1, q2, r2, ?_, ?_, q', r', p1, p2, p3, p4.trans q3.symm, p5.trans r3.symm⟩
  · rw [q3, r3, Nat.mul_comm]; exact (Nat.div_add_mod _ _).symm
  · rw [r3]; exact Nat.mod_lt _ (Nat.pos_of_ne_zero h0)

/-- 300 words by 100 words: the divide-and-conquer range -/
example : ∃ q, UBig.div cfg64 .ref .val exLong exMid = .ok q :=
  let ⟨q, _, h, _⟩ := C05_ubig_div cfg64_valid .ref .val exLong_wf exMid_wf (by decide +kernel)
  ⟨q, h⟩
example : UBig.divRem cfg64 .val .val exA exB = .ok (.small (2 ^ 64 - 5), .small 24) := by
  decide +kernel

/-- C06: every division by zero panics with "divide by 0", and division never panics otherwise. -/
theorem C06_div_by_zero {cfg : Cfg} (hv : cfg.Valid) (o1 o2 : Own) :
    (∀ {a b : UBig}, a.WF cfg → b.WF cfg → b.value cfg = 0 →
      UBig.div cfg o1 o2 a b = .error .divideByZero ∧
      UBig.rem cfg o1 o2 a b = .error .divideByZero ∧
      UBig.divRem cfg o1 o2 a b = .error .divideByZero ∧
      UBig.divEuclid cfg o1 o2 a b = .error .divideByZero ∧
      UBig.remEuclid cfg o1 o2 a b = .error .divideByZero ∧
      UBig.divRemEuclid cfg o1 o2 a b = .error .divideByZero) ∧
    (∀ {a b : IBig}, a.WF cfg → b.WF cfg → b.value cfg = 0 →
      IBig.div cfg o1 o2 a b = .error .divideByZero ∧
      IBig.rem cfg o1 o2 a b = .error .divideByZero ∧
      IBig.divRem cfg o1 o2 a b = .error .divideByZero ∧
      IBig.divEuclid cfg o1 o2 a b = .error .divideByZero ∧
      IBig.remEuclid cfg o1 o2 a b = .error .divideByZero ∧
      IBig.divRemEuclid cfg o1 o2 a b = .error .divideByZero) ∧
    (∀ {a b : UBig}, a.WF cfg → b.WF cfg → b.value cfg ≠ 0 →
      (∃ c, UBig.div cfg o1 o2 a b = .ok c) ∧ (∃ c, UBig.rem cfg o1 o2 a b = .ok c) ∧
      (∃ c, UBig.divRem cfg o1 o2 a b = .ok c) ∧ (∃ c, UBig.divEuclid cfg o1 o2 a b = .ok c) ∧
      (∃ c, UBig.remEuclid cfg o1 o2 a b = .ok c) ∧
      (∃ c, UBig.divRemEuclid cfg o1 o2 a b = .ok c)) ∧
    (∀ {a b : IBig}, a.WF cfg → b.WF cfg → b.value cfg ≠ 0 →
      (∃ c, IBig.div cfg o1 o2 a b = .ok c) ∧ (∃ c, IBig.rem cfg o1 o2 a b = .ok c) ∧
      (∃ c, IBig.divRem cfg o1 o2 a b = .ok c) ∧ (∃ c, IBig.divEuclid cfg o1 o2 a b = .ok c) ∧
      (∃ c, IBig.remEuclid cfg o1 o2 a b = .ok c) ∧
      (∃ c, IBig.divRemEuclid cfg o1 o2 a b = .ok c)) := by
  refine ⟨fun {a b} ha hb h0 => ?_, fun {a b} ha hb h0 => ?_, fun {a b} ha hb h0 => ?_,
    fun {a b} ha hb h0 => ?_⟩
  · have d := (UBig.div_spec hv o1 o2 ha hb).2 h0
    have r := (UBig.rem_spec hv o1 o2 ha hb).2 h0
    have p := (UBig.divRem_spec hv o1 o2 ha hb).2 h0
    exact ⟨d, r, p, d, r, p⟩
  · exact ⟨(IBig.div_spec hv o1 o2 ha hb).2 h0, (IBig.rem_spec hv o1 o2 ha hb).2 h0,
      (IBig.divRem_spec hv o1 o2 ha hb).2 h0, (IBig.divEuclid_spec hv o1 o2 ha hb).2 h0,
      (IBig.remEuclid_spec hv o1 o2 ha hb).2 h0, (IBig.divRemEuclid_spec hv o1 o2 ha hb).2 h0⟩
  · obtain ⟨d, d', -⟩ := (UBig.div_spec hv o1 o2 ha hb).1 h0
    obtain ⟨r, r', -⟩ := (UBig.rem_spec hv o1 o2 ha hb).1 h0
    obtain ⟨p, p', -⟩ := (UBig.divRem_spec hv o1 o2 ha hb).1 h0
    exact ⟨⟨d, d'⟩, ⟨r, r'⟩, ⟨p, p'⟩, ⟨d, d'⟩, ⟨r, r'⟩, ⟨p, p'⟩⟩
  · obtain ⟨d, d', -⟩ := (IBig.div_spec hv o1 o2 ha hb).1 h0
    obtain ⟨r, r', -⟩ := (IBig.rem_spec hv o1 o2 ha hb).1 h0
    obtain ⟨p, p', -⟩ := (IBig.divRem_spec hv o1 o2 ha hb).1 h0
    obtain ⟨e, e', -⟩ := (IBig.divEuclid_spec hv o1 o2 ha hb).1 h0
    obtain ⟨f, f', -⟩ := (IBig.remEuclid_spec hv o1 o2 ha hb).1 h0
    obtain ⟨g, g', -⟩ := (IBig.divRemEuclid_spec hv o1 o2 ha hb).1 h0
    exact ⟨⟨d, d'⟩, ⟨r, r'⟩, ⟨p, p'⟩, ⟨e, e'⟩, ⟨f, f'⟩, ⟨g, g'⟩⟩

example : UBig.divRem cfg64 .ref .ref exLong (.small 0) = .error .divideByZero :=
  ((C06_div_by_zero cfg64_valid .ref .ref).1 exLong_wf (wf_zero _) rfl).2.2.1

/-- C05, Euclidean forms: for `UBig` they agree with the ordinary ones. -/
theorem C08_ubig_euclid {cfg : Cfg} (hv : cfg.Valid) (o1 o2 : Own) {a b : UBig} (ha : a.WF cfg)
    (hb : b.WF cfg) (h0 : b.value cfg ≠ 0) :
    ∃ q r : UBig, UBig.divEuclid cfg o1 o2 a b = .ok q ∧ UBig.remEuclid cfg o1 o2 a b = .ok r ∧
      q.WF cfg ∧ r.WF cfg ∧
      a.value cfg = q.value cfg * b.value cfg + r.value cfg ∧ r.value cfg < b.value cfg ∧
      ∃ q' r' : UBig, UBig.divRemEuclid cfg o1 o2 a b = .ok (q', r') ∧ q'.WF cfg ∧ r'.WF cfg ∧
        q'.value cfg = q.value cfg ∧ r'.value cfg = r.value cfg :=
  C05_ubig_div hv o1 o2 ha hb h0

/-- The case of a 300-word number divided by a 100-word number. -/
example := C08_ubig_euclid cfg64_valid .ref .val exLong_wf exMid_wf (by decide +kernel)

/-- C07: `IBig` division truncates towards zero. -/
theorem C07_ibig_div {cfg : Cfg} (hv : cfg.Valid) (o1 o2 : Own) {a b : IBig} (ha : a.WF cfg)
    (hb : b.WF cfg) (h0 : b.value cfg ≠ 0) :
    ∃ q r : IBig, IBig.div cfg o1 o2 a b = .ok q ∧ IBig.rem cfg o1 o2 a b = .ok r ∧
      q.WF cfg ∧ r.WF cfg ∧
      a.value cfg = q.value cfg * b.value cfg + r.value cfg ∧
      |r.value cfg| < |b.value cfg| ∧ (r.value cfg = 0 ∨ (r.value cfg).sign = (a.value cfg).sign) ∧
      ∃ q' r' : IBig, IBig.divRem cfg o1 o2 a b = .ok (q', r') ∧ q'.WF cfg ∧ r'.WF cfg ∧
        q'.value cfg = q.value cfg ∧ r'.value cfg = r.value cfg := by
  obtain ⟨q, q1, q2, q3⟩ := (IBig.div_spec hv o1 o2 ha hb).1 h0
  obtain ⟨r, r1, r2, r3⟩ := (IBig.rem_spec hv o1 o2 ha hb).1 h0
  obtain ⟨⟨q', r'⟩, p1, p2, p3, p4, p5⟩ := (IBig.divRem_spec hv o1 o2 ha hb).1 h0
  refine ⟨q, r, q1, r1, q2, r2, ?_, ?_, ?_, q', r', p1, p2, p3, p4.trans q3.symm, p5.trans r3.symm⟩
  · rw [q3, r3]
    have := Int.tmod_add_mul_tdiv (a.value cfg) (b.value cfg)
    linarith
  · rw [r3, Int.abs_eq_natAbs, Int.abs_eq_natAbs, Int.natAbs_tmod]
    exact_mod_cast Nat.mod_lt _ (Int.natAbs_pos.mpr h0)
  · rw [r3]
    have hn := Int.natAbs_tmod (a.value cfg) (b.value cfg)
    by_cases hz : (a.value cfg).tmod (b.value cfg) = 0
    · exact .inl hz
    · right
      rcases le_or_gt 0 (a.value cfg) with h | h
      · have h1 := Int.tmod_nonneg (b.value cfg) h
        have h2 : a.value cfg ≠ 0 := by
          intro e; rw [e] at hz; simp at hz
        rw [Int.sign_eq_one_of_pos (by omega), Int.sign_eq_one_of_pos (by omega)]
      · have h1 : (a.value cfg).tmod (b.value cfg) ≤ 0 := by
          have := Int.tmod_nonneg (b.value cfg) (a := -a.value cfg) (by omega)
          rw [Int.neg_tmod] at this
          omega
        rw [Int.sign_eq_neg_one_of_neg (by omega), Int.sign_eq_neg_one_of_neg (by omega)]

/-- The case of a negative dividend. -/
example := C07_ibig_div cfg64_valid .val .ref exNegA_wf exPosB_wf (by decide +kernel)

example : IBig.divRem cfg64 .val .ref exNegA exPosB =
    .ok (⟨.neg, .small (2 ^ 64 - 5)⟩, ⟨.neg, .small 24⟩) := by decide +kernel
example : exPosB.value cfg64 ≠ 0 := by decide +kernel

/-- C08: Euclidean division of `IBig`: the remainder is never negative. -/
theorem C08_ibig_euclid {cfg : Cfg} (hv : cfg.Valid) (o1 o2 : Own) {a b : IBig} (ha : a.WF cfg)
    (hb : b.WF cfg) (h0 : b.value cfg ≠ 0) :
    ∃ q r : IBig, IBig.divEuclid cfg o1 o2 a b = .ok q ∧ IBig.remEuclid cfg o1 o2 a b = .ok r ∧
      q.WF cfg ∧ r.WF cfg ∧
      a.value cfg = q.value cfg * b.value cfg + r.value cfg ∧
      0 ≤ r.value cfg ∧ r.value cfg < |b.value cfg| ∧
      ∃ q' r' : IBig, IBig.divRemEuclid cfg o1 o2 a b = .ok (q', r') ∧ q'.WF cfg ∧ r'.WF cfg ∧
        q'.value cfg = q.value cfg ∧ r'.value cfg = r.value cfg := by
  obtain ⟨q, q1, q2, q3⟩ := (IBig.divEuclid_spec hv o1 o2 ha hb).1 h0
  obtain ⟨r, r1, r2, r3⟩ := (IBig.remEuclid_spec hv o1 o2 ha hb).1 h0
  obtain ⟨⟨q', r'⟩, p1, p2, p3, p4, p5⟩ := (IBig.divRemEuclid_spec hv o1 o2 ha hb).1 h0
  refine ⟨q, r, q1, r1, q2, r2, ?_, ?_, ?_, q', r', p1, p2, p3, p4.trans q3.symm, p5.trans r3.symm⟩
  · rw [q3, r3]
    have := Int.emod_add_mul_ediv (a.value cfg) (b.value cfg)
    linarith
  · rw [r3]; exact Int.emod_nonneg _ h0
  · rw [r3]; exact Int.emod_lt_abs _ h0

/-- The case of a negative dividend and a negative divisor. -/
example := C08_ibig_euclid cfg64_valid .val .ref exNegA_wf exNegB_wf (by decide +kernel)

example : IBig.divRemEuclid cfg64 .ref .ref exNegA exNegB =
    .ok (⟨.pos, .small (2 ^ 64 - 4)⟩, ⟨.pos, .small (2 ^ 64 - 19)⟩) := by decide +kernel

end Ibig
