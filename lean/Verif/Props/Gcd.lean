import Verif.Proofs.ExtGcd
import Verif.Proofs.GcdLimit
import Verif.Spec.Examples
import Verif.Spec.ExamplesModular
/-!
# Properties C24 and C25: greatest common divisors
-/
namespace Ibig

/-- C24: `UBig::gcd` returns the greatest common divisor; `gcd(0, 0)` panics. -/
theorem C24_ubig_gcd {cfg : Cfg} (hv : cfg.Valid) {a b : UBig} (ha : a.WF cfg) (hb : b.WF cfg) :
    (¬(a.value cfg = 0 ∧ b.value cfg = 0) → ∃ g, a.gcd cfg b = .ok g ∧ g.WF cfg ∧
      g.value cfg = Nat.gcd (a.value cfg) (b.value cfg)) ∧
    (a.value cfg = 0 → b.value cfg = 0 → a.gcd cfg b = .error .gcdZero) :=
  ⟨fun h => (UBig.gcd_spec hv ha hb).1 (by omega), (UBig.gcd_spec hv ha hb).2⟩

/-- A 300-word number and a 100-word number; a two-word number and zero. -/
example := (C24_ubig_gcd cfg64_valid exLong_wf exMid_wf).1 (by decide +kernel)

/-- C24: `IBig::gcd` -/
theorem C24_ibig_gcd {cfg : Cfg} (hv : cfg.Valid) {a b : IBig} (ha : a.WF cfg) (hb : b.WF cfg) :
    (¬(a.value cfg = 0 ∧ b.value cfg = 0) → ∃ g, a.gcd cfg b = .ok g ∧ g.WF cfg ∧
      g.value cfg = (Int.gcd (a.value cfg) (b.value cfg) : Int)) ∧
    (a.value cfg = 0 → b.value cfg = 0 → a.gcd cfg b = .error .gcdZero) := by
  have e1 := IBig.natAbs_value (cfg := cfg) a
  have e2 := IBig.natAbs_value (cfg := cfg) b
  obtain ⟨h1, h2⟩ := UBig.gcd_spec hv ha.mag hb.mag
  unfold IBig.gcd
  refine ⟨fun h => ?_, fun h h' => ?_⟩
  · refine Returns.bind (h1 (by omega)) ?_
    rintro g ⟨wg, vg⟩
    obtain ⟨g1, g2⟩ := IBig.ofUBig_spec hv wg
    exact returns_ok.mpr ⟨g1, by rw [g2, vg, ← e1, ← e2]; rfl⟩
  · rw [h2 (by omega) (by omega)]; rfl

/-- A negative and a positive integer. -/
example := (C24_ibig_gcd cfg64_valid exNegA_wf exPosB_wf).1 (by decide +kernel)

example : (UBig.small 12).gcd cfg64 (.small 18) = .ok (.small 6) ∧
    exA.gcd cfg64 (.large ⟨[0, 6], 4⟩) = .ok (.small 3) ∧
    (UBig.small 0).gcd cfg64 (.small 0) = .error .gcdZero := by decide +kernel

/-- C25: `UBig::extended_gcd` returns the greatest common divisor with Bézout coefficients within the
documented bounds. (Its intermediate values are up to twice its arguments: for arguments within a factor
of two of the size limit it may panic with "number too large" instead.) -/
theorem C25_ubig_extended_gcd {cfg : Cfg} (hv : cfg.Valid) {a b : UBig} (ha : a.WF cfg) (hb : b.WF cfg) :
    (¬(a.value cfg = 0 ∧ b.value cfg = 0) →
      (∃ g x y, a.extendedGcd cfg b = .ok (g, x, y) ∧ g.WF cfg ∧ x.WF cfg ∧ y.WF cfg ∧
        Bezout (g.value cfg) (x.value cfg) (y.value cfg) (a.value cfg) (b.value cfg)) ∨
      (a.extendedGcd cfg b = .error .tooLarge ∧ ¬Fits cfg (2 * max (a.value cfg) (b.value cfg)))) ∧
    (a.value cfg = 0 → b.value cfg = 0 → a.extendedGcd cfg b = .error .gcdZero) := by
  obtain ⟨h1, h2⟩ := UBig.extendedGcd_spec hv ha hb
  refine ⟨fun h => ?_, h2⟩
  rcases h1 (by omega) with ⟨⟨g, x, y⟩, e, w1, w2, w3, w4⟩ | h
  · exact Or.inl ⟨g, x, y, e, w1, w2, w3, w4⟩
  · exact Or.inr h

/-- Two two-word numbers: far from the size limit, so there is an answer. -/
example := ((C25_ubig_extended_gcd cfg64_valid exA_wf exB_wf).1 (by decide +kernel)).resolve_right
  fun h => h.2 (fitsEx 130 (by decide +kernel) (by decide))

/-- C25, at the size limit: the exception is real. There are numbers `a`, `b` (the two largest ones) for which
`extended_gcd` panics with "number too large", although their greatest common divisor 1 has the coefficients -1 and 1. -/
theorem C25_size_limit {cfg : Cfg} (hv : cfg.Valid) :
    ∃ a b : UBig, a.WF cfg ∧ b.WF cfg ∧ a.value cfg ≠ 0 ∧ b.value cfg = a.value cfg + 1 ∧
      a.extendedGcd cfg b = .error .tooLarge := by
  obtain ⟨h1, h2⟩ := UBig.max_spec hv
  have hb1 : 1 < base cfg.W := by rw [base_eq]; exact Nat.one_lt_two_pow (by have := hv.W1; omega)
  have h3 : 3 ≤ cfg.maxLen * cfg.W := by
    have := hv.large
    have := hv.W16
    nlinarith
  have h4 : 2 ^ 3 ≤ 2 ^ (cfg.maxLen * cfg.W) := Nat.pow_le_pow_right (by norm_num) h3
  obtain ⟨a, -, ha, va⟩ := ((UBig.sub_spec hv .ref .val h1 (wf_small hb1)).1 (by show 1 ≤ _; omega)).returns
    ((h1.fits hv).mono (Nat.sub_le _ _))
  have va' : a.value cfg = (UBig.max cfg).value cfg - 1 := va
  exact ⟨a, UBig.max cfg, ha, h1, by omega, by omega, UBig.extendedGcd_limit hv ha h1 (by omega) h2⟩

/-- On a 64-bit build. -/
example := C25_size_limit cfg64_valid

theorem IBig.mulSign_spec {cfg : Cfg} (hv : cfg.Valid) (s : Sign) {x : IBig} (hx : x.WF cfg) :
    (IBig.mulSign s x).WF cfg ∧ (IBig.mulSign s x).value cfg = s.toInt * x.value cfg := by
  obtain ⟨h1, h2⟩ := IBig.fromSignMagnitude_spec hv (s.mul x.sign) hx.mag
  refine ⟨h1, ?_⟩
  rw [IBig.mulSign, h2, Sign.mul_toInt, IBig.value_def, mul_assoc]

/-- C25: `IBig::extended_gcd`: `x*a + y*b = g` with `|x| ≤ max(|b|, 1)` and `|y| ≤ max(|a|, 1)`. -/
theorem C25_ibig_extended_gcd {cfg : Cfg} (hv : cfg.Valid) {a b : IBig} (ha : a.WF cfg) (hb : b.WF cfg) :
    (¬(a.value cfg = 0 ∧ b.value cfg = 0) →
      (∃ g x y, a.extendedGcd cfg b = .ok (g, x, y) ∧ g.WF cfg ∧ x.WF cfg ∧ y.WF cfg ∧
        g.value cfg = (Int.gcd (a.value cfg) (b.value cfg) : Int) ∧
        x.value cfg * a.value cfg + y.value cfg * b.value cfg = g.value cfg ∧
        (x.value cfg).natAbs ≤ max (b.value cfg).natAbs 1 ∧
        (y.value cfg).natAbs ≤ max (a.value cfg).natAbs 1) ∨
      (a.extendedGcd cfg b = .error .tooLarge ∧
        ¬Fits cfg (2 * max (a.value cfg).natAbs (b.value cfg).natAbs))) ∧
    (a.value cfg = 0 → b.value cfg = 0 → a.extendedGcd cfg b = .error .gcdZero) := by
  have e1 := IBig.natAbs_value (cfg := cfg) a
  have e2 := IBig.natAbs_value (cfg := cfg) b
  obtain ⟨h1, h2⟩ := UBig.extendedGcd_spec hv ha.mag hb.mag
  unfold IBig.extendedGcd
  refine ⟨fun h => ?_, fun h h' => ?_⟩
  · rcases h1 (by omega) with ⟨⟨g, x, y⟩, e, w1, w2, w3, w4⟩ | ⟨e, h⟩
    · left
      simp only at w1 w2 w3 w4
      obtain ⟨g1, g2⟩ := IBig.ofUBig_spec hv w1
      obtain ⟨x1, x2⟩ := IBig.mulSign_spec hv a.sign w2
      obtain ⟨y1, y2⟩ := IBig.mulSign_spec hv b.sign w3
      have sq : ∀ s : Sign, s.toInt * s.toInt = 1 := by intro s; cases s <;> rfl
      have ab : ∀ s : Sign, s.toInt.natAbs = 1 := by intro s; cases s <;> rfl
      refine ⟨_, _, _, by rw [e]; rfl, g1, x1, y1, ?_, ?_, ?_, ?_⟩
      · rw [g2, w4.gcd, ← e1, ← e2]; rfl
      · rw [g2, x2, y2, ← w4.eq, IBig.value_def (cfg := cfg) a, IBig.value_def (cfg := cfg) b]
        linear_combination (x.value cfg * a.mag.value cfg) * sq a.sign +
          (y.value cfg * b.mag.value cfg) * sq b.sign
      · rw [x2, Int.natAbs_mul, ab, one_mul, e2]; exact w4.x_le
      · rw [y2, Int.natAbs_mul, ab, one_mul, e1]; exact w4.y_le
    · right
      rw [e, e1, e2]
      exact ⟨rfl, h⟩
  · rw [h2 (by omega) (by omega)]; rfl

/-- A negative and a positive integer. -/
example := ((C25_ibig_extended_gcd cfg64_valid exNegA_wf exPosB_wf).1 (by decide +kernel)).resolve_right
  fun h => h.2 (fitsEx 130 (by decide +kernel) (by decide))

example : (UBig.small 12).extendedGcd cfg64 (.small 18) =
    .ok (.small 6, ⟨.pos, .small 8⟩, ⟨.neg, .small 5⟩) := by decide +kernel
example : Bezout 6 8 (-5) 12 18 := ⟨by decide, by decide, by decide, by decide⟩
/-- the example is far from the size limit -/
example : Fits cfg64 (2 * max (exA.value cfg64) (exB.value cfg64)) := by
  unfold Fits
  refine lt_of_lt_of_le (b := 2 ^ 129) (by decide +kernel) (Nat.pow_le_pow_right (by omega) (by decide +kernel))

end Ibig
