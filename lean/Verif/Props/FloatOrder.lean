import Verif.Proofs.FloatOrder
import Verif.Props.Float
/-!
# Property C72: conversions to floating point keep the order, are exact where they can be, and have a
# relative error of at most half a unit in the last place

`FloatFmt.number` (`Spec/FloatOrder.lean`) is the number a bit pattern stands for: a rational, plus infinity
(`⊤`) or minus infinity (`⊥`). -/
namespace Ibig

theorem FloatFmt.number_nearest {f : FloatFmt} {z : Int} {x : Nat} (h : f.NearestInt z x) :
    ∃ b, f.Nearest z.natAbs b ∧
      f.number x = if b < f.inf then ofRat (if z < 0 then -f.toRat b else f.toRat b)
        else if z < 0 then ⊥ else ((⊤ : WithTop ℚ) : WithBot (WithTop ℚ)) := by
  obtain ⟨b, rfl, hb⟩ := h
  refine ⟨b, hb, ?_⟩
  have := hb.top_le
  have := f.inf_lt_signBit
  unfold FloatFmt.number ofRat
  by_cases hz : z < 0
  · simp only [if_pos hz]
    rw [if_neg (by omega), Nat.add_sub_cancel_left]
  · simp only [if_neg hz]
    rw [if_pos (by omega)]

theorem ofRat_le {p q : ℚ} : ofRat p ≤ ofRat q ↔ p ≤ q := by
  unfold ofRat
  rw [WithBot.coe_le_coe, WithTop.coe_le_coe]

theorem FloatFmt.NearestInt.mono {f : FloatFmt} {z w : Int} {x y : Nat} (hx : f.NearestInt z x)
    (hy : f.NearestInt w y) (h : z ≤ w) : f.number x ≤ f.number y := by
  obtain ⟨b, hb, ex⟩ := number_nearest hx
  obtain ⟨c, hc, ey⟩ := number_nearest hy
  rw [ex, ey]
  have mono : ∀ {n m b c : Nat}, f.Nearest n b → f.Nearest m c → n ≤ m → b ≤ c := by
    intro n m b c h1 h2 h
    rcases Nat.lt_or_eq_of_le h with h | rfl
    · exact h1.mono h2 h
    · exact (C19_unique h1 h2).le
  have rm : ∀ {b c : Nat}, b ≤ c → f.toRat b ≤ f.toRat c := fun h => f.toRat_strictMono.monotone h
  by_cases hz : z < 0 <;> by_cases hw : w < 0
  · have hcb := mono hc hb (by omega)
    simp only [if_pos hz, if_pos hw]
    by_cases h1 : b < f.inf
    · rw [if_pos h1, if_pos (by omega), ofRat_le]
      exact neg_le_neg (rm hcb)
    · rw [if_neg h1]; exact bot_le
  · simp only [if_pos hz, if_neg hw]
    by_cases h1 : b < f.inf
    · rw [if_pos h1]
      by_cases h2 : c < f.inf
      · rw [if_pos h2, ofRat_le]
        have := f.toRat_nonneg b
        have := f.toRat_nonneg c
        linarith
      · rw [if_neg h2]; exact WithBot.coe_le_coe.mpr le_top
    · rw [if_neg h1]; exact bot_le
  · omega
  · have hbc := mono hb hc (by omega)
    simp only [if_neg hz, if_neg hw]
    by_cases h2 : c < f.inf
    · rw [if_pos (by omega), if_pos h2, ofRat_le]
      exact rm hbc
    · rw [if_neg h2]
      by_cases h1 : b < f.inf
      · rw [if_pos h1]; exact WithBot.coe_le_coe.mpr le_top
      · rw [if_neg h1]

theorem FloatFmt.NearestInt.exact {f : FloatFmt} (hf : f.OK) {z : Int} {x k j : Nat} (hx : f.NearestInt z x)
    (hz : z.natAbs = k * 2 ^ j) (hk : k < 2 ^ (f.mant + 1)) (hn : z.natAbs < 2 ^ (f.bias + 1)) :
    f.number x = ofRat z := by
  obtain ⟨b, hb, ex⟩ := number_nearest hx
  rw [hz] at hb hn
  obtain ⟨h1, h2⟩ := FloatFmt.Nearest.exact hf hk hn hb
  rw [ex, if_pos h1, h2, ← hz]
  congr 1
  rw [Nat.cast_natAbs, Int.cast_abs]
  by_cases h : z < 0
  · have hq : (z : ℚ) < 0 := by exact_mod_cast h
    rw [if_pos h, abs_of_neg hq, neg_neg]
  · have hq : (0 : ℚ) ≤ z := by exact_mod_cast Int.not_lt.mp h
    rw [if_neg h, abs_of_nonneg hq]

theorem FloatFmt.NearestInt.error {f : FloatFmt} (hf : f.OK) {z : Int} {x : Nat} (hx : f.NearestInt z x)
    (hn : z.natAbs < f.overflow) :
    ∃ q : ℚ, f.number x = ofRat q ∧ |q - z| ≤ |(z : ℚ)| / 2 ^ (f.mant + 1) := by
  obtain ⟨b, hb, ex⟩ := number_nearest hx
  rw [if_pos (hb.1 hn).1] at ex
  refine ⟨_, ex, ?_⟩
  rw [le_div_iff₀ (by positivity)]
  have he := FloatFmt.Nearest.error hf hn hb
  have e1 : ((z.natAbs : Nat) : ℚ) = |(z : ℚ)| := by rw [Nat.cast_natAbs, Int.cast_abs]
  rw [e1] at he
  by_cases h : z < 0
  · have hq : (z : ℚ) < 0 := by exact_mod_cast h
    rw [if_pos h]
    rw [show -f.toRat b - (z : ℚ) = -(f.toRat b - |(z : ℚ)|) by rw [abs_of_neg hq]; ring, abs_neg]
    exact he
  · have hq : (0 : ℚ) ≤ z := by exact_mod_cast Int.not_lt.mp h
    rw [if_neg h]
    rwa [abs_of_nonneg hq] at he ⊢

/-- `to_f32` and `to_f64` of an `IBig`, in terms of `NearestInt`. -/
theorem IBig.toFloat_nearest {cfg : Cfg} (hv : cfg.Valid) {a : IBig} (ha : a.WF cfg) :
    (∃ x, a.toF32 cfg = .ok x ∧ f32.NearestInt (a.value cfg) x) ∧
    (∃ x, a.toF64 cfg = .ok x ∧ f64.NearestInt (a.value cfg) x) := by
  obtain ⟨⟨b, h1, h2⟩, c, h3, h4⟩ := C19_ibig_to_float hv ha
  have e1 : f32.signBit = 2 ^ 31 := by decide +kernel
  have e2 : f64.signBit = 2 ^ 63 := by decide +kernel
  exact ⟨⟨_, h1, b, by rw [e1], h2⟩, _, h3, c, by rw [e2], h4⟩

/-- `to_f32` and `to_f64` of a `UBig`, in terms of `NearestInt`. -/
theorem UBig.toFloat_nearest {cfg : Cfg} (hv : cfg.Valid) {a : UBig} (ha : a.WF cfg) :
    (∃ x, a.toF32 cfg = .ok x ∧ f32.NearestInt (a.value cfg : Int) x) ∧
    (∃ x, a.toF64 cfg = .ok x ∧ f64.NearestInt (a.value cfg : Int) x) := by
  obtain ⟨⟨b, h1, h2⟩, c, h3, h4⟩ := C19_ubig_to_float hv ha
  exact ⟨⟨_, h1, b, by rw [if_neg (by omega)], by simpa using h2⟩,
    _, h3, c, by rw [if_neg (by omega)], by simpa using h4⟩

/-- C72: the conversions never swap the order of two integers. -/
theorem C72_monotone {cfg : Cfg} (hv : cfg.Valid) :
    (∀ {a b : UBig}, a.WF cfg → b.WF cfg → a.value cfg ≤ b.value cfg →
      (∃ x y, a.toF32 cfg = .ok x ∧ b.toF32 cfg = .ok y ∧ f32.number x ≤ f32.number y) ∧
      (∃ x y, a.toF64 cfg = .ok x ∧ b.toF64 cfg = .ok y ∧ f64.number x ≤ f64.number y)) ∧
    (∀ {a b : IBig}, a.WF cfg → b.WF cfg → a.value cfg ≤ b.value cfg →
      (∃ x y, a.toF32 cfg = .ok x ∧ b.toF32 cfg = .ok y ∧ f32.number x ≤ f32.number y) ∧
      (∃ x y, a.toF64 cfg = .ok x ∧ b.toF64 cfg = .ok y ∧ f64.number x ≤ f64.number y)) := by
  constructor
  · intro a b ha hb h
    obtain ⟨⟨x, x1, x2⟩, x', x3, x4⟩ := UBig.toFloat_nearest hv ha
    obtain ⟨⟨y, y1, y2⟩, y', y3, y4⟩ := UBig.toFloat_nearest hv hb
    exact ⟨⟨x, y, x1, y1, x2.mono y2 (by exact_mod_cast h)⟩, x', y', x3, y3, x4.mono y4 (by exact_mod_cast h)⟩
  · intro a b ha hb h
    obtain ⟨⟨x, x1, x2⟩, x', x3, x4⟩ := IBig.toFloat_nearest hv ha
    obtain ⟨⟨y, y1, y2⟩, y', y3, y4⟩ := IBig.toFloat_nearest hv hb
    exact ⟨⟨x, y, x1, y1, x2.mono y2 h⟩, x', y', x3, y3, x4.mono y4 h⟩

/-- Two negative two-word integers; two positive ones. -/
example := (C72_monotone cfg64_valid).2 exNegA_wf exNegB_wf (by decide +kernel)
example : ∃ x y, exB.toF64 cfg64 = .ok x ∧ exA.toF64 cfg64 = .ok y ∧ f64.number x ≤ f64.number y :=
  ((C72_monotone cfg64_valid).1 exB_wf exA_wf (by decide +kernel)).2

/-- C72: an integer with at most 24 (53) significant bits that is below `2^128` (`2^1024`) is converted to
`f32` (`f64`) exactly. -/
theorem C72_exact {cfg : Cfg} (hv : cfg.Valid) :
    (∀ {a : UBig}, a.WF cfg → ∀ {k j : Nat}, a.value cfg = k * 2 ^ j →
      (k < 2 ^ 24 → a.value cfg < 2 ^ 128 → ∃ x, a.toF32 cfg = .ok x ∧ f32.number x = ofRat (a.value cfg)) ∧
      (k < 2 ^ 53 → a.value cfg < 2 ^ 1024 → ∃ x, a.toF64 cfg = .ok x ∧ f64.number x = ofRat (a.value cfg))) ∧
    (∀ {a : IBig}, a.WF cfg → ∀ {k j : Nat}, (a.value cfg).natAbs = k * 2 ^ j →
      (k < 2 ^ 24 → (a.value cfg).natAbs < 2 ^ 128 →
        ∃ x, a.toF32 cfg = .ok x ∧ f32.number x = ofRat (a.value cfg)) ∧
      (k < 2 ^ 53 → (a.value cfg).natAbs < 2 ^ 1024 →
        ∃ x, a.toF64 cfg = .ok x ∧ f64.number x = ofRat (a.value cfg))) := by
  constructor
  · intro a ha k j h
    obtain ⟨⟨x, x1, x2⟩, x', x3, x4⟩ := UBig.toFloat_nearest hv ha
    refine ⟨fun hk hn => ⟨x, x1, ?_⟩, fun hk hn => ⟨x', x3, ?_⟩⟩
    · exact_mod_cast x2.exact f32_ok (k := k) (j := j) (by rwa [Int.natAbs_natCast]) hk
        (by rw [Int.natAbs_natCast]; exact hn)
    · exact_mod_cast x4.exact f64_ok (k := k) (j := j) (by rwa [Int.natAbs_natCast]) hk
        (by rw [Int.natAbs_natCast]; exact hn)
  · intro a ha k j h
    obtain ⟨⟨x, x1, x2⟩, x', x3, x4⟩ := IBig.toFloat_nearest hv ha
    exact ⟨fun hk hn => ⟨x, x1, x2.exact f32_ok h hk hn⟩, fun hk hn => ⟨x', x3, x4.exact f64_ok h hk hn⟩⟩

/-- `2^65` on a 64-bit build -/
example : ∃ x, (bigOf [0, 2]).toF32 cfg64 = .ok x ∧ f32.number x = ofRat ((bigOf [0, 2]).value cfg64) :=
  (@(C72_exact cfg64_valid).1 (bigOf [0, 2]) (bigOf_wf _ (by decide +kernel)) 1 65 (by decide +kernel)).1
    (by decide) (by decide +kernel)

/-- C72: an integer below the overflow threshold is converted to a finite float whose relative error is at
most `2^-24` (`2^-53`). -/
theorem C72_error {cfg : Cfg} (hv : cfg.Valid) :
    (∀ {a : UBig}, a.WF cfg →
      (a.value cfg < 2 ^ 128 - 2 ^ 103 → ∃ x q, a.toF32 cfg = .ok x ∧ f32.number x = ofRat q ∧
        |q - a.value cfg| ≤ (a.value cfg : ℚ) / 2 ^ 24) ∧
      (a.value cfg < 2 ^ 1024 - 2 ^ 970 → ∃ x q, a.toF64 cfg = .ok x ∧ f64.number x = ofRat q ∧
        |q - a.value cfg| ≤ (a.value cfg : ℚ) / 2 ^ 53)) ∧
    (∀ {a : IBig}, a.WF cfg →
      ((a.value cfg).natAbs < 2 ^ 128 - 2 ^ 103 → ∃ x q, a.toF32 cfg = .ok x ∧ f32.number x = ofRat q ∧
        |q - a.value cfg| ≤ |(a.value cfg : ℚ)| / 2 ^ 24) ∧
      ((a.value cfg).natAbs < 2 ^ 1024 - 2 ^ 970 → ∃ x q, a.toF64 cfg = .ok x ∧ f64.number x = ofRat q ∧
        |q - a.value cfg| ≤ |(a.value cfg : ℚ)| / 2 ^ 53)) := by
  have e1 : f32.overflow = 2 ^ 128 - 2 ^ 103 := by decide +kernel
  have e2 : f64.overflow = 2 ^ 1024 - 2 ^ 970 := by decide +kernel
  constructor
  · intro a ha
    obtain ⟨⟨x, x1, x2⟩, x', x3, x4⟩ := UBig.toFloat_nearest hv ha
    refine ⟨fun hn => ?_, fun hn => ?_⟩
    · obtain ⟨q, h1, h2⟩ := x2.error f32_ok (by rw [e1]; simpa using hn)
      refine ⟨x, q, x1, h1, ?_⟩
      rw [Int.cast_natCast, abs_of_nonneg (show (0 : ℚ) ≤ a.value cfg from Nat.cast_nonneg _)] at h2
      exact h2
    · obtain ⟨q, h1, h2⟩ := x4.error f64_ok (by rw [e2]; simpa using hn)
      refine ⟨x', q, x3, h1, ?_⟩
      rw [Int.cast_natCast, abs_of_nonneg (show (0 : ℚ) ≤ a.value cfg from Nat.cast_nonneg _)] at h2
      exact h2
  · intro a ha
    obtain ⟨⟨x, x1, x2⟩, x', x3, x4⟩ := IBig.toFloat_nearest hv ha
    refine ⟨fun hn => ?_, fun hn => ?_⟩
    · obtain ⟨q, h1, h2⟩ := x2.error f32_ok (by rw [e1]; exact hn)
      exact ⟨x, q, x1, h1, h2⟩
    · obtain ⟨q, h1, h2⟩ := x4.error f64_ok (by rw [e2]; exact hn)
      exact ⟨x', q, x3, h1, h2⟩

/-- `-(2^64 + 5)` -/
example := ((C72_error cfg64_valid).2 exNegB_wf).1 (by decide +kernel)
/-- `2^128 - 1` is too large for `f32`, but not for `f64`. -/
example := ((C72_error cfg64_valid).1 exA_wf).2 (by decide +kernel)

end Ibig
