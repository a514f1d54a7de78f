import Verif.Proofs.ExtGcdCost
import Verif.Props.ShiftTime
import Verif.Props.Gcd
/-!
C68: how long greatest common divisors take.

`Timed.UBig.gcd`, … (Model/GcdTime.lean) run the functions and count steps, like `Timed.UBig.mul` (C60).
-/
namespace Ibig

/-- C68: counting steps does not change what the functions return. -/
theorem C68_same_result (cfg : Cfg) :
    (∀ a b : UBig, (Timed.UBig.gcd cfg a b).result = UBig.gcd cfg a b ∧
      (Timed.UBig.extendedGcd cfg a b).result = UBig.extendedGcd cfg a b) ∧
    (∀ a b : IBig, (Timed.IBig.gcd cfg a b).result = IBig.gcd cfg a b ∧
      (Timed.IBig.extendedGcd cfg a b).result = IBig.extendedGcd cfg a b) :=
  ⟨fun a b => ⟨Timed.UBig.gcd_result cfg a b, Timed.UBig.extendedGcd_result cfg a b⟩,
   fun a b => ⟨Timed.IBig.gcd_result cfg a b, Timed.IBig.extendedGcd_result cfg a b⟩⟩

/-- The words of the numbers are counted by bits, so a constant that depends on the word size `W` is left in. -/
theorem Timed.gcdCost_real (W n m : ℕ) : (Timed.gcdCost W n m : ℝ) ≤
    84 * (min n m : ℕ) ^ 2 * W + 210 * (max n m : ℕ) * ((min n m : ℕ) : ℝ) ^ (0.47 : ℝ) + 55 * (n + m) := by
  have h1 : (⌊Timed.divBound (max n m) (min n m)⌋₊ : ℝ) ≤ Timed.divBound (max n m) (min n m) :=
    Nat.floor_le (by unfold Timed.divBound; positivity)
  have h2 : Timed.divBound (max n m) (min n m) =
      210 * (max n m : ℕ) * ((min n m : ℕ) : ℝ) ^ (0.47 : ℝ) := by
    unfold Timed.divBound
    rw [Nat.min_eq_right (show min n m ≤ max n m by omega)]
    norm_num
  have h3 := h1.trans_eq h2
  unfold Timed.gcdCost
  push_cast at h3 ⊢
  linarith

/-- C68: the greatest common divisor of numbers of `n` and `m` words (of `W` bits) takes at most
`84 min(n, m)² W + 210 max(n, m) min(n, m)^0.47 + 55 (n + m)` steps: one division, then quadratic in the shorter number.
-/
theorem C68_ubig_gcd {cfg : Cfg} (hv : cfg.Valid) {a b : UBig} (ha : a.WF cfg) (hb : b.WF cfg) {n m : ℕ} (hn : 1 ≤ n)
    (hm : 1 ≤ m) (han : a.value cfg < 2 ^ (n * cfg.W)) (hbm : b.value cfg < 2 ^ (m * cfg.W))
    (h0 : ¬(a.value cfg = 0 ∧ b.value cfg = 0)) :
    ∃ g k, Timed.UBig.gcd cfg a b = .ok (g, k) ∧ UBig.gcd cfg a b = .ok g ∧
      g.value cfg = Nat.gcd (a.value cfg) (b.value cfg) ∧
      (k : ℝ) ≤ 84 * (min n m : ℕ) ^ 2 * cfg.W + 210 * (max n m : ℕ) * ((min n m : ℕ) : ℝ) ^ (0.47 : ℝ) +
        55 * (n + m) := by
  obtain ⟨g, h1, -, h2⟩ := (UBig.gcd_spec hv ha hb).1 (by omega)
  obtain ⟨k, hk, h3⟩ := Timed.bounded (Timed.takes_ugcd hv ha hb hn hm han hbm) (Timed.UBig.gcd_result cfg a b)
    (le_refl _) g h1
  exact ⟨g, k, hk, h1, h2, (Nat.cast_le.mpr h3).trans (Timed.gcdCost_real _ _ _)⟩

/-- C68 for `IBig::gcd`. -/
theorem C68_ibig_gcd {cfg : Cfg} (hv : cfg.Valid) {a b : IBig} (ha : a.WF cfg) (hb : b.WF cfg) {n m : ℕ} (hn : 1 ≤ n)
    (hm : 1 ≤ m) (han : |a.value cfg| < 2 ^ (n * cfg.W)) (hbm : |b.value cfg| < 2 ^ (m * cfg.W)) (g : IBig)
    (hg : IBig.gcd cfg a b = .ok g) :
    ∃ k, Timed.IBig.gcd cfg a b = .ok (g, k) ∧
      (k : ℝ) ≤ 84 * (min n m : ℕ) ^ 2 * cfg.W + 210 * (max n m : ℕ) * ((min n m : ℕ) : ℝ) ^ (0.47 : ℝ) +
        55 * (n + m) := by
  obtain ⟨k, hk, h3⟩ := Timed.bounded
    (Timed.takes_igcd hv ha.mag hb.mag hn hm (a.mag_lt n han) (b.mag_lt m hbm)) (Timed.IBig.gcd_result cfg a b)
    (le_refl _) g hg
  exact ⟨k, hk, (Nat.cast_le.mpr h3).trans (Timed.gcdCost_real _ _ _)⟩

/-- C68: `extended_gcd` of numbers of `n` and `m` words (of `W` bits) takes at most `528 (n + m) min(n, m) W` steps. -/
theorem C68_extended_gcd {cfg : Cfg} (hv : cfg.Valid) :
    (∀ {a b : UBig}, a.WF cfg → b.WF cfg → ∀ {n m : ℕ}, 1 ≤ n → 1 ≤ m → a.value cfg < 2 ^ (n * cfg.W) →
      b.value cfg < 2 ^ (m * cfg.W) → ∀ r, UBig.extendedGcd cfg a b = .ok r →
      ∃ k, Timed.UBig.extendedGcd cfg a b = .ok (r, k) ∧ k ≤ 528 * (n + m) * min n m * cfg.W) ∧
    (∀ {a b : IBig}, a.WF cfg → b.WF cfg → ∀ {n m : ℕ}, 1 ≤ n → 1 ≤ m → |a.value cfg| < 2 ^ (n * cfg.W) →
      |b.value cfg| < 2 ^ (m * cfg.W) → ∀ r, IBig.extendedGcd cfg a b = .ok r →
      ∃ k, Timed.IBig.extendedGcd cfg a b = .ok (r, k) ∧ k ≤ 528 * (n + m) * min n m * cfg.W) :=
  ⟨fun ha hb _ _ hn hm han hbm r => Timed.bounded (Timed.takes_uextendedGcd hv ha hb hn hm han hbm)
      (Timed.UBig.extendedGcd_result ..) (Timed.extGcdCost_le hv.W16 hn hm) r,
   fun {a b} ha hb n m hn hm han hbm r => Timed.bounded
      (Timed.takes_iextendedGcd hv ha.mag hb.mag hn hm (a.mag_lt n han) (b.mag_lt m hbm))
      (Timed.IBig.extendedGcd_result ..) (Timed.extGcdCost_le hv.W16 hn hm) r⟩

/-- Numbers of one word and of two words. -/
example : (Timed.UBig.gcd cfg64 (.small 12) (.small 18)).steps = some 42 ∧
    (Timed.UBig.extendedGcd cfg64 (.small 12) (.small 18)).steps = some 373 ∧
    (Timed.UBig.gcd cfg64 exA exB).steps = some 249 ∧
    (Timed.UBig.extendedGcd cfg64 exA exB).steps = some 18015 := by decide +kernel
example : ∃ g k, Timed.UBig.gcd cfg64 exLong exMid = .ok (g, k) ∧ UBig.gcd cfg64 exLong exMid = .ok g ∧
    g.value cfg64 = Nat.gcd (exLong.value cfg64) (exMid.value cfg64) ∧
    (k : ℝ) ≤ 84 * (min 300 100 : ℕ) ^ 2 * cfg64.W + 210 * (max 300 100 : ℕ) * ((min 300 100 : ℕ) : ℝ) ^ (0.47 : ℝ) +
      55 * ((300 : ℕ) + (100 : ℕ)) :=
  C68_ubig_gcd cfg64_valid exLong_wf exMid_wf (by norm_num) (by norm_num) (by decide +kernel) (by decide +kernel)
    (by decide +kernel)
example : ∀ r, UBig.extendedGcd cfg64 exA exB = .ok r →
    ∃ k, Timed.UBig.extendedGcd cfg64 exA exB = .ok (r, k) ∧ k ≤ 528 * (2 + 2) * min 2 2 * 64 :=
  (C68_extended_gcd cfg64_valid).1 exA_wf exB_wf (by norm_num) (by norm_num) (by decide +kernel) (by decide +kernel)
/-- The hypothesis of `C68_ibig_gcd` for two negative numbers. -/
example : ∃ g, IBig.gcd cfg64 exNegA exNegB = .ok g ∧ |exNegA.value cfg64| < 2 ^ (2 * cfg64.W) ∧
    |exNegB.value cfg64| < 2 ^ (2 * cfg64.W) := by
  obtain ⟨g, h, -⟩ := (C24_ibig_gcd cfg64_valid exNegA_wf exNegB_wf).1 (by decide +kernel)
  exact ⟨g, h, by decide +kernel, by decide +kernel⟩

end Ibig
