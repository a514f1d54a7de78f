import Verif.Proofs.PowTime
import Verif.Props.AddTime
import Verif.Spec.ExamplesModular
/-!
C63: the time of exponentiation.

`Timed.UBig.pow` and `Timed.IBig.pow` (Model/PowTime.lean) run the functions and count steps, like `Timed.UBig.mul` (C60).
-/
namespace Ibig

/-- C63: counting steps does not change what the functions return. -/
theorem C63_same_result (cfg : Cfg) (e : Nat) :
    (∀ x : UBig, (Timed.UBig.pow cfg x e).result = x.pow cfg e) ∧
    (∀ x : IBig, (Timed.IBig.pow cfg x e).result = x.pow cfg e) :=
  ⟨fun x => Timed.UBig.pow_result cfg x e, fun x => Timed.IBig.pow_result cfg x e⟩

theorem Timed.powBound_eq (n e : ℕ) : Timed.powBound n e =
    54 * ((n * e : ℕ) : ℝ) ^ (147 / 100 : ℝ) + 108 * (n * e : ℕ) * (n : ℝ) ^ (47 / 100 : ℝ) := by
  unfold Timed.powBound
  rcases Nat.eq_zero_or_pos (n * e) with h | h
  · rw [h, Nat.cast_zero, Real.zero_rpow (by norm_num), Real.zero_rpow (by norm_num), mul_zero]
  · rw [Timed.rpow147 h]

/-- C63: raising a number of `n` words (below `2^(n W)`) to the power `e` takes at most
`54 (n e)^1.47 + 108 n e n^0.47` steps. -/
theorem C63_ubig_pow {cfg : Cfg} (hv : cfg.Valid) {x : UBig} (hx : x.WF cfg) {n : ℕ} (hn : 1 ≤ n)
    (hxn : x.value cfg < 2 ^ (n * cfg.W)) {e : ℕ} (he : e < 2 ^ cfg.U) (hfit : Fits cfg (x.value cfg ^ e)) :
    ∃ c k, Timed.UBig.pow cfg x e = .ok (c, k) ∧ x.pow cfg e = .ok c ∧ c.value cfg = x.value cfg ^ e ∧
      (k : ℝ) ≤ 54 * ((n * e : ℕ) : ℝ) ^ (147 / 100 : ℝ) + 108 * (n * e : ℕ) * (n : ℝ) ^ (47 / 100 : ℝ) := by
  obtain ⟨c, h1, -, h2⟩ := (UBig.pow_spec hv hx he).1 hfit
  obtain ⟨k, hk⟩ := Timed.of_result ((Timed.UBig.pow_result cfg x e).trans h1)
  refine ⟨c, k, hk, h1, h2, ?_⟩
  rw [← Timed.powBound_eq]
  exact (Timed.costs_pow hv hx hn hxn he c k hk).1

/-- The cube of a 100-word number. -/
example := C63_ubig_pow cfg64_valid exMid_wf (n := 100) (by norm_num) (by decide +kernel) (e := 3)
  (by norm_num [cfg64]) (fitsEx (300 * 64) (by decide +kernel) (by decide))

/-- C63 for `IBig`. -/
theorem C63_ibig_pow {cfg : Cfg} (hv : cfg.Valid) {x : IBig} (hx : x.WF cfg) {n : ℕ} (hn : 1 ≤ n)
    (hxn : |x.value cfg| < 2 ^ (n * cfg.W)) {e : ℕ} (he : e < 2 ^ cfg.U)
    (hfit : Fits cfg (x.value cfg ^ e).natAbs) :
    ∃ c k, Timed.IBig.pow cfg x e = .ok (c, k) ∧ x.pow cfg e = .ok c ∧ c.value cfg = x.value cfg ^ e ∧
      (k : ℝ) ≤ 54 * ((n * e : ℕ) : ℝ) ^ (147 / 100 : ℝ) + 108 * (n * e : ℕ) * (n : ℝ) ^ (47 / 100 : ℝ) := by
  obtain ⟨c, h1, -, h2⟩ := (IBig.pow_spec hv hx he).1 hfit
  obtain ⟨k, hk⟩ := Timed.of_result ((Timed.IBig.pow_result cfg x e).trans h1)
  refine ⟨c, k, hk, h1, h2, ?_⟩
  rw [← Timed.powBound_eq]
  have : Timed.Costs (Timed.IBig.pow cfg x e) (Timed.powBound n e) (fun _ => True) :=
    (Timed.costs_pow hv hx.mag hn (x.mag_lt n hxn) he).step fun m _ =>
      (Timed.Costs.pure trivial).mono (by linarith) (fun _ h => h)
  exact (this c k hk).1

/-- The fifth power of a negative integer of two words. -/
example := C63_ibig_pow cfg64_valid exNegA_wf (n := 2) (by norm_num) (by decide +kernel) (e := 5)
  (by norm_num [cfg64]) (fitsEx 640 (by decide +kernel) (by decide))

/-- C63: the bound is `O((n e)^1.47)`: at most `162 (n e)^1.47` steps. -/
theorem C63_ubig_pow_total {cfg : Cfg} (hv : cfg.Valid) {x : UBig} (hx : x.WF cfg) {n : ℕ} (hn : 1 ≤ n)
    (hxn : x.value cfg < 2 ^ (n * cfg.W)) {e : ℕ} (he : e < 2 ^ cfg.U) (hfit : Fits cfg (x.value cfg ^ e)) :
    ∃ c k, Timed.UBig.pow cfg x e = .ok (c, k) ∧ x.pow cfg e = .ok c ∧
      (k : ℝ) ≤ 162 * ((n * e : ℕ) : ℝ) ^ (147 / 100 : ℝ) := by
  obtain ⟨c, k, h1, h2, -, h3⟩ := C63_ubig_pow hv hx hn hxn he hfit
  refine ⟨c, k, h1, h2, h3.trans ?_⟩
  rcases Nat.eq_zero_or_pos e with rfl | h
  · rw [Nat.mul_zero, Nat.cast_zero, Real.zero_rpow (by norm_num)]
    norm_num
  · have h4 : 1 ≤ n * e := Nat.mul_pos hn h
    have h5 := mul_le_mul_of_nonneg_left (Timed.rpow47_mono (Nat.le_mul_of_pos_right n h))
      (Nat.cast_nonneg (α := ℝ) (n * e))
    rw [Timed.rpow147 h4]
    linarith

/-- `7^1000` has 44 words; a number of 100 words to the power 3. -/
example : (Timed.UBig.pow cfg64 (.small 7) 1000).steps = some 1260 := by decide +kernel
theorem exMid_cube_fits : Fits cfg64 (exMid.value cfg64 ^ 3) :=
  lt_of_lt_of_le (show exMid.value cfg64 ^ 3 < 2 ^ (300 * 64) by decide +kernel)
    (Nat.pow_le_pow_right (by norm_num) (by decide))
example : ∃ c k, Timed.UBig.pow cfg64 exMid 3 = .ok (c, k) ∧ exMid.pow cfg64 3 = .ok c ∧
    (k : ℝ) ≤ 162 * ((100 * 3 : ℕ) : ℝ) ^ (147 / 100 : ℝ) :=
  C63_ubig_pow_total cfg64_valid exMid_wf (by norm_num) (by decide +kernel) (by norm_num [cfg64]) exMid_cube_fits

end Ibig
