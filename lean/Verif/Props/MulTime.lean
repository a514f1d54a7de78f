import Verif.Proofs.MulOpsTime
import Verif.Proofs.MulOps
import Verif.Spec.Examples
import Verif.Spec.ExamplesModular
/-!
C60: the time of multiplication.  /repo/CHANGELOG.md promises multiplication in `O(n^1.47)`.

`Timed.UBig.mul` and `Timed.IBig.mul` (Model/MulOpsTime.lean) run the operators and count steps: iterations of loops
over words, and operations of constant time.
-/
namespace Ibig

/-- C60: counting steps does not change what the operators return. -/
theorem C60_same_result (cfg : Cfg) (o1 o2 : Own) :
    (∀ a b : UBig, (Timed.UBig.mul cfg o1 o2 a b).result = UBig.mul cfg o1 o2 a b) ∧
    (∀ a b : IBig, (Timed.IBig.mul cfg o1 o2 a b).result = IBig.mul cfg o1 o2 a b) :=
  ⟨Timed.UBig.mul_result cfg o1 o2, Timed.IBig.mul_result cfg o1 o2⟩

theorem Timed.of_result {α : Type} {x : Timed α} {a : α} (h : x.result = .ok a) : ∃ k, x = .ok (a, k) := by
  rcases x with e | ⟨b, k⟩
  · cases h
  · cases h
    exact ⟨k, rfl⟩

/-- C60: a product of numbers of `n` and `m` words, with the magnitudes below `2^(n W)` and `2^(m W)`, takes at most
`27 (n + m) min(n, m)^0.47` steps. -/
theorem C60_ubig_mul {cfg : Cfg} (hv : cfg.Valid) (o1 o2 : Own) {a b : UBig} (ha : a.WF cfg) (hb : b.WF cfg)
    {n m : ℕ} (hn : 1 ≤ n) (hm : 1 ≤ m) (han : a.value cfg < 2 ^ (n * cfg.W)) (hbm : b.value cfg < 2 ^ (m * cfg.W))
    (hfit : Fits cfg (a.value cfg * b.value cfg)) :
    ∃ c k, Timed.UBig.mul cfg o1 o2 a b = .ok (c, k) ∧ UBig.mul cfg o1 o2 a b = .ok c ∧
      c.value cfg = a.value cfg * b.value cfg ∧
      (k : ℝ) ≤ 27 * (n + m) * ((min n m : ℕ) : ℝ) ^ (47 / 100 : ℝ) := by
  obtain ⟨c, h1, -, h2⟩ := (UBig.mul_spec hv o1 o2 ha hb).1 hfit
  obtain ⟨k, hk⟩ := Timed.of_result ((Timed.UBig.mul_result cfg o1 o2 a b).trans h1)
  exact ⟨c, k, hk, h1, h2, (Timed.UBig.mul_steps o1 o2 ha hb hk).trans
    (Timed.mulBound_mono (Timed.UBig.len_le hv ha hn han) (Timed.UBig.len_le hv hb hm hbm))⟩

/-- C60 for `IBig`. -/
theorem C60_ibig_mul {cfg : Cfg} (hv : cfg.Valid) (o1 o2 : Own) {a b : IBig} (ha : a.WF cfg) (hb : b.WF cfg)
    {n m : ℕ} (hn : 1 ≤ n) (hm : 1 ≤ m) (han : |a.value cfg| < 2 ^ (n * cfg.W))
    (hbm : |b.value cfg| < 2 ^ (m * cfg.W)) (hfit : Fits cfg (a.value cfg * b.value cfg).natAbs) :
    ∃ c k, Timed.IBig.mul cfg o1 o2 a b = .ok (c, k) ∧ IBig.mul cfg o1 o2 a b = .ok c ∧
      c.value cfg = a.value cfg * b.value cfg ∧
      (k : ℝ) ≤ 27 * (n + m) * ((min n m : ℕ) : ℝ) ^ (47 / 100 : ℝ) := by
  obtain ⟨c, h1, -, h2⟩ := (IBig.mul_spec hv o1 o2 ha hb).1 hfit
  obtain ⟨k, hk⟩ := Timed.of_result ((Timed.IBig.mul_result cfg o1 o2 a b).trans h1)
  have mag : ∀ (x : IBig) (j : ℕ), |x.value cfg| < 2 ^ (j * cfg.W) → x.mag.value cfg < 2 ^ (j * cfg.W) := by
    intro x j h
    have e : |x.value cfg| = (x.mag.value cfg : Int) := by
      unfold IBig.value
      cases x.sign <;> simp [Sign.toInt]
    rw [e] at h
    exact_mod_cast h
  exact ⟨c, k, hk, h1, h2, (Timed.IBig.mul_steps o1 o2 ha hb hk).trans
    (Timed.mulBound_mono (Timed.UBig.len_le hv ha.mag hn (mag a n han))
      (Timed.UBig.len_le hv hb.mag hm (mag b m hbm)))⟩

/-- A negative and a positive integer of two words. -/
example := C60_ibig_mul cfg64_valid .ref .val exNegA_wf exPosB_wf (n := 2) (m := 2) (by norm_num) (by norm_num)
  (by decide +kernel) (by decide +kernel) (fitsEx 200 (by decide +kernel) (by decide))

/-- C60: numbers of at most `n` words: `54 n^1.47` steps. -/
theorem C60_ubig_mul_same {cfg : Cfg} (hv : cfg.Valid) (o1 o2 : Own) {a b : UBig} (ha : a.WF cfg) (hb : b.WF cfg)
    {n : ℕ} (hn : 1 ≤ n) (han : a.value cfg < 2 ^ (n * cfg.W)) (hbm : b.value cfg < 2 ^ (n * cfg.W))
    (hfit : Fits cfg (a.value cfg * b.value cfg)) :
    ∃ c k, Timed.UBig.mul cfg o1 o2 a b = .ok (c, k) ∧ UBig.mul cfg o1 o2 a b = .ok c ∧
      (k : ℝ) ≤ 54 * (n : ℝ) ^ (147 / 100 : ℝ) := by
  obtain ⟨c, k, h1, h2, -, h3⟩ := C60_ubig_mul hv o1 o2 ha hb hn hn han hbm hfit
  refine ⟨c, k, h1, h2, h3.trans (le_of_eq ?_)⟩
  rw [Nat.min_self, Timed.rpow147 hn]
  ring

/-- Two factors of at most 300 words. -/
example := C60_ubig_mul_same cfg64_valid .ref .val exLong_wf exMid_wf (n := 300) (by norm_num)
  (by decide +kernel) (by decide +kernel) (fitsEx (400 * 64) (by decide +kernel) (by decide))

/-- Two numbers of 150 words: the code takes 19998 steps (schoolbook multiplication would need 22500 iterations). -/
example : (Timed.UBig.mul cfg64 .ref .val (bigOf (List.replicate 150 (2 ^ 64 - 1)))
    (bigOf (List.replicate 150 (2 ^ 64 - 1)))).steps = some 19998 := by decide +kernel
theorem exLong_exMid_fits : Fits cfg64 (exLong.value cfg64 * exMid.value cfg64) :=
  lt_of_lt_of_le (show exLong.value cfg64 * exMid.value cfg64 < 2 ^ (400 * 64) by decide +kernel)
    (Nat.pow_le_pow_right (by norm_num) (by decide))
example : ∃ c k, Timed.UBig.mul cfg64 .ref .ref exLong exMid = .ok (c, k) ∧
    UBig.mul cfg64 .ref .ref exLong exMid = .ok c ∧ c.value cfg64 = exLong.value cfg64 * exMid.value cfg64 ∧
    (k : ℝ) ≤ 27 * ((300 : ℕ) + (100 : ℕ)) * ((min 300 100 : ℕ) : ℝ) ^ (47 / 100 : ℝ) :=
  C60_ubig_mul cfg64_valid _ _ exLong_wf exMid_wf (by norm_num) (by norm_num) (by decide +kernel)
    (by decide +kernel) exLong_exMid_fits
example : (Timed.UBig.mul cfg64 .ref .val exA exB).result = .ok (.large ⟨[2 ^ 64 - 5, 2 ^ 64 - 2, 4, 1], 6⟩) ∧
    (Timed.UBig.mul cfg64 .ref .val exA exB).steps = some 38 := by decide +kernel

end Ibig
