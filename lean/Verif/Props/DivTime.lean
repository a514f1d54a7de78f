import Verif.Proofs.DivOpsTime
import Verif.Proofs.DivOps
import Verif.Proofs.IDivOps
import Verif.Proofs.EuclidTime
import Verif.Props.MulTime
/-!
C61: the time of division.  /repo/CHANGELOG.md promises division in `O(n^1.47)`.

`Timed.UBig.div`, … (Model/DivOpsTime.lean) run the operators and count steps, like `Timed.UBig.mul` (C60).
-/
namespace Ibig

/-- C61: counting steps does not change what the operators return. -/
theorem C61_same_result (cfg : Cfg) (o1 o2 : Own) :
    (∀ a b : UBig, (Timed.UBig.div cfg o1 o2 a b).result = UBig.div cfg o1 o2 a b ∧
      (Timed.UBig.rem cfg o1 o2 a b).result = UBig.rem cfg o1 o2 a b ∧
      (Timed.UBig.divRem cfg o1 o2 a b).result = UBig.divRem cfg o1 o2 a b) ∧
    (∀ a b : IBig, (Timed.IBig.div cfg o1 o2 a b).result = IBig.div cfg o1 o2 a b ∧
      (Timed.IBig.rem cfg o1 o2 a b).result = IBig.rem cfg o1 o2 a b ∧
      (Timed.IBig.divRem cfg o1 o2 a b).result = IBig.divRem cfg o1 o2 a b) :=
  ⟨fun a b => ⟨Timed.UBig.div_result cfg o1 o2 a b, Timed.UBig.rem_result cfg o1 o2 a b,
    Timed.UBig.divRem_result cfg o1 o2 a b⟩,
   fun a b => ⟨Timed.IBig.div_result cfg o1 o2 a b, Timed.IBig.rem_result cfg o1 o2 a b,
    Timed.IBig.divRem_result cfg o1 o2 a b⟩⟩

/-- C61: dividing a number of `n` words by a number of `m` words (below `2^(n W)` and `2^(m W)`) takes at most
`210 n min(n, m)^0.47` steps. -/
theorem C61_ubig_div {cfg : Cfg} (hv : cfg.Valid) (o1 o2 : Own) {a b : UBig} (ha : a.WF cfg) (hb : b.WF cfg)
    (h0 : b.value cfg ≠ 0) {n m : ℕ} (hn : 1 ≤ n) (hm : 1 ≤ m) (han : a.value cfg < 2 ^ (n * cfg.W))
    (hbm : b.value cfg < 2 ^ (m * cfg.W)) :
    (∃ q k, Timed.UBig.div cfg o1 o2 a b = .ok (q, k) ∧ UBig.div cfg o1 o2 a b = .ok q ∧
      q.value cfg = a.value cfg / b.value cfg ∧
      (k : ℝ) ≤ 210 * n * ((min n m : ℕ) : ℝ) ^ (47 / 100 : ℝ)) ∧
    (∃ r k, Timed.UBig.rem cfg o1 o2 a b = .ok (r, k) ∧ UBig.rem cfg o1 o2 a b = .ok r ∧
      r.value cfg = a.value cfg % b.value cfg ∧
      (k : ℝ) ≤ 210 * n * ((min n m : ℕ) : ℝ) ^ (47 / 100 : ℝ)) ∧
    (∃ q r k, Timed.UBig.divRem cfg o1 o2 a b = .ok ((q, r), k) ∧ UBig.divRem cfg o1 o2 a b = .ok (q, r) ∧
      q.value cfg = a.value cfg / b.value cfg ∧ r.value cfg = a.value cfg % b.value cfg ∧
      (k : ℝ) ≤ 210 * n * ((min n m : ℕ) : ℝ) ^ (47 / 100 : ℝ)) := by
  have hB : Timed.divBound a.len b.len ≤ Timed.divBound n m :=
    Timed.divBound_mono (Timed.UBig.len_le hv ha hn han) (Timed.UBig.len_le hv hb hm hbm)
  refine ⟨?_, ?_, ?_⟩
  · obtain ⟨q, h1, -, h2⟩ := (UBig.div_spec hv o1 o2 ha hb).1 h0
    obtain ⟨k, hk⟩ := Timed.of_result ((Timed.UBig.div_result cfg o1 o2 a b).trans h1)
    exact ⟨q, k, hk, h1, h2, (Timed.UBig.div_steps hv o1 o2 ha hb hk).trans hB⟩
  · obtain ⟨q, h1, -, h2⟩ := (UBig.rem_spec hv o1 o2 ha hb).1 h0
    obtain ⟨k, hk⟩ := Timed.of_result ((Timed.UBig.rem_result cfg o1 o2 a b).trans h1)
    exact ⟨q, k, hk, h1, h2, (Timed.UBig.rem_steps hv o1 o2 ha hb hk).trans hB⟩
  · obtain ⟨⟨q, r⟩, h1, -, -, h2, h3⟩ := (UBig.divRem_spec hv o1 o2 ha hb).1 h0
    obtain ⟨k, hk⟩ := Timed.of_result ((Timed.UBig.divRem_result cfg o1 o2 a b).trans h1)
    exact ⟨q, r, k, hk, h1, h2, h3, (Timed.UBig.divRem_steps hv o1 o2 ha hb hk).trans hB⟩

/-- 300 words by 100 words. -/
example := C61_ubig_div cfg64_valid .ref .val exLong_wf exMid_wf (by decide +kernel) (n := 300) (m := 100)
  (by norm_num) (by norm_num) (by decide +kernel) (by decide +kernel)

theorem IBig.mag_lt {cfg : Cfg} (x : IBig) (j : ℕ) (h : |x.value cfg| < 2 ^ (j * cfg.W)) :
    x.mag.value cfg < 2 ^ (j * cfg.W) := by
  have e : |x.value cfg| = (x.mag.value cfg : Int) := by
    unfold IBig.value
    cases x.sign <;> simp [Sign.toInt]
  rw [e] at h
  exact_mod_cast h

/-- C61 for `IBig` (truncated division). -/
theorem C61_ibig_div {cfg : Cfg} (hv : cfg.Valid) (o1 o2 : Own) {a b : IBig} (ha : a.WF cfg) (hb : b.WF cfg)
    (h0 : b.value cfg ≠ 0) {n m : ℕ} (hn : 1 ≤ n) (hm : 1 ≤ m) (han : |a.value cfg| < 2 ^ (n * cfg.W))
    (hbm : |b.value cfg| < 2 ^ (m * cfg.W)) :
    (∃ q k, Timed.IBig.div cfg o1 o2 a b = .ok (q, k) ∧ IBig.div cfg o1 o2 a b = .ok q ∧
      q.value cfg = (a.value cfg).tdiv (b.value cfg) ∧
      (k : ℝ) ≤ 210 * n * ((min n m : ℕ) : ℝ) ^ (47 / 100 : ℝ)) ∧
    (∃ r k, Timed.IBig.rem cfg o1 o2 a b = .ok (r, k) ∧ IBig.rem cfg o1 o2 a b = .ok r ∧
      r.value cfg = (a.value cfg).tmod (b.value cfg) ∧
      (k : ℝ) ≤ 210 * n * ((min n m : ℕ) : ℝ) ^ (47 / 100 : ℝ)) ∧
    (∃ q r k, Timed.IBig.divRem cfg o1 o2 a b = .ok ((q, r), k) ∧ IBig.divRem cfg o1 o2 a b = .ok (q, r) ∧
      q.value cfg = (a.value cfg).tdiv (b.value cfg) ∧ r.value cfg = (a.value cfg).tmod (b.value cfg) ∧
      (k : ℝ) ≤ 210 * n * ((min n m : ℕ) : ℝ) ^ (47 / 100 : ℝ)) := by
  have hB : Timed.divBound a.mag.len b.mag.len ≤ Timed.divBound n m :=
    Timed.divBound_mono (Timed.UBig.len_le hv ha.mag hn (a.mag_lt n han))
      (Timed.UBig.len_le hv hb.mag hm (b.mag_lt m hbm))
  refine ⟨?_, ?_, ?_⟩
  · obtain ⟨q, h1, -, h2⟩ := (IBig.div_spec hv o1 o2 ha hb).1 h0
    obtain ⟨k, hk⟩ := Timed.of_result ((Timed.IBig.div_result cfg o1 o2 a b).trans h1)
    exact ⟨q, k, hk, h1, h2, (Timed.IBig.div_steps hv o1 o2 ha hb hk).trans hB⟩
  · obtain ⟨q, h1, -, h2⟩ := (IBig.rem_spec hv o1 o2 ha hb).1 h0
    obtain ⟨k, hk⟩ := Timed.of_result ((Timed.IBig.rem_result cfg o1 o2 a b).trans h1)
    exact ⟨q, k, hk, h1, h2, (Timed.IBig.rem_steps hv o1 o2 ha hb hk).trans hB⟩
  · obtain ⟨⟨q, r⟩, h1, -, -, h2, h3⟩ := (IBig.divRem_spec hv o1 o2 ha hb).1 h0
    obtain ⟨k, hk⟩ := Timed.of_result ((Timed.IBig.divRem_result cfg o1 o2 a b).trans h1)
    exact ⟨q, r, k, hk, h1, h2, h3, (Timed.IBig.divRem_steps hv o1 o2 ha hb hk).trans hB⟩

/-- A negative and a positive integer of two words. -/
example := C61_ibig_div cfg64_valid .ref .val exNegA_wf exPosB_wf (by decide +kernel) (n := 2) (m := 2)
  (by norm_num) (by norm_num) (by decide +kernel) (by decide +kernel)

/-- C61: a dividend of at most `n` words: `210 n^1.47` steps, whatever the divisor. -/
theorem C61_ubig_div_same {cfg : Cfg} (hv : cfg.Valid) (o1 o2 : Own) {a b : UBig} (ha : a.WF cfg) (hb : b.WF cfg)
    (h0 : b.value cfg ≠ 0) {n : ℕ} (hn : 1 ≤ n) (han : a.value cfg < 2 ^ (n * cfg.W)) :
    ∃ q r k, Timed.UBig.divRem cfg o1 o2 a b = .ok ((q, r), k) ∧ UBig.divRem cfg o1 o2 a b = .ok (q, r) ∧
      (k : ℝ) ≤ 210 * (n : ℝ) ^ (147 / 100 : ℝ) := by
  have hW : 1 ≤ cfg.W := Timed.one_le_W hv
  have hbm : b.value cfg < 2 ^ (b.value cfg * cfg.W) :=
    lt_of_lt_of_le Nat.lt_two_pow_self (Nat.pow_le_pow_right (by norm_num) (Nat.le_mul_of_pos_right _ hW))
  obtain ⟨q, r, k, h1, h2, -, -, h3⟩ :=
    (C61_ubig_div hv o1 o2 ha hb h0 hn (Nat.one_le_iff_ne_zero.mpr h0) han hbm).2.2
  refine ⟨q, r, k, h1, h2, h3.trans ?_⟩
  rw [Timed.rpow147 hn, ← mul_assoc]
  exact mul_le_mul_of_nonneg_left (Timed.rpow47_mono (Nat.min_le_left _ _)) (by positivity)

/-- C61: counting steps does not change what Euclidean division returns; for `UBig` it is the same code as `/`, `%`
and `div_rem`. -/
theorem C61_euclid_same_result (cfg : Cfg) (o1 o2 : Own) :
    (∀ a b : UBig, (Timed.UBig.divEuclid cfg o1 o2 a b).result = UBig.divEuclid cfg o1 o2 a b ∧
      (Timed.UBig.remEuclid cfg o1 o2 a b).result = UBig.remEuclid cfg o1 o2 a b ∧
      (Timed.UBig.divRemEuclid cfg o1 o2 a b).result = UBig.divRemEuclid cfg o1 o2 a b) ∧
    (∀ a b : IBig, (Timed.IBig.divEuclid cfg o1 o2 a b).result = IBig.divEuclid cfg o1 o2 a b ∧
      (Timed.IBig.remEuclid cfg o1 o2 a b).result = IBig.remEuclid cfg o1 o2 a b ∧
      (Timed.IBig.divRemEuclid cfg o1 o2 a b).result = IBig.divRemEuclid cfg o1 o2 a b) :=
  ⟨(C61_same_result cfg o1 o2).1,
   fun a b => ⟨Timed.IBig.divEuclid_result cfg o1 o2 a b, Timed.IBig.remEuclid_result cfg o1 o2 a b,
    Timed.IBig.divRemEuclid_result cfg o1 o2 a b⟩⟩

/-- C61 for Euclidean division of `UBig`. -/
theorem C61_ubig_euclid {cfg : Cfg} (hv : cfg.Valid) (o1 o2 : Own) {a b : UBig} (ha : a.WF cfg) (hb : b.WF cfg)
    (h0 : b.value cfg ≠ 0) {n m : ℕ} (hn : 1 ≤ n) (hm : 1 ≤ m) (han : a.value cfg < 2 ^ (n * cfg.W))
    (hbm : b.value cfg < 2 ^ (m * cfg.W)) :
    (∃ q k, Timed.UBig.divEuclid cfg o1 o2 a b = .ok (q, k) ∧ UBig.divEuclid cfg o1 o2 a b = .ok q ∧
      q.value cfg = a.value cfg / b.value cfg ∧
      (k : ℝ) ≤ 210 * n * ((min n m : ℕ) : ℝ) ^ (47 / 100 : ℝ)) ∧
    (∃ r k, Timed.UBig.remEuclid cfg o1 o2 a b = .ok (r, k) ∧ UBig.remEuclid cfg o1 o2 a b = .ok r ∧
      r.value cfg = a.value cfg % b.value cfg ∧
      (k : ℝ) ≤ 210 * n * ((min n m : ℕ) : ℝ) ^ (47 / 100 : ℝ)) ∧
    (∃ q r k, Timed.UBig.divRemEuclid cfg o1 o2 a b = .ok ((q, r), k) ∧
      UBig.divRemEuclid cfg o1 o2 a b = .ok (q, r) ∧
      q.value cfg = a.value cfg / b.value cfg ∧ r.value cfg = a.value cfg % b.value cfg ∧
      (k : ℝ) ≤ 210 * n * ((min n m : ℕ) : ℝ) ^ (47 / 100 : ℝ)) :=
  C61_ubig_div hv o1 o2 ha hb h0 hn hm han hbm

/-- 300 words by 100 words. -/
example := C61_ubig_euclid cfg64_valid .ref .val exLong_wf exMid_wf (by decide +kernel) (n := 300) (m := 100)
  (by norm_num) (by norm_num) (by decide +kernel) (by decide +kernel)

/-- C61 for Euclidean division of `IBig`: at most `210 n min(n, m)^0.47 + 29 n + 14 m + 14` steps. The divisor may be
longer than the dividend, and is then added to a negative remainder. -/
theorem C61_ibig_euclid {cfg : Cfg} (hv : cfg.Valid) (o1 o2 : Own) {a b : IBig} (ha : a.WF cfg) (hb : b.WF cfg)
    (h0 : b.value cfg ≠ 0) {n m : ℕ} (hn : 1 ≤ n) (hm : 1 ≤ m) (han : |a.value cfg| < 2 ^ (n * cfg.W))
    (hbm : |b.value cfg| < 2 ^ (m * cfg.W)) :
    (∃ q k, Timed.IBig.divEuclid cfg o1 o2 a b = .ok (q, k) ∧ IBig.divEuclid cfg o1 o2 a b = .ok q ∧
      q.value cfg = a.value cfg / b.value cfg ∧
      (k : ℝ) ≤ 210 * n * ((min n m : ℕ) : ℝ) ^ (47 / 100 : ℝ) + 29 * n + 14 * m + 14) ∧
    (∃ r k, Timed.IBig.remEuclid cfg o1 o2 a b = .ok (r, k) ∧ IBig.remEuclid cfg o1 o2 a b = .ok r ∧
      r.value cfg = a.value cfg % b.value cfg ∧
      (k : ℝ) ≤ 210 * n * ((min n m : ℕ) : ℝ) ^ (47 / 100 : ℝ) + 29 * n + 14 * m + 14) ∧
    (∃ q r k, Timed.IBig.divRemEuclid cfg o1 o2 a b = .ok ((q, r), k) ∧
      IBig.divRemEuclid cfg o1 o2 a b = .ok (q, r) ∧
      q.value cfg = a.value cfg / b.value cfg ∧ r.value cfg = a.value cfg % b.value cfg ∧
      (k : ℝ) ≤ 210 * n * ((min n m : ℕ) : ℝ) ^ (47 / 100 : ℝ) + 29 * n + 14 * m + 14) := by
  have hB : Timed.euclidBound a.mag.len b.mag.len ≤ Timed.euclidBound n m :=
    Timed.euclidBound_mono (Timed.UBig.len_le hv ha.mag hn (a.mag_lt n han))
      (Timed.UBig.len_le hv hb.mag hm (b.mag_lt m hbm))
  refine ⟨?_, ?_, ?_⟩
  · obtain ⟨q, h1, -, h2⟩ := (IBig.divEuclid_spec hv o1 o2 ha hb).1 h0
    obtain ⟨k, hk⟩ := Timed.of_result ((Timed.IBig.divEuclid_result cfg o1 o2 a b).trans h1)
    exact ⟨q, k, hk, h1, h2, (Timed.euclid_steps (Timed.takes_idivEuclid hv o1 o2 ha hb) hk).trans hB⟩
  · obtain ⟨q, h1, -, h2⟩ := (IBig.remEuclid_spec hv o1 o2 ha hb).1 h0
    obtain ⟨k, hk⟩ := Timed.of_result ((Timed.IBig.remEuclid_result cfg o1 o2 a b).trans h1)
    exact ⟨q, k, hk, h1, h2, (Timed.euclid_steps (Timed.takes_iremEuclid hv o1 o2 ha hb) hk).trans hB⟩
  · obtain ⟨⟨q, r⟩, h1, -, -, h2, h3⟩ := (IBig.divRemEuclid_spec hv o1 o2 ha hb).1 h0
    obtain ⟨k, hk⟩ := Timed.of_result ((Timed.IBig.divRemEuclid_result cfg o1 o2 a b).trans h1)
    exact ⟨q, r, k, hk, h1, h2, h3,
      (Timed.euclid_steps (Timed.takes_idivRemEuclid hv o1 o2 ha hb) hk).trans hB⟩

/-- A negative and a positive integer of two words. -/
example := C61_ibig_euclid cfg64_valid .ref .val exNegA_wf exPosB_wf (by decide +kernel) (n := 2) (m := 2)
  (by norm_num) (by norm_num) (by decide +kernel) (by decide +kernel)

/-- 120 words by 50 words, with divide and conquer. -/
example : (Timed.UBig.divRem cfg64 .ref .val (bigOf (List.replicate 120 (2 ^ 64 - 1)))
    (bigOf (List.replicate 49 0 ++ [3]))).steps = some 5191 := by decide +kernel
example : ∃ q r k, Timed.UBig.divRem cfg64 .ref .ref exLong exMid = .ok ((q, r), k) ∧
    UBig.divRem cfg64 .ref .ref exLong exMid = .ok (q, r) ∧ (k : ℝ) ≤ 210 * ((300 : ℕ) : ℝ) ^ (147 / 100 : ℝ) :=
  C61_ubig_div_same cfg64_valid _ _ exLong_wf exMid_wf (by decide +kernel) (by norm_num) (by decide +kernel)

/-- a negative remainder, corrected -/
example : (Timed.IBig.divRemEuclid cfg64 .ref .val ⟨.neg, bigOf (List.replicate 120 (2 ^ 64 - 1))⟩
    ⟨.pos, bigOf (List.replicate 49 0 ++ [3])⟩).steps = some 5599 := by decide +kernel

end Ibig
