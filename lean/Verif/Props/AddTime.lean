import Verif.Proofs.AddOpsTime
import Verif.Proofs.AddOps
import Verif.Props.DivTime
import Verif.Spec.ExamplesModular
/-!
C62: addition and subtraction take linear time.

`Timed.UBig.add`, … (Model/AddOpsTime.lean) run the operators and count steps, like `Timed.UBig.mul` (C60).
-/
namespace Ibig

/-- C62: counting steps does not change what the operators return. -/
theorem C62_same_result (cfg : Cfg) (o1 o2 : Own) :
    (∀ a b : UBig, (Timed.UBig.add cfg o1 o2 a b).result = UBig.add cfg o1 o2 a b ∧
      (Timed.UBig.sub cfg o1 o2 a b).result = UBig.sub cfg o1 o2 a b) ∧
    (∀ a b : IBig, (Timed.IBig.add cfg o1 o2 a b).result = IBig.add cfg o1 o2 a b ∧
      (Timed.IBig.sub cfg o1 o2 a b).result = IBig.sub cfg o1 o2 a b) :=
  ⟨fun a b => ⟨Timed.UBig.add_result cfg o1 o2 a b, Timed.UBig.sub_result cfg o1 o2 a b⟩,
   fun a b => ⟨Timed.IBig.add_result cfg o1 o2 a b, Timed.IBig.sub_result cfg o1 o2 a b⟩⟩

/-- C62: the sum of numbers of `n` and `m` words (below `2^(n W)` and `2^(m W)`) takes at most `13 (n + m)` steps. -/
theorem C62_ubig_add {cfg : Cfg} (hv : cfg.Valid) (o1 o2 : Own) {a b : UBig} (ha : a.WF cfg) (hb : b.WF cfg)
    {n m : ℕ} (hn : 1 ≤ n) (hm : 1 ≤ m) (han : a.value cfg < 2 ^ (n * cfg.W)) (hbm : b.value cfg < 2 ^ (m * cfg.W))
    (hfit : Fits cfg (a.value cfg + b.value cfg)) :
    ∃ c k, Timed.UBig.add cfg o1 o2 a b = .ok (c, k) ∧ UBig.add cfg o1 o2 a b = .ok c ∧
      c.value cfg = a.value cfg + b.value cfg ∧ k ≤ 13 * (n + m) := by
  obtain ⟨c, h1, -, h2⟩ := (UBig.add_spec hv o1 o2 ha hb).1 hfit
  obtain ⟨k, hk⟩ := Timed.of_result ((Timed.UBig.add_result cfg o1 o2 a b).trans h1)
  have h3 := (Timed.takes_uadd o1 o2 ha hb c k hk).1
  have h4 := Timed.UBig.len_le hv ha hn han
  have h5 := Timed.UBig.len_le hv hb hm hbm
  unfold Timed.addCost at h3
  exact ⟨c, k, hk, h1, h2, by omega⟩

/-- 300 words and 100 words. -/
example := C62_ubig_add cfg64_valid .ref .val exLong_wf exMid_wf (n := 300) (m := 100) (by norm_num) (by norm_num)
  (by decide +kernel) (by decide +kernel) (fitsEx (301 * 64) (by decide +kernel) (by decide))

/-- C62: subtraction of a number that is not larger. -/
theorem C62_ubig_sub {cfg : Cfg} (hv : cfg.Valid) (o1 o2 : Own) {a b : UBig} (ha : a.WF cfg) (hb : b.WF cfg)
    {n m : ℕ} (hn : 1 ≤ n) (hm : 1 ≤ m) (han : a.value cfg < 2 ^ (n * cfg.W)) (hbm : b.value cfg < 2 ^ (m * cfg.W))
    (hle : b.value cfg ≤ a.value cfg) :
    ∃ c k, Timed.UBig.sub cfg o1 o2 a b = .ok (c, k) ∧ UBig.sub cfg o1 o2 a b = .ok c ∧
      c.value cfg = a.value cfg - b.value cfg ∧ k ≤ 13 * (n + m) := by
  obtain ⟨c, h1, -, h2⟩ := ((UBig.sub_spec hv o1 o2 ha hb).1 hle).1 ((ha.fits hv).mono (Nat.sub_le _ _))
  obtain ⟨k, hk⟩ := Timed.of_result ((Timed.UBig.sub_result cfg o1 o2 a b).trans h1)
  have h3 := (Timed.takes_usub o1 o2 ha hb c k hk).1
  have h4 := Timed.UBig.len_le hv ha hn han
  have h5 := Timed.UBig.len_le hv hb hm hbm
  unfold Timed.addCost at h3
  exact ⟨c, k, hk, h1, h2, by omega⟩

/-- C62 for `IBig`. -/
theorem C62_ibig_add_sub {cfg : Cfg} (hv : cfg.Valid) (o1 o2 : Own) {a b : IBig} (ha : a.WF cfg) (hb : b.WF cfg)
    {n m : ℕ} (hn : 1 ≤ n) (hm : 1 ≤ m) (han : |a.value cfg| < 2 ^ (n * cfg.W))
    (hbm : |b.value cfg| < 2 ^ (m * cfg.W)) :
    (Fits cfg (a.value cfg + b.value cfg).natAbs →
      ∃ c k, Timed.IBig.add cfg o1 o2 a b = .ok (c, k) ∧ IBig.add cfg o1 o2 a b = .ok c ∧
        c.value cfg = a.value cfg + b.value cfg ∧ k ≤ 13 * (n + m)) ∧
    (Fits cfg (a.value cfg - b.value cfg).natAbs →
      ∃ c k, Timed.IBig.sub cfg o1 o2 a b = .ok (c, k) ∧ IBig.sub cfg o1 o2 a b = .ok c ∧
        c.value cfg = a.value cfg - b.value cfg ∧ k ≤ 13 * (n + m)) := by
  have h4 := Timed.UBig.len_le hv ha.mag hn (a.mag_lt n han)
  have h5 := Timed.UBig.len_le hv hb.mag hm (b.mag_lt m hbm)
  refine ⟨fun hfit => ?_, fun hfit => ?_⟩
  · obtain ⟨c, h1, -, h2⟩ := (IBig.add_spec hv o1 o2 ha hb).1 hfit
    obtain ⟨k, hk⟩ := Timed.of_result ((Timed.IBig.add_result cfg o1 o2 a b).trans h1)
    have h3 := (Timed.takes_iadd o1 o2 ha.mag hb.mag c k hk).1
    unfold Timed.addCost at h3
    exact ⟨c, k, hk, h1, h2, by omega⟩
  · obtain ⟨c, h1, -, h2⟩ := (IBig.sub_spec hv o1 o2 ha hb).1 hfit
    obtain ⟨k, hk⟩ := Timed.of_result ((Timed.IBig.sub_result cfg o1 o2 a b).trans h1)
    have h3 := (Timed.takes_isub o1 o2 ha.mag hb.mag c k hk).1
    unfold Timed.addCost at h3
    exact ⟨c, k, hk, h1, h2, by omega⟩

/-- A negative and a positive integer of two words. -/
example := (C62_ibig_add_sub cfg64_valid .ref .val exNegA_wf exPosB_wf (n := 2) (m := 2) (by norm_num) (by norm_num)
  (by decide +kernel) (by decide +kernel)).2 (fitsEx 200 (by decide +kernel) (by decide))

/-- 300 words and 100 words. -/
example : (Timed.UBig.add cfg64 .val .ref exMid exLong).steps = some 1513 := by decide +kernel
example : ∃ c k, Timed.UBig.sub cfg64 .ref .val exLong exMid = .ok (c, k) ∧ UBig.sub cfg64 .ref .val exLong exMid = .ok c ∧
    c.value cfg64 = exLong.value cfg64 - exMid.value cfg64 ∧ k ≤ 13 * (300 + 100) :=
  C62_ubig_sub cfg64_valid _ _ exLong_wf exMid_wf (by norm_num) (by norm_num) (by decide +kernel) (by decide +kernel)
    (by decide +kernel)

end Ibig
