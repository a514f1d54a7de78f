import Verif.Proofs.ShiftCost
import Verif.Props.AddTime
/-!
C67: shifts, bitwise operators, counting trailing zeros and comparisons take linear time.

`Timed.UBig.shl`, … (Model/ShiftOpsTime.lean, Model/BitsTime.lean) run the operators and count steps, like
`Timed.UBig.mul` (C60).
-/
namespace Ibig

/-- C67: counting steps does not change what the shifts return. -/
theorem C67_same_result_shift (cfg : Cfg) (o : Own) (n : Nat) :
    (∀ a : UBig, (Timed.UBig.shl cfg o a n).result = UBig.shl cfg o a n ∧
      (Timed.UBig.shr cfg o a n).result = UBig.shr cfg o a n) ∧
    (∀ a : IBig, (Timed.IBig.shl cfg o a n).result = IBig.shl cfg o a n ∧
      (Timed.IBig.shr cfg o a n).result = IBig.shr cfg o a n) :=
  ⟨fun a => ⟨Timed.UBig.shl_result cfg o a n, Timed.UBig.shr_result cfg o a n⟩,
   fun a => ⟨Timed.IBig.shl_result cfg o a n, Timed.IBig.shr_result cfg o a n⟩⟩

/-- C67: counting steps does not change what the bitwise operators return. -/
theorem C67_same_result_bitwise (cfg : Cfg) (o1 o2 : Own) :
    (∀ a b : UBig, (Timed.UBig.bitand cfg o1 o2 a b).result = UBig.bitand cfg o1 o2 a b ∧
      (Timed.UBig.bitor cfg o1 o2 a b).result = UBig.bitor cfg o1 o2 a b ∧
      (Timed.UBig.bitxor cfg o1 o2 a b).result = UBig.bitxor cfg o1 o2 a b ∧
      (Timed.UBig.andNot cfg o1 o2 a b).result = UBig.andNot cfg o1 o2 a b) ∧
    (∀ a b : IBig, (Timed.IBig.bitand cfg o1 o2 a b).result = IBig.bitand cfg o1 o2 a b ∧
      (Timed.IBig.bitor cfg o1 o2 a b).result = IBig.bitor cfg o1 o2 a b ∧
      (Timed.IBig.bitxor cfg o1 o2 a b).result = IBig.bitxor cfg o1 o2 a b ∧
      (Timed.IBig.andNot cfg o1 o2 a b).result = IBig.andNot cfg o1 o2 a b) ∧
    (∀ a : IBig, (Timed.IBig.not cfg o1 a).result = IBig.not cfg o1 a) :=
  ⟨fun a b => ⟨Timed.UBig.bitand_result cfg o1 o2 a b, Timed.UBig.bitop_result _ cfg o1 o2 a b,
    Timed.UBig.bitop_result _ cfg o1 o2 a b, Timed.UBig.andNot_result cfg o1 o2 a b⟩,
   fun a b => ⟨Timed.IBig.bitand_result cfg o1 o2 a b, Timed.IBig.bitor_result cfg o1 o2 a b,
    Timed.IBig.bitxor_result cfg o1 o2 a b, Timed.IBig.andNot_result cfg o1 o2 a b⟩,
   fun a => Timed.IBig.not_result cfg o1 a⟩

/-- C67: counting steps does not change what `trailing_zeros` and comparisons return. -/
theorem C67_same_result_compare (cfg : Cfg) (a b : UBig) :
    (Timed.UBig.trailingZeros cfg a).result = UBig.trailingZeros cfg a ∧
    (Timed.UBig.cmp a b).result = UBig.cmp a b :=
  ⟨Timed.UBig.trailingZeros_result cfg a, Timed.UBig.cmp_result a b⟩

/-- From a bound on the steps of the counting function to a bound for the operator. -/
theorem Timed.bounded {α : Type} {x : Timed α} {y : R α} {N M : ℕ} {P : α → Prop} (h : Takes x N P)
    (hr : x.result = y) (hN : N ≤ M) : ∀ c, y = .ok c → ∃ k, x = .ok (c, k) ∧ k ≤ M := by
  intro c hc
  obtain ⟨k, hk⟩ := Timed.of_result (hr.trans hc)
  exact ⟨k, hk, (h c k hk).1.trans hN⟩

/-- C67: shifting a number of `n` words (below `2^(n W)`) left by `s` bits, which adds `s / W` words, takes at most
`4 n + 3 (s / W) + 29` steps; shifting it right takes at most `4 n + 33` steps. -/
theorem C67_ubig_shift {cfg : Cfg} (hv : cfg.Valid) (o : Own) {a : UBig} (ha : a.WF cfg) {n : ℕ} (hn : 1 ≤ n)
    (han : a.value cfg < 2 ^ (n * cfg.W)) (s : ℕ) :
    (∀ c, UBig.shl cfg o a s = .ok c →
      ∃ k, Timed.UBig.shl cfg o a s = .ok (c, k) ∧ k ≤ 4 * n + 3 * (s / cfg.W) + 29) ∧
    (∃ c k, Timed.UBig.shr cfg o a s = .ok (c, k) ∧ UBig.shr cfg o a s = .ok c ∧
      c.value cfg = a.value cfg / 2 ^ s ∧ k ≤ 4 * n + 33) := by
  have hl := Timed.UBig.len_le hv ha hn han
  refine ⟨Timed.bounded (Timed.takes_ushl cfg o a s) (Timed.UBig.shl_result cfg o a s) (by omega), ?_⟩
  obtain ⟨c, h1, -, h2⟩ := UBig.shr_spec hv o ha s
  obtain ⟨k, hk, h3⟩ := Timed.bounded (M := 4 * n + 33) (Timed.takes_ushr cfg o a s)
    (Timed.UBig.shr_result cfg o a s) (by omega) c h1
  exact ⟨c, k, hk, h1, h2, h3⟩

/-- C67 for `IBig`. -/
theorem C67_ibig_shift {cfg : Cfg} (hv : cfg.Valid) (o : Own) {a : IBig} (ha : a.WF cfg) {n : ℕ} (hn : 1 ≤ n)
    (han : |a.value cfg| < 2 ^ (n * cfg.W)) (s : ℕ) :
    (∀ c, IBig.shl cfg o a s = .ok c →
      ∃ k, Timed.IBig.shl cfg o a s = .ok (c, k) ∧ k ≤ 4 * n + 3 * (s / cfg.W) + 29) ∧
    (∃ c k, Timed.IBig.shr cfg o a s = .ok (c, k) ∧ IBig.shr cfg o a s = .ok c ∧
      c.value cfg = a.value cfg / 2 ^ s ∧ k ≤ 18 * n + 47) := by
  have hl := Timed.UBig.len_le hv ha.mag hn (a.mag_lt n han)
  refine ⟨Timed.bounded (Timed.takes_ishl o a s) (Timed.IBig.shl_result cfg o a s) (by omega), ?_⟩
  obtain ⟨c, h1, -, h2⟩ := IBig.shr_spec hv o ha s
  obtain ⟨k, hk, h3⟩ := Timed.bounded (M := 18 * n + 47) (Timed.takes_ishr hv o ha s)
    (Timed.IBig.shr_result cfg o a s) (by omega) c h1
  exact ⟨c, k, hk, h1, h2, h3⟩

/-- A negative integer of two words. -/
example := C67_ibig_shift cfg64_valid .ref exNegA_wf (n := 2) (by norm_num) (by decide +kernel) 1000

/-- C67: a bitwise operator takes at most `8 (n + m)` steps, for `UBig`s of `n` and `m` words. -/
theorem C67_ubig_bitwise {cfg : Cfg} (hv : cfg.Valid) (o1 o2 : Own) {a b : UBig} (ha : a.WF cfg) (hb : b.WF cfg)
    {n m : ℕ} (hn : 1 ≤ n) (hm : 1 ≤ m) (han : a.value cfg < 2 ^ (n * cfg.W)) (hbm : b.value cfg < 2 ^ (m * cfg.W)) :
    (∃ c k, Timed.UBig.bitand cfg o1 o2 a b = .ok (c, k) ∧ UBig.bitand cfg o1 o2 a b = .ok c ∧
      k ≤ 8 * (n + m)) ∧
    (∃ c k, Timed.UBig.bitor cfg o1 o2 a b = .ok (c, k) ∧ UBig.bitor cfg o1 o2 a b = .ok c ∧ k ≤ 8 * (n + m)) ∧
    (∃ c k, Timed.UBig.bitxor cfg o1 o2 a b = .ok (c, k) ∧ UBig.bitxor cfg o1 o2 a b = .ok c ∧
      k ≤ 8 * (n + m)) ∧
    (∃ c k, Timed.UBig.andNot cfg o1 o2 a b = .ok (c, k) ∧ UBig.andNot cfg o1 o2 a b = .ok c ∧
      k ≤ 8 * (n + m)) := by
  have h4 := Timed.UBig.len_le hv ha hn han
  have h5 := Timed.UBig.len_le hv hb hm hbm
  have h6 : 8 * (a.len + b.len) ≤ 8 * (n + m) := by omega
  refine ⟨?_, ?_, ?_, ?_⟩
  · obtain ⟨c, h1, -⟩ := UBig.bitand_spec hv o1 o2 ha hb
    obtain ⟨k, hk, h3⟩ := Timed.bounded (Timed.takes_ubitand o1 o2 ha hb) (Timed.UBig.bitand_result ..) h6 c h1
    exact ⟨c, k, hk, h1, h3⟩
  · obtain ⟨c, h1, -⟩ := UBig.bitor_spec hv o1 o2 ha hb
    obtain ⟨k, hk, h3⟩ := Timed.bounded (Timed.takes_ubitop (· ||| ·) o1 o2 ha hb)
      (Timed.UBig.bitop_result ..) h6 c h1
    exact ⟨c, k, hk, h1, h3⟩
  · obtain ⟨c, h1, -⟩ := UBig.bitxor_spec hv o1 o2 ha hb
    obtain ⟨k, hk, h3⟩ := Timed.bounded (Timed.takes_ubitop (· ^^^ ·) o1 o2 ha hb)
      (Timed.UBig.bitop_result ..) h6 c h1
    exact ⟨c, k, hk, h1, h3⟩
  · obtain ⟨c, h1, -⟩ := UBig.andNot_spec hv o1 o2 ha hb
    obtain ⟨k, hk, h3⟩ := Timed.bounded (Timed.takes_uandNot o1 o2 ha hb) (Timed.UBig.andNot_result ..) h6 c h1
    exact ⟨c, k, hk, h1, h3⟩

/-- C67: a bitwise operator that returns takes at most `56 (n + m)` steps, and `!` at most `13 (n + 1)`, for `IBig`s
of `n` and `m` words. -/
theorem C67_ibig_bitwise {cfg : Cfg} (hv : cfg.Valid) (o1 o2 : Own) {a b : IBig} (ha : a.WF cfg) (hb : b.WF cfg)
    {n m : ℕ} (hn : 1 ≤ n) (hm : 1 ≤ m) (han : |a.value cfg| < 2 ^ (n * cfg.W))
    (hbm : |b.value cfg| < 2 ^ (m * cfg.W)) (c : IBig) :
    (IBig.bitand cfg o1 o2 a b = .ok c → ∃ k, Timed.IBig.bitand cfg o1 o2 a b = .ok (c, k) ∧ k ≤ 56 * (n + m)) ∧
    (IBig.bitor cfg o1 o2 a b = .ok c → ∃ k, Timed.IBig.bitor cfg o1 o2 a b = .ok (c, k) ∧ k ≤ 56 * (n + m)) ∧
    (IBig.bitxor cfg o1 o2 a b = .ok c → ∃ k, Timed.IBig.bitxor cfg o1 o2 a b = .ok (c, k) ∧ k ≤ 56 * (n + m)) ∧
    (IBig.andNot cfg o1 o2 a b = .ok c → ∃ k, Timed.IBig.andNot cfg o1 o2 a b = .ok (c, k) ∧ k ≤ 56 * (n + m)) ∧
    (IBig.not cfg o1 a = .ok c → ∃ k, Timed.IBig.not cfg o1 a = .ok (c, k) ∧ k ≤ 13 * (n + 1)) := by
  have h4 := Timed.UBig.len_le hv ha.mag hn (a.mag_lt n han)
  have h5 := Timed.UBig.len_le hv hb.mag hm (b.mag_lt m hbm)
  have h6 : 56 * (a.mag.len + b.mag.len) ≤ 56 * (n + m) := by omega
  exact ⟨Timed.bounded (Timed.takes_ibitand hv o1 o2 ha hb) (Timed.IBig.bitand_result ..) h6 c,
    Timed.bounded (Timed.takes_ibitor hv o1 o2 ha hb) (Timed.IBig.bitor_result ..) h6 c,
    Timed.bounded (Timed.takes_ibitxor hv o1 o2 ha hb) (Timed.IBig.bitxor_result ..) h6 c,
    Timed.bounded (Timed.takes_iandNot hv o1 o2 ha hb) (Timed.IBig.andNot_result ..) h6 c,
    Timed.bounded (Timed.takes_inot hv o1 ha.mag) (Timed.IBig.not_result ..) (by omega) c⟩

/-- A negative and a positive integer of two words. -/
example (c : IBig) := (C67_ibig_bitwise cfg64_valid .ref .val exNegA_wf exPosB_wf (n := 2) (m := 2) (by norm_num)
  (by norm_num) (by decide +kernel) (by decide +kernel) c).1

/-- C67: `trailing_zeros` of a number of `n` words takes at most `n + 4` steps, a comparison with a number of `m` words
at most `min(n, m) + 1`. -/
theorem C67_trailing_zeros_cmp {cfg : Cfg} (hv : cfg.Valid) {a b : UBig} (ha : a.WF cfg) (hb : b.WF cfg)
    {n m : ℕ} (hn : 1 ≤ n) (hm : 1 ≤ m) (han : a.value cfg < 2 ^ (n * cfg.W)) (hbm : b.value cfg < 2 ^ (m * cfg.W)) :
    (∃ z k, Timed.UBig.trailingZeros cfg a = .ok (z, k) ∧ UBig.trailingZeros cfg a = .ok z ∧ k ≤ n + 4) ∧
    (∃ k, Timed.UBig.cmp a b = .ok (compare (a.value cfg) (b.value cfg), k) ∧ k ≤ min n m + 1) := by
  have h4 := Timed.UBig.len_le hv ha hn han
  have h5 := Timed.UBig.len_le hv hb hm hbm
  refine ⟨?_, ?_⟩
  · obtain ⟨z, h1, -⟩ := UBig.trailingZeros_spec hv ha
    obtain ⟨k, hk, h3⟩ := Timed.bounded (M := n + 4) (Timed.takes_utrailingZeros cfg a)
      (Timed.UBig.trailingZeros_result cfg a) (by omega) z h1
    exact ⟨z, k, hk, h1, h3⟩
  · exact Timed.bounded (Timed.takes_cmp ha hb) (Timed.UBig.cmp_result a b) (by omega) _ (UBig.cmp_spec hv ha hb)

/-- 300 words and 100 words. -/
example := C67_trailing_zeros_cmp cfg64_valid exLong_wf exMid_wf (n := 300) (m := 100) (by norm_num) (by norm_num)
  (by decide +kernel) (by decide +kernel)

/-- 300 words shifted by 6400 bits; 300 words and 100 words. -/
example : (Timed.UBig.shl cfg64 .ref exLong 6403).steps = some 1512 ∧
    (Timed.UBig.shr cfg64 .ref exLong 6403).steps = some 806 ∧
    (Timed.UBig.bitxor cfg64 .ref .ref exMid exLong).steps = some 1003 := by decide +kernel
example : ∃ c k, Timed.UBig.shr cfg64 .ref exLong 6403 = .ok (c, k) ∧ UBig.shr cfg64 .ref exLong 6403 = .ok c ∧
    c.value cfg64 = exLong.value cfg64 / 2 ^ 6403 ∧ k ≤ 4 * 300 + 33 :=
  (C67_ubig_shift cfg64_valid .ref exLong_wf (by norm_num) (by decide +kernel) 6403).2
example : ∃ c k, Timed.UBig.bitor cfg64 .ref .val exLong exMid = .ok (c, k) ∧
    UBig.bitor cfg64 .ref .val exLong exMid = .ok c ∧ k ≤ 8 * (300 + 100) :=
  (C67_ubig_bitwise cfg64_valid _ _ exLong_wf exMid_wf (by norm_num) (by norm_num) (by decide +kernel)
    (by decide +kernel)).2.1
/-- two negative numbers -/
example : (Timed.IBig.bitand cfg64 .ref .ref exNegA exNegB).steps = some 44 ∧
    (IBig.bitand cfg64 .ref .ref exNegA exNegB).toOption.isSome := by decide +kernel

end Ibig
