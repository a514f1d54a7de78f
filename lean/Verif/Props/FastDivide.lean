import Verif.Proofs.Radix
/-! # C44: theorems

Division by a constant with a precomputed reciprocal (`W` is the word size in bits). -/
namespace Ibig

/-- C44: dividing a word by a word `> 1`. -/
theorem C44_small_divisor {W d : Nat} (h1 : 1 < d) (h2 : d < 2 ^ W) :
    ∃ fd, FastDivideSmall.new W d = .ok fd ∧ ∀ a < 2 ^ W, fd.divRem W a = .ok (a / d, a % d) := by
  obtain ⟨fd, e, h⟩ := FastDivideSmall.new_spec h1 (show d < base W from h2)
  exact ⟨fd, e, fun a ha => FastDivideSmall.divRem_spec h ha⟩

/-- Division by 10. -/
example := C44_small_divisor (W := 64) (d := 10) (by decide) (by decide)

/-- C44: dividing a word or a double word by a word with its highest bit set (the quotient must fit in a
word). -/
theorem C44_normalized_divisor {W d : Nat} (hW : 1 ≤ W) (h1 : 2 ^ (W - 1) ≤ d) (h2 : d < 2 ^ W) :
    ∃ fd, FastDivideNormalized.new W d = .ok fd ∧
      (∀ a < 2 ^ W, fd.divRemWord a = (a / d, a % d)) ∧
      (∀ a < d * 2 ^ W, fd.divRem W a = .ok (a / d, a % d)) := by
  have : base W = 2 * 2 ^ (W - 1) := by
    rw [base_eq, ← pow_succ']; congr 1; omega
  obtain ⟨fd, e, h⟩ := FastDivideNormalized.new_spec hW (show d < base W from h2) (by omega)
  exact ⟨fd, e, fun a ha => FastDivideNormalized.divRemWord_spec h ha,
    fun a ha => FastDivideNormalized.divRem_spec h ha⟩

/-- Division by `2^63 + 5`. -/
example := C44_normalized_divisor (W := 64) (d := 2 ^ 63 + 5) (by decide) (by decide) (by decide)

/-- C44: every entry of the radix table divides words by the radix, and word sequences by the largest power of
the radix that fits in a word (for radixes that are not powers of two), exactly. -/
theorem C44_radix_table {W r : Nat} (hW : 16 ≤ W) (h2 : 2 ≤ r) (h36 : r ≤ 36) :
    ∃ info, radixInfo W r = .ok info ∧ (∀ a < 2 ^ W, info.fastDivRadix.divRem W a = .ok (a / r, a % r)) ∧
      ((∀ k, r ≠ 2 ^ k) → ∃ k, info.rangePerWord = r ^ k ∧ r ^ k < 2 ^ W ∧ 2 ^ W ≤ r ^ (k + 1) ∧
        ∀ l, IsWords W l → ∃ q m, fastDivByWord W l info.rangePerWord info.fastDivRange = .ok (q, m) ∧
          IsWords W q ∧ val W q = val W l / r ^ k ∧ m = val W l % r ^ k) := by
  have hval := isRadixValid_iff.mpr ⟨h2, h36⟩
  rcases radix_cases hval with ⟨hp, hr, -⟩ | ⟨hp, -⟩
  · obtain ⟨info, e, hi⟩ := radixInfo_pow2 hW hval hp
    exact ⟨info, e, fun a ha => FastDivideSmall.divRem_spec hi.fdr ha, fun hn => absurd hr (hn _)⟩
  · obtain ⟨info, e, hi⟩ := radixInfo_nonPow2 hW hval hp
    refine ⟨info, e, fun a ha => FastDivideSmall.divRem_spec hi.fdr ha, fun _ =>
      ⟨info.digitsPerWord, hi.range, hi.lt, hi.ge, ?_⟩⟩
    intro l hl
    have hpos : 0 < r ^ info.digitsPerWord := Nat.pow_pos (by omega)
    obtain ⟨⟨q, m⟩, e2, -, hq, hm, heq⟩ := fastDivByWord_spec (by omega : 1 ≤ W)
      (by rw [hi.range]; omega) (by rw [hi.range]; exact hi.lt) hi.fdRange hl
    rw [hi.range] at hm heq
    simp only at hq hm heq
    refine ⟨q, m, e2, hq, ?_, ?_⟩
    · rw [← heq, Nat.add_comm, Nat.add_mul_div_right _ _ hpos, Nat.div_eq_of_lt hm, Nat.zero_add]
    · rw [← heq, Nat.add_comm, Nat.add_mul_mod_self_right, Nat.mod_eq_of_lt hm]

/-- The entry of the table for radix 10. -/
example := C44_radix_table (W := 64) (r := 10) (by decide) (by decide) (by decide)

example : (FastDivideSmall.new 64 10 >>= fun fd => fd.divRem 64 (2 ^ 64 - 1)) =
    .ok (1844674407370955161, 5) := by decide +kernel

example : (radixInfo 64 10 >>= fun info => fastDivByWord 64 [7, 0, 3] info.rangePerWord info.fastDivRange) =
    .ok ([9850989707733780959, 5, 0], 123822295304634375) := by decide +kernel

end Ibig
