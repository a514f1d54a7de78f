import Verif.Proofs.ParseBad
import Verif.Spec.Examples
/-! # C20, C42 (texts with an invalid digit): theorems

`Overlong` (Spec/ParseLimit.lean) says which texts are too long to be examined. -/
namespace Ibig

/-- C20: a text with an invalid digit gives the error "invalid digit", unless it is too long to be examined:
exactly then parsing panics with "number too large". -/
theorem C20_invalid_digit {cfg : Cfg} (hv : cfg.Valid) {radix : Nat} (h2 : 2 ≤ radix) (h36 : radix ≤ 36)
    {s : List Nat} (hs : s.length < 2 ^ (cfg.U - 1)) :
    (HasBadDigit radix (splitPlus s) →
      (Overlong cfg radix (dropZeros (splitPlus s)).length → UBig.fromStrRadix cfg s radix = .error .tooLarge) ∧
      (¬Overlong cfg radix (dropZeros (splitPlus s)).length →
        UBig.fromStrRadix cfg s radix = .ok (.error .invalidDigit))) ∧
    (HasBadDigit radix (splitSign s).2 →
      (Overlong cfg radix (dropZeros (splitSign s).2).length → IBig.fromStrRadix cfg s radix = .error .tooLarge) ∧
      (¬Overlong cfg radix (dropZeros (splitSign s).2).length →
        IBig.fromStrRadix cfg s radix = .ok (.error .invalidDigit))) := by
  have hval : isRadixValid radix = true := isRadixValid_iff.mpr ⟨h2, h36⟩
  constructor
  · intro hb
    have := rejectsUBig hv hval (by have := splitPlus_length s; omega) hb
    unfold UBig.fromStrRadix
    rw [checkRadix_ok hval, stripPlus_eq]
    exact this
  · intro hb
    have := (rejectsUBig hv hval (by have := splitSign_length s; omega) hb).tryP
      fun mag => .ok (.ok (IBig.fromSignMagnitude (parseSign s).1 mag))
    have e2 : (parseSign s).2 = (splitSign s).2 := congrArg Prod.snd (parseSign_eq s)
    unfold IBig.fromStrRadix
    rw [checkRadix_ok hval, e2]
    exact this

/-- C42: the same with a radix prefix. -/
theorem C42_invalid_digit {cfg : Cfg} (hv : cfg.Valid) {s : List Nat} (hs : s.length < 2 ^ (cfg.U - 1)) :
    (∀ radix text, splitRadix (splitPlus s) = (radix, text) → HasBadDigit radix text →
      (Overlong cfg radix (dropZeros text).length → UBig.fromStrWithRadixPrefix cfg s = .error .tooLarge) ∧
      (¬Overlong cfg radix (dropZeros text).length →
        UBig.fromStrWithRadixPrefix cfg s = .ok (.error .invalidDigit))) ∧
    (∀ radix text, splitRadix (splitSign s).2 = (radix, text) → HasBadDigit radix text →
      (Overlong cfg radix (dropZeros text).length → IBig.fromStrWithRadixPrefix cfg s = .error .tooLarge) ∧
      (¬Overlong cfg radix (dropZeros text).length →
        IBig.fromStrWithRadixPrefix cfg s = .ok (.error .invalidDigit))) := by
  have l1 := splitPlus_length s
  have l2 := splitSign_length s
  constructor
  · intro radix text e hb
    have l3 := splitRadix_length (splitPlus s)
    have h := splitRadix_valid (splitPlus s)
    rw [e] at l3 h; simp only at l3
    unfold UBig.fromStrWithRadixPrefix
    rw [stripPlus_eq, noSignPrefix_eq, e]
    exact rejectsUBig hv h (by omega) hb
  · intro radix text e hb
    have l3 := splitRadix_length (splitSign s).2
    have h := splitRadix_valid (splitSign s).2
    rw [e] at l3 h; simp only at l3
    have e2 : (parseSign s).2 = (splitSign s).2 := congrArg Prod.snd (parseSign_eq s)
    unfold IBig.fromStrWithRadixPrefix
    rw [noSignPrefix_eq, e2, e]
    exact (rejectsUBig hv h (by omega) hb).tryP fun mag => .ok (.ok (IBig.fromSignMagnitude (parseSign s).1 mag))

/-- Signs between digits: neither text is a numeral. -/
example : UBig.fromStrRadix cfg64 (asciiBytes "12-3") 36 = .ok (.error .invalidDigit) ∧
    IBig.fromStrWithRadixPrefix cfg64 (asciiBytes "-0x-1") = .ok (.error .invalidDigit) := by
  have short : ∀ r n, 2 ≤ r → r ≤ 36 → n ≤ 100 → ¬Overlong cfg64 r n := by
    rintro r n h2 h36 hn (⟨b, rfl, h⟩ | ⟨-, d, k, d1, d2, d3, -⟩)
    · have hb : b < 6 := (Nat.pow_lt_pow_iff_right (by norm_num : 1 < 2)).mp (by omega)
      have : n * b ≤ 100 * 5 := Nat.mul_le_mul hn (by omega)
      have e1 : 1000 < 2 ^ cfg64.U := by decide
      have e2 : 1000 < (cfg64.maxLen + 4) * cfg64.W := by decide
      rcases h with h | h <;> omega
    · have : d ≠ 0 := by
        rintro rfl
        rw [show cfg64.W = 64 from rfl] at d2
        norm_num at d2
        omega
      have := Nat.le_mul_of_pos_right (256 * d) (Nat.two_pow_pos k)
      omega
  refine ⟨((C20_invalid_digit cfg64_valid (radix := 36) (by decide) (by decide) (by decide +kernel)).1
    ((hasBadDigit_iff (by norm_num)).mpr (by decide +kernel))).2 (short _ _ (by decide) (by decide) (by decide +kernel)),
    ((C42_invalid_digit cfg64_valid (by decide +kernel)).2 16 (asciiBytes "-1") (by decide +kernel)
      ((hasBadDigit_iff (by norm_num)).mpr (by decide +kernel))).2 (short _ _ (by decide) (by decide) (by decide +kernel))⟩

/-- `n` exclamation marks: no digit in any radix. -/
theorem marks_bad (radix n : Nat) (h36 : radix ≤ 36) : HasBadDigit radix (List.replicate (n + 1) 33) ∧
    splitPlus (List.replicate (n + 1) 33) = List.replicate (n + 1) 33 ∧
    (dropZeros (List.replicate (n + 1) 33)).length = n + 1 := by
  refine ⟨?_, by simp [List.replicate_succ, splitPlus], by simp [List.replicate_succ, dropZeros]⟩
  rw [hasBadDigit_iff h36]
  rw [List.replicate_succ]
  simp only [digitsOf]
  rw [show digitFromByte 33 radix = none from by
    unfold digitFromByte digitByteValue; simp]

/-- On a 16-bit machine, in radix 36 (three digits fit into a word, and numbers of 12670 digits fit), a text of
24576 exclamation marks is rejected, and one more of them makes parsing panic. -/
example : UBig.fromStrRadix cfg16 (List.replicate 24576 33) 36 = .ok (.error .invalidDigit) ∧
    UBig.fromStrRadix cfg16 (List.replicate 24577 33) 36 = .error .tooLarge := by
  have no2 : ∀ b, 36 ≠ 2 ^ b := by
    intro b hb
    have h : b < 6 := (Nat.pow_lt_pow_iff_right (by norm_num : 1 < 2)).mp (by omega)
    interval_cases b <;> omega
  have big : ¬Fits cfg16 (36 ^ (256 * 3 * 2 ^ 5)) := by
    show ¬36 ^ (256 * 3 * 2 ^ 5) < 2 ^ (4094 * 16)
    decide +kernel
  have fine : ∀ k < 5, Fits cfg16 (36 ^ (256 * 3 * 2 ^ k)) := by
    show ∀ k < 5, 36 ^ (256 * 3 * 2 ^ k) < 2 ^ (4094 * 16)
    decide +kernel
  constructor
  · obtain ⟨m1, m2, m3⟩ := marks_bad 36 24575 (by norm_num)
    refine ((C20_invalid_digit cfg16_valid (radix := 36) (by decide) (by decide)
      (s := List.replicate (24575 + 1) 33) (by rw [List.length_replicate]; decide)).1 (by rw [m2]; exact m1)).2 ?_
    rw [m2, m3]
    rintro (⟨b, hb, -⟩ | ⟨-, d, k, d1, d2, d3, d4⟩)
    · exact no2 b hb
    · have e1 : d < 3 + 1 := (Nat.pow_lt_pow_iff_right (by norm_num : 1 < 36)).mp (lt_of_lt_of_le d1 (by decide))
      have e2 : 3 < d + 1 := (Nat.pow_lt_pow_iff_right (by norm_num : 1 < 36)).mp (lt_of_lt_of_le (by decide) d2)
      have hd : d = 3 := by omega
      subst hd
      refine d4 (fine k ?_)
      have : 2 ^ k < 2 ^ 5 := by omega
      exact (Nat.pow_lt_pow_iff_right (by norm_num : 1 < 2)).mp this
  · obtain ⟨m1, m2, m3⟩ := marks_bad 36 24576 (by norm_num)
    refine ((C20_invalid_digit cfg16_valid (radix := 36) (by decide) (by decide)
      (s := List.replicate (24576 + 1) 33) (by rw [List.length_replicate]; decide)).1 (by rw [m2]; exact m1)).1 ?_
    rw [m2, m3]
    exact Or.inr ⟨no2, 3, 5, by decide, by decide, by norm_num, big⟩

end Ibig
