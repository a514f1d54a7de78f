import Verif.Proofs.ParseEntry
import Verif.Spec.Examples
/-! # C20, C41, C42 (parsing): theorems

`ReadsUBig` and `ReadsIBig` (Spec/Parse.lean) say what reading a text should give. The only hypothesis on the
text is that it has at most `isize::MAX` bytes, which holds of every Rust string. -/
namespace Ibig

/-- Every text is either a numeral or has a character that is not a digit, so the cases of `ReadsUBig` are
exhaustive. -/
theorem C20_cases {radix : Nat} (hr : radix ≤ 36) (text : List Nat) :
    (∃ ds, IsNumeral radix text ds) ∨ HasBadDigit radix text := by
  cases h : digitsOf radix text with
  | none => exact Or.inr ((hasBadDigit_iff hr).mpr h)
  | some ds => exact Or.inl ⟨ds, (isNumeral_iff hr).mpr h⟩

/-- A text that is neither empty nor only digits. -/
example := C20_cases (radix := 36) (by decide) (asciiBytes "12-3")

/-- C20: `UBig::from_str_radix` reads the text after an optional `+`. -/
theorem C20_ubig_from_str_radix {cfg : Cfg} (hv : cfg.Valid) {radix : Nat} (h2 : 2 ≤ radix) (h36 : radix ≤ 36)
    {s : List Nat} (hs : s.length < 2 ^ (cfg.U - 1)) :
    ReadsUBig cfg radix (splitPlus s) (UBig.fromStrRadix cfg s radix) := by
  have hval : isRadixValid radix = true := isRadixValid_iff.mpr ⟨h2, h36⟩
  have := readsUBig hv hval (splitPlus s) (by have := splitPlus_length s; omega)
  unfold UBig.fromStrRadix
  rw [checkRadix_ok hval, stripPlus_eq]
  exact this

/-- 25 digits in radix 36. -/
example := C20_ubig_from_str_radix cfg64_valid (radix := 36) (by decide) (by decide)
  (s := asciiBytes "+1Zz0000000000000000000000") (by decide +kernel)

/-- C20: `IBig::from_str_radix` reads the text after an optional sign. -/
theorem C20_ibig_from_str_radix {cfg : Cfg} (hv : cfg.Valid) {radix : Nat} (h2 : 2 ≤ radix) (h36 : radix ≤ 36)
    {s : List Nat} (hs : s.length < 2 ^ (cfg.U - 1)) :
    ReadsIBig cfg radix (splitSign s).1 (splitSign s).2 (IBig.fromStrRadix cfg s radix) := by
  have hval : isRadixValid radix = true := isRadixValid_iff.mpr ⟨h2, h36⟩
  have := (readsUBig hv hval (splitSign s).2 (by have := splitSign_length s; omega)).withSign hv (parseSign s).1
  unfold IBig.fromStrRadix
  rw [checkRadix_ok hval]
  have e := parseSign_eq s
  have e1 : decide ((parseSign s).1 = .neg) = (splitSign s).1 := congrArg Prod.fst e
  have e2 : (parseSign s).2 = (splitSign s).2 := congrArg Prod.snd e
  rw [e1] at this
  rw [e2]
  exact this

/-- 25 digits in radix 36, with a minus sign. -/
example := C20_ibig_from_str_radix cfg64_valid (radix := 36) (by decide) (by decide)
  (s := asciiBytes "-1Zz0000000000000000000000") (by decide +kernel)

/-- C20: `from_str` is decimal. -/
theorem C20_from_str {cfg : Cfg} (hv : cfg.Valid) {s : List Nat} (hs : s.length < 2 ^ (cfg.U - 1)) :
    ReadsUBig cfg 10 (splitPlus s) (UBig.fromStr cfg s) ∧
    ReadsIBig cfg 10 (splitSign s).1 (splitSign s).2 (IBig.fromStr cfg s) :=
  ⟨C20_ubig_from_str_radix hv (by norm_num) (by norm_num) hs,
   C20_ibig_from_str_radix hv (by norm_num) (by norm_num) hs⟩

/-- A negative decimal number of 30 digits. -/
example := C20_from_str cfg64_valid (s := asciiBytes "-123456789012345678901234567890") (by decide +kernel)

example : IsNumeral 36 (asciiBytes "1Zz0000000000000000000000") ([1, 35, 35] ++ List.replicate 22 0) ∧
    digitsValue 36 ([1, 35, 35] ++ List.replicate 22 0) = 2591 * 36 ^ 22 ∧
    splitSign (asciiBytes "-1Zz0000000000000000000000") = (true, asciiBytes "1Zz0000000000000000000000") ∧
    (asciiBytes "-1Zz0000000000000000000000").length < 2 ^ (cfg64.U - 1) := by
  refine ⟨(isNumeral_iff (by norm_num)).mpr (by decide +kernel), by decide +kernel, by decide +kernel, by decide +kernel⟩

example : HasBadDigit 8 (asciiBytes "1238") ∧ HasBadDigit 36 (asciiBytes "12-3") :=
  ⟨(hasBadDigit_iff (by norm_num)).mpr (by decide +kernel), (hasBadDigit_iff (by norm_num)).mpr (by decide +kernel)⟩

/-- C41: `from_str_radix` panics because of the radix exactly when the radix is outside `2..=36`, whatever the
text. -/
theorem C41_from_str_radix {cfg : Cfg} (hv : cfg.Valid) (radix : Nat) {s : List Nat}
    (hs : s.length < 2 ^ (cfg.U - 1)) :
    (UBig.fromStrRadix cfg s radix = .error .radixOutOfRange ↔ ¬(2 ≤ radix ∧ radix ≤ 36)) ∧
    (IBig.fromStrRadix cfg s radix = .error .radixOutOfRange ↔ ¬(2 ≤ radix ∧ radix ≤ 36)) := by
  by_cases h : 2 ≤ radix ∧ radix ≤ 36
  · have hu := C20_ubig_from_str_radix hv h.1 h.2 hs
    have hi := C20_ibig_from_str_radix hv h.1 h.2 hs
    have ru : ∀ {t x}, ReadsUBig cfg radix t x → x ≠ .error .radixOutOfRange := by
      intro t x hx e
      subst e
      by_cases ht : t = []
      · exact absurd (hx.empty ht) (by simp)
      · rcases C20_cases h.2 t with ⟨ds, hds⟩ | hb
        · by_cases hf : Fits cfg (digitsValue radix ds)
          · obtain ⟨c, hc, -⟩ := hx.numeral ds ht hds hf; simp at hc
          · exact absurd (hx.tooLarge ds hds hf) (by simp)
        · rcases hx.bad hb with hb | ⟨hb, -⟩ <;> simp at hb
    have ri : ∀ {n t x}, ReadsIBig cfg radix n t x → x ≠ .error .radixOutOfRange := by
      intro n t x hx e
      subst e
      by_cases ht : t = []
      · exact absurd (hx.empty ht) (by simp)
      · rcases C20_cases h.2 t with ⟨ds, hds⟩ | hb
        · by_cases hf : Fits cfg (digitsValue radix ds)
          · obtain ⟨c, hc, -⟩ := hx.numeral ds ht hds hf; simp at hc
          · exact absurd (hx.tooLarge ds hds hf) (by simp)
        · rcases hx.bad hb with hb | ⟨hb, -⟩ <;> simp at hb
    exact ⟨⟨fun e => absurd e (ru hu), fun e => absurd h e⟩, ⟨fun e => absurd e (ri hi), fun e => absurd h e⟩⟩
  · have hval : isRadixValid radix = false := by
      rw [Bool.eq_false_iff]; exact fun e => h (isRadixValid_iff.mp e)
    have hc : checkRadixValid radix = .error .radixOutOfRange := by unfold checkRadixValid; simp [hval]
    unfold UBig.fromStrRadix IBig.fromStrRadix
    rw [hc]
    exact ⟨⟨fun _ => h, fun _ => rfl⟩, ⟨fun _ => h, fun _ => rfl⟩⟩

/-- Radix 37. -/
example : UBig.fromStrRadix cfg64 (asciiBytes "12") 37 = .error .radixOutOfRange :=
  (C41_from_str_radix cfg64_valid 37 (s := asciiBytes "12") (by decide +kernel)).1.mpr (by decide)

/-- C42: `from_str_with_radix_prefix` reads binary after `0b`, octal after `0o`, hexadecimal after `0x`, and
decimal otherwise, all after an optional sign. -/
theorem C42_from_str_with_radix_prefix {cfg : Cfg} (hv : cfg.Valid) {s : List Nat}
    (hs : s.length < 2 ^ (cfg.U - 1)) :
    ReadsUBig cfg (splitRadix (splitPlus s)).1 (splitRadix (splitPlus s)).2 (UBig.fromStrWithRadixPrefix cfg s) ∧
    ReadsIBig cfg (splitRadix (splitSign s).2).1 (splitSign s).1 (splitRadix (splitSign s).2).2
      (IBig.fromStrWithRadixPrefix cfg s) := by
  have l1 := splitPlus_length s
  have l2 := splitSign_length s
  constructor
  · unfold UBig.fromStrWithRadixPrefix
    rw [stripPlus_eq, noSignPrefix_eq]
    exact readsUBig hv (splitRadix_valid _) _ (by have := splitRadix_length (splitPlus s); omega)
  · unfold IBig.fromStrWithRadixPrefix
    have e := parseSign_eq s
    have e1 : decide ((parseSign s).1 = .neg) = (splitSign s).1 := congrArg Prod.fst e
    have e2 : (parseSign s).2 = (splitSign s).2 := congrArg Prod.snd e
    have := (readsUBig hv (splitRadix_valid (splitSign s).2) (splitRadix (splitSign s).2).2
      (by have := splitRadix_length (splitSign s).2; omega)).withSign hv (parseSign s).1
    rw [e1] at this
    rw [noSignPrefix_eq, e2]
    exact this

/-- A negative hexadecimal number of two words. -/
example := C42_from_str_with_radix_prefix cfg64_valid (s := asciiBytes "-0xdeadBEEF00000000000000000")
  (by decide +kernel)

example : splitRadix (splitSign (asciiBytes "-0xdeadBEEF00000000000000000")).2 =
    (16, asciiBytes "deadBEEF00000000000000000") ∧ splitRadix (asciiBytes "0755") = (10, asciiBytes "0755") := by
  decide +kernel

/-- C42: the documentation of `from_str_with_radix_prefix` says that a sign may come *after* the radix prefix; its
examples, and the code, have the sign before it.  A sign after the prefix is an invalid digit, whatever follows
(for a text beyond the size limit, possibly a panic "number too large" instead). -/
theorem C42_sign_after_prefix {cfg : Cfg} (hv : cfg.Valid) {radixChar sign : Char} (rest : List Nat)
    (hr : radixChar ∈ ['b', 'o', 'x']) (hg : sign ∈ ['+', '-']) (hs : rest.length + 3 < 2 ^ (cfg.U - 1)) :
    let s := '0'.toNat :: radixChar.toNat :: sign.toNat :: rest
    (∀ c, UBig.fromStrWithRadixPrefix cfg s ≠ .ok (.ok c)) ∧ (∀ c, IBig.fromStrWithRadixPrefix cfg s ≠ .ok (.ok c)) ∧
    (Fits cfg (16 ^ (rest.length + 1)) →
      UBig.fromStrWithRadixPrefix cfg s = .ok (.error .invalidDigit) ∧
      IBig.fromStrWithRadixPrefix cfg s = .ok (.error .invalidDigit)) := by
  intro s
  obtain ⟨hu, hi⟩ := C42_from_str_with_radix_prefix hv (s := s) (by simpa [s] using hs)
  have e0 : splitPlus s = s := by simp [s, splitPlus]
  have e1 : splitSign s = (false, s) := by simp [s, splitSign]
  have e2 : (splitRadix s).2 = sign.toNat :: rest ∧ 2 ≤ (splitRadix s).1 ∧ (splitRadix s).1 ≤ 16 := by
    simp only [List.mem_cons, List.not_mem_nil, or_false] at hr
    rcases hr with rfl | rfl | rfl <;> simp [s, splitRadix]
  rw [e0, e2.1] at hu
  rw [e1, e2.1] at hi
  have hb : HasBadDigit (splitRadix s).1 (sign.toNat :: rest) := by
    refine ⟨sign.toNat, List.mem_cons_self, fun d hd => ?_⟩
    have h16 : d < 16 := lt_of_lt_of_le hd.1 e2.2.2
    have : ∀ d < 16, ∀ c ∈ ['+', '-'], ¬(lowerDigits[d]? = some c.toNat ∨ upperDigits[d]? = some c.toNat) := by
      decide +kernel
    exact this d h16 sign hg hd.2
  have ez : (dropZeros (sign.toNat :: rest)).length = rest.length + 1 := by
    simp only [List.mem_cons, List.not_mem_nil, or_false] at hg
    rcases hg with rfl | rfl <;> simp [dropZeros]
  have hf : Fits cfg (16 ^ (rest.length + 1)) → Fits cfg ((splitRadix s).1 ^ (dropZeros (sign.toNat :: rest)).length) := by
    intro h
    rw [ez]
    exact lt_of_le_of_lt (Nat.pow_le_pow_left e2.2.2 _) h
  refine ⟨fun c e => ?_, fun c e => ?_, fun h => ⟨?_, ?_⟩⟩
  · rcases hu.bad hb with h | h
    · rw [e] at h; cases h
    · rw [e] at h; cases h.1
  · rcases hi.bad hb with h | h
    · rw [e] at h; cases h
    · rw [e] at h; cases h.1
  · exact (hu.bad hb).resolve_right (fun h' => h'.2 (hf h))
  · exact (hi.bad hb).resolve_right (fun h' => h'.2 (hf h))

/-- `0x+1f` and `0x-1f` are rejected, `+0x1f` and `-0x1f` are read. -/
example :
    UBig.fromStrWithRadixPrefix cfg64 (asciiBytes "0x+1f") = .ok (.error .invalidDigit) ∧
    IBig.fromStrWithRadixPrefix cfg64 (asciiBytes "0x-1f") = .ok (.error .invalidDigit) ∧
    UBig.fromStrWithRadixPrefix cfg64 (asciiBytes "+0x1f") = .ok (.ok (.small 31)) ∧
    IBig.fromStrWithRadixPrefix cfg64 (asciiBytes "-0x1f") = .ok (.ok ⟨.neg, .small 31⟩) :=
  ⟨((C42_sign_after_prefix cfg64_valid (asciiBytes "1f") (radixChar := 'x') (sign := '+') (by decide) (by decide)
      (by decide)).2.2 (Nat.lt_of_lt_of_le (by decide : 16 ^ 3 < 2 ^ 64) (Nat.pow_le_pow_right (by decide) (by decide)))).1,
   ((C42_sign_after_prefix cfg64_valid (asciiBytes "1f") (radixChar := 'x') (sign := '-') (by decide) (by decide)
      (by decide)).2.2 (Nat.lt_of_lt_of_le (by decide : 16 ^ 3 < 2 ^ 64) (Nat.pow_le_pow_right (by decide) (by decide)))).2, by decide +kernel, by decide +kernel⟩

end Ibig
