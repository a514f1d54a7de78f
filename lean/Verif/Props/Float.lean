import Verif.Proofs.Float
import Verif.Spec.Examples
/-!
# Property C19: conversion to floating point

`FloatFmt.Nearest` (`Spec/Float.lean`) says what it means for a float, given by its bits, to be the
correctly rounded value of a natural number.
-/
namespace Ibig

/-- C19: `UBig::to_f32` and `to_f64` return the nearest float, ties to even, infinity beyond the overflow
threshold. -/
theorem C19_ubig_to_float {cfg : Cfg} (hv : cfg.Valid) {a : UBig} (ha : a.WF cfg) :
    (∃ b, a.toF32 cfg = .ok b ∧ f32.Nearest (a.value cfg) b) ∧
    (∃ b, a.toF64 cfg = .ok b ∧ f64.Nearest (a.value cfg) b) :=
  ⟨UBig.toFloat_spec hv code32_matches (by decide) ha, UBig.toFloat_spec hv code64_matches (by decide) ha⟩

/-- A 300-word number. -/
example := C19_ubig_to_float cfg64_valid exLong_wf

theorem FloatFmt.Nearest.le_inf {f : FloatFmt} {n b : Nat} (h : f.Nearest n b) : b ≤ f.inf := by
  rcases Nat.lt_or_ge n f.overflow with h1 | h1
  · exact (h.1 h1).1.le
  · exact (h.2 h1).le

/-- C19: the nearest float is unique, so that the theorems of C19 determine the result. -/
theorem C19_unique {f : FloatFmt} {n b c : Nat} (hb : f.Nearest n b) (hc : f.Nearest n c) : b = c := by
  rcases Nat.lt_or_ge n f.overflow with hn | hn
  swap
  · rw [hb.2 hn, hc.2 hn]
  obtain ⟨b1, b2⟩ := hb.1 hn
  obtain ⟨c1, c2⟩ := hc.1 hn
  by_contra hne
  have mono := f.toRat_strictMono
  -- two distinct nearest floats would both be even, and the float between them would be nearer
  have key : ∀ b c : Nat, b < c → c < f.inf →
      |f.toRat b - n| = |f.toRat c - n| → b % 2 = 0 → c % 2 = 0 →
      (∀ d < f.inf, d ≠ b → |f.toRat b - n| < |f.toRat d - n| ∨
        (|f.toRat b - n| = |f.toRat d - n| ∧ b % 2 = 0)) → False := by
    intro b c hlt hc1 he hb0 hc0 hall
    have h1 : f.toRat b < f.toRat (b + 1) := mono (by omega)
    have h2 : f.toRat (b + 1) < f.toRat c := mono (by omega)
    have h3 : |f.toRat b - n| ≤ |f.toRat (b + 1) - n| := by
      rcases hall (b + 1) (by omega) (by omega) with h | h
      · exact h.le
      · exact h.1.le
    rcases abs_cases (f.toRat b - n) with h4 | h4 <;> rcases abs_cases (f.toRat c - n) with h5 | h5 <;>
      rcases abs_cases (f.toRat (b + 1) - n) with h6 | h6 <;> linarith [h4.1, h4.2, h5.1, h5.2, h6.1, h6.2]
  rcases b2 c c1 (Ne.symm hne) with h | ⟨h, hb0⟩
  · rcases c2 b b1 hne with h' | ⟨h', -⟩
    · exact lt_asymm h h'
    · rw [h'] at h; exact lt_irrefl _ h
  · rcases c2 b b1 hne with h' | ⟨-, hc0⟩
    · rw [h] at h'; exact lt_irrefl _ h'
    · rcases Nat.lt_or_gt_of_ne hne with hlt | hlt
      · exact key b c hlt c1 h hb0 hc0 b2
      · exact key c b hlt b1 h.symm hc0 hb0 c2

/-- There is only one answer for `2^128 - 1`. -/
example {b c : Nat} (hb : f64.Nearest (exA.value cfg64) b) (hc : exA.toF64 cfg64 = .ok c) : b = c := by
  obtain ⟨-, d, hd, hn⟩ := C19_ubig_to_float cfg64_valid exA_wf
  rw [hd] at hc
  cases hc
  exact C19_unique hb hn

/-- C19: the float of an `IBig` is that of its magnitude, with the sign bit (bit 31, bit 63) set for
negative numbers. -/
theorem C19_ibig_to_float {cfg : Cfg} (hv : cfg.Valid) {a : IBig} (ha : a.WF cfg) :
    (∃ b, a.toF32 cfg = .ok (if a.value cfg < 0 then 2 ^ 31 + b else b) ∧
      f32.Nearest (a.value cfg).natAbs b) ∧
    (∃ b, a.toF64 cfg = .ok (if a.value cfg < 0 then 2 ^ 63 + b else b) ∧
      f64.Nearest (a.value cfg).natAbs b) := by
  obtain ⟨⟨b, h1, h2⟩, c, h3, h4⟩ := C19_ubig_to_float hv ha.mag
  have hs := (IBig.value_nonneg_iff ha).symm
  have hx : ∀ {n b : Nat}, b < 2 ^ n → b ^^^ 2 ^ n = 2 ^ n + b := by
    intro n b hb
    rw [Nat.add_comm, ← Nat.mul_one (2 ^ n), Nat.add_comm, Nat.two_pow_add_eq_or_of_lt hb]
    refine Nat.eq_of_testBit_eq fun i => ?_
    rw [Nat.mul_one, Nat.testBit_xor, Nat.testBit_or, Nat.testBit_two_pow]
    by_cases h : n = i
    · subst h; rw [Nat.testBit_lt_two_pow hb]; simp
    · simp [h]
  have e1 : f32.signBit = 2 ^ 31 := by decide +kernel
  have e2 : f64.signBit = 2 ^ 63 := by decide +kernel
  have b1 : b < 2 ^ 31 := lt_of_le_of_lt h2.le_inf (by decide +kernel)
  have b2 : c < 2 ^ 63 := lt_of_le_of_lt h4.le_inf (by decide +kernel)
  rw [IBig.natAbs_value]
  refine ⟨⟨b, ?_, h2⟩, c, ?_, h4⟩
  · show (do let val ← a.mag.toF32 cfg; _) = _
    rw [h1]
    show (match a.sign with | .pos => _ | .neg => _) = _
    cases h : a.sign with
    | pos => rw [if_neg (by have := hs.mpr h; omega)]
    | neg =>
      rw [if_pos (by by_contra h'; have := hs.mp (by omega); rw [h] at this; cases this)]
      simp only
      rw [e1, hx b1]
  · show (do let val ← a.mag.toF64 cfg; _) = _
    rw [h3]
    show (match a.sign with | .pos => _ | .neg => _) = _
    cases h : a.sign with
    | pos => rw [if_neg (by have := hs.mpr h; omega)]
    | neg =>
      rw [if_pos (by by_contra h'; have := hs.mp (by omega); rw [h] at this; cases this)]
      simp only
      rw [e2, hx b2]

/-- A negative two-word integer. -/
example := C19_ibig_to_float cfg64_valid exNegA_wf

/-- `2^128 - 1` rounds to infinity as `f32` and to `2^128` as `f64`; `-(2^64+5)` rounds to `-2^64`. -/
example : exA.toF32 cfg64 = .ok f32.inf ∧ exA.toF64 cfg64 = .ok ((1023 + 128) * 2 ^ 52) ∧
    exNegB.toF32 cfg64 = .ok (2 ^ 31 + (127 + 64) * 2 ^ 23) := by decide +kernel
example : f32.overflow = 2 ^ 128 - 2 ^ 103 ∧ f32.toRat ((127 + 64) * 2 ^ 23) = 2 ^ 64 := by
  constructor
  · decide +kernel
  · rw [FloatFmt.toRat]; norm_num [f32]
/-- ties go to even: `2^24 + 1` and `2^24 + 3` -/
example : (UBig.large ⟨[1, 256], 4⟩).toF32 cfg16 = .ok ((127 + 24) * 2 ^ 23) ∧
    (UBig.large ⟨[3, 256], 4⟩).toF32 cfg16 = .ok ((127 + 24) * 2 ^ 23 + 2) := by decide +kernel

end Ibig
