import Verif.Proofs.Float
import Verif.Spec.FloatOrder
import Mathlib.Tactic.NormNum
/-! Facts about the float nearest to an integer. -/
namespace Ibig

theorem FloatFmt.inf_lt_signBit (f : FloatFmt) : f.inf < f.signBit := by
  unfold FloatFmt.inf FloatFmt.signBit
  exact Nat.mul_lt_mul_of_pos_right (by omega) (Nat.two_pow_pos _)

theorem FloatFmt.toRat_nonneg (f : FloatFmt) (b : Nat) : 0 ≤ f.toRat b := by
  unfold FloatFmt.toRat
  split <;> exact mul_nonneg (Nat.cast_nonneg _) (zpow_nonneg (by norm_num) _)

theorem FloatFmt.toRat_zero (f : FloatFmt) : f.toRat 0 = 0 := by
  rw [f.toRat_sub (Nat.zero_le _)]; simp

theorem FloatFmt.Nearest.top_le {f : FloatFmt} {n b : Nat} (h : f.Nearest n b) : b ≤ f.inf := by
  rcases Nat.lt_or_ge n f.overflow with h1 | h1
  · exact (h.1 h1).1.le
  · exact (h.2 h1).le

/-- The nearest float is at least as near as every other. -/
theorem FloatFmt.Nearest.near {f : FloatFmt} {n b c : Nat} (h : f.Nearest n b) (hn : n < f.overflow)
    (hc : c < f.inf) : |f.toRat b - n| ≤ |f.toRat c - n| := by
  by_cases e : c = b
  · rw [e]
  · rcases (h.1 hn).2 c hc e with h | h
    · exact h.le
    · exact h.1.le

theorem FloatFmt.Nearest.mono {f : FloatFmt} {n m b c : Nat} (hb : f.Nearest n b) (hc : f.Nearest m c)
    (h : n < m) : b ≤ c := by
  rcases Nat.lt_or_ge m f.overflow with hm | hm
  swap
  · rw [hc.2 hm]; exact hb.top_le
  by_contra hlt
  have hlt' : c < b := by omega
  have m1 := f.toRat_strictMono hlt'
  have h1 := hb.near (by omega) (hc.1 hm).1
  have h2 := hc.near hm (hb.1 (by omega)).1
  have hq : (n : ℚ) < m := by exact_mod_cast h
  rcases abs_cases (f.toRat b - n) with a1 | a1 <;> rcases abs_cases (f.toRat c - n) with a2 | a2 <;>
    rcases abs_cases (f.toRat b - m) with a3 | a3 <;> rcases abs_cases (f.toRat c - m) with a4 | a4 <;>
    linarith [a1.1, a1.2, a2.1, a2.2, a3.1, a3.2, a4.1, a4.2]

/-- A number with at most `mant + 1` significant bits that is not too large is a float. -/
theorem FloatFmt.exact {f : FloatFmt} (hf : f.OK) {k j : Nat} (hk : k < 2 ^ (f.mant + 1))
    (hn : k * 2 ^ j < 2 ^ (f.bias + 1)) :
    k * 2 ^ j < f.overflow ∧ ∃ b < f.inf, f.toRat b = ((k * 2 ^ j : Nat) : ℚ) := by
  have hm := hf.mant
  have hb := hf.bias
  have hP : 0 < 2 ^ f.mant := Nat.two_pow_pos _
  by_cases h0 : k = 0
  · subst h0
    refine ⟨?_, 0, ?_, ?_⟩
    · rw [Nat.zero_mul]
      unfold FloatFmt.overflow
      have : 2 ^ (f.bias - f.mant - 1) < 2 ^ (f.bias + 1) := Nat.pow_lt_pow_right (by omega) (by omega)
      omega
    · unfold FloatFmt.inf; exact Nat.mul_pos (by omega) hP
    · rw [f.toRat_zero]; simp
  have hl1 := Nat.log2_self_le h0
  have hl2 := Nat.lt_log2_self (n := k)
  have hlm : k.log2 ≤ f.mant := by
    have := (Nat.pow_lt_pow_iff_right (a := 2) (by omega)).mp (lt_of_le_of_lt hl1 hk)
    omega
  generalize k.log2 = l at *
  have hlj : l + j ≤ f.bias := by
    have h1 : 2 ^ (l + j) ≤ k * 2 ^ j := by rw [Nat.pow_add]; exact Nat.mul_le_mul_right _ hl1
    have := (Nat.pow_lt_pow_iff_right (a := 2) (by omega)).mp (lt_of_le_of_lt h1 hn)
    omega
  have hq1 : 2 ^ f.mant ≤ k * 2 ^ (f.mant - l) := by
    calc 2 ^ f.mant = 2 ^ l * 2 ^ (f.mant - l) := by rw [← Nat.pow_add]; congr 1; omega
      _ ≤ _ := Nat.mul_le_mul_right _ hl1
  have hq2 : k * 2 ^ (f.mant - l) < 2 * 2 ^ f.mant := by
    calc k * 2 ^ (f.mant - l) < 2 ^ (l + 1) * 2 ^ (f.mant - l) :=
          Nat.mul_lt_mul_of_pos_right hl2 (Nat.two_pow_pos _)
      _ = 2 * 2 ^ f.mant := by rw [← Nat.pow_add, ← Nat.pow_succ']; congr 1; omega
  have t := f.toRat_eq (e := l + j + f.bias) (by omega) hq1 hq2.le
  have e : ((k * 2 ^ (f.mant - l) : Nat) : ℚ) * (2 : ℚ) ^ (((l + j + f.bias : Nat) : ℤ) - f.bias - f.mant) =
      ((k * 2 ^ j : Nat) : ℚ) := by
    push_cast
    rw [mul_assoc, ← zpow_natCast (2 : ℚ) (f.mant - l), ← zpow_add₀ (by norm_num),
      show (((f.mant - l : ℕ) : ℤ) + ((l : ℤ) + j + f.bias - f.bias - f.mant)) = ((j : ℕ) : ℤ) by omega,
      zpow_natCast]
  rw [e] at t
  refine ⟨?_, _, ?_, t⟩
  · -- the number is at most `(2^(mant+1) - 1) * 2^(bias-mant)`
    have hov : f.overflow + 2 ^ (f.bias - f.mant - 1) = 2 ^ (f.bias + 1) := by
      unfold FloatFmt.overflow
      have : 2 ^ (f.bias - f.mant - 1) < 2 ^ (f.bias + 1) := Nat.pow_lt_pow_right (by omega) (by omega)
      omega
    have hh : 2 ^ (f.bias - f.mant) = 2 * 2 ^ (f.bias - f.mant - 1) := by
      rw [← Nat.pow_succ']; congr 1; omega
    have hD := Nat.two_pow_pos (f.bias - f.mant - 1)
    have h3 : k * 2 ^ j * 2 ^ (f.mant - l) ≤ (2 * 2 ^ f.mant - 1) * 2 ^ j := by
      rw [Nat.mul_right_comm]; exact Nat.mul_le_mul_right _ (by omega)
    -- scale by a power of two so that the exponent is `bias - mant`
    have h4 : k * 2 ^ j * 2 ^ (f.mant - l) * 2 ^ (f.bias - j - l) ≤
        (2 * 2 ^ f.mant - 1) * 2 ^ j * 2 ^ (f.bias - j - l) := Nat.mul_le_mul_right _ h3
    have h5 : k * 2 ^ j * 2 ^ (f.mant - l) ≤ (2 * 2 ^ f.mant - 1) * 2 ^ (f.bias - l) := by
      refine le_trans h3 (Nat.mul_le_mul_left _ (Nat.pow_le_pow_right (by omega) (by omega)))
    have h6 : (2 * 2 ^ f.mant - 1) * 2 ^ (f.bias - l) =
        (2 * 2 ^ f.mant - 1) * 2 ^ (f.bias - f.mant) * 2 ^ (f.mant - l) := by
      rw [Nat.mul_assoc, ← Nat.pow_add]; congr 2; omega
    rw [h6] at h5
    have h7 := Nat.le_of_mul_le_mul_right h5 (Nat.two_pow_pos _)
    have h8 : (2 * 2 ^ f.mant - 1) * 2 ^ (f.bias - f.mant) + 2 ^ (f.bias - f.mant) = 2 ^ (f.bias + 1) := by
      rw [← Nat.succ_mul, Nat.succ_eq_add_one, Nat.sub_add_cancel (by omega), ← Nat.pow_succ', ← Nat.pow_add]
      congr 1; omega
    omega
  · unfold FloatFmt.inf
    have : (l + j + f.bias - 1) * 2 ^ f.mant + 2 * 2 ^ f.mant ≤ (2 * f.bias + 1) * 2 ^ f.mant := by
      rw [← Nat.add_mul]; exact Nat.mul_le_mul_right _ (by omega)
    omega

/-- Such a number is converted exactly. -/
theorem FloatFmt.Nearest.exact {f : FloatFmt} (hf : f.OK) {k j b : Nat} (hk : k < 2 ^ (f.mant + 1))
    (hn : k * 2 ^ j < 2 ^ (f.bias + 1)) (h : f.Nearest (k * 2 ^ j) b) :
    b < f.inf ∧ f.toRat b = ((k * 2 ^ j : Nat) : ℚ) := by
  obtain ⟨ho, c, hc, e⟩ := FloatFmt.exact hf hk hn
  refine ⟨(h.1 ho).1, ?_⟩
  have := h.near ho hc
  rw [e, sub_self, abs_zero] at this
  exact sub_eq_zero.mp (abs_nonpos_iff.mp this)

/-- Half a unit in the last place bounds the error. -/
theorem FloatFmt.Nearest.error {f : FloatFmt} (hf : f.OK) {n b : Nat} (hn : n < f.overflow)
    (h : f.Nearest n b) : |f.toRat b - n| * 2 ^ (f.mant + 1) ≤ n := by
  have hm := hf.mant
  have hb := hf.bias
  have hov : f.overflow + 2 ^ (f.bias - f.mant - 1) = 2 ^ (f.bias + 1) := by
    unfold FloatFmt.overflow
    have : 2 ^ (f.bias - f.mant - 1) < 2 ^ (f.bias + 1) := Nat.pow_lt_pow_right (by omega) (by omega)
    omega
  have hD := Nat.two_pow_pos (f.bias - f.mant - 1)
  by_cases hs : n < 2 ^ (f.mant + 1)
  · have := (FloatFmt.Nearest.exact hf (j := 0) (b := b) hs (by omega) (by simpa using h)).2
    simp only [pow_zero, mul_one] at this
    rw [this, sub_self, abs_zero, zero_mul]
    positivity
  have h0 : n ≠ 0 := by have := Nat.two_pow_pos (f.mant + 1); omega
  have hl1 := Nat.log2_self_le h0
  have hl2 := Nat.lt_log2_self (n := n)
  have hlm : f.mant + 1 ≤ n.log2 := (Nat.le_log2 h0).mpr (by omega)
  have hlb : n.log2 ≤ f.bias := by
    have := (Nat.pow_lt_pow_iff_right (a := 2) (by omega)).mp (lt_of_le_of_lt hl1 (show n < 2 ^ (f.bias + 1) by omega))
    omega
  generalize n.log2 = l at *
  obtain ⟨s, rfl⟩ : ∃ s, l = f.mant + 1 + s := ⟨l - (f.mant + 1), by omega⟩
  -- `n` lies between two neighbouring multiples of `2^(s+1)`
  have hnd := Nat.div_add_mod' n (2 ^ (s + 1))
  have hr := Nat.mod_lt n (Nat.two_pow_pos (s + 1))
  have hS : 2 ^ (s + 1) = 2 * 2 ^ s := Nat.pow_succ'
  have hq2 : n / 2 ^ (s + 1) < 2 ^ (f.mant + 1) := by
    rw [Nat.div_lt_iff_lt_mul (Nat.two_pow_pos _), ← Nat.pow_add]
    rwa [show f.mant + 1 + (s + 1) = f.mant + 1 + s + 1 by omega]
  generalize n / 2 ^ (s + 1) = q at *
  generalize n % 2 ^ (s + 1) = r at *
  have key : |f.toRat b - n| ≤ (2 : ℚ) ^ s := by
    rcases Nat.lt_or_ge (2 ^ s) r with hup | hup
    · rcases Nat.lt_or_ge (q + 1) (2 ^ (f.mant + 1)) with hq3 | hq3
      · have hlt : (q + 1) * 2 ^ (s + 1) < 2 ^ (f.bias + 1) := by
          calc (q + 1) * 2 ^ (s + 1) < 2 ^ (f.mant + 1) * 2 ^ (s + 1) :=
                Nat.mul_lt_mul_of_pos_right hq3 (Nat.two_pow_pos _)
            _ = 2 ^ (f.mant + 1 + (s + 1)) := (Nat.pow_add ..).symm
            _ ≤ _ := Nat.pow_le_pow_right (by omega) (by omega)
        obtain ⟨-, c, hc, e⟩ := FloatFmt.exact hf hq3 hlt
        refine le_trans (h.near hn hc) ?_
        rw [e, abs_of_nonneg]
        · have : (q + 1) * 2 ^ (s + 1) ≤ n + 2 ^ s := by rw [Nat.add_mul, one_mul]; omega
          have : (((q + 1) * 2 ^ (s + 1) : Nat) : ℚ) ≤ ((n + 2 ^ s : Nat) : ℚ) := by exact_mod_cast this
          rw [Nat.cast_add, Nat.cast_pow, Nat.cast_ofNat] at this
          linarith
        · have : n ≤ (q + 1) * 2 ^ (s + 1) := by rw [Nat.add_mul, one_mul]; omega
          have : (n : ℚ) ≤ (((q + 1) * 2 ^ (s + 1) : Nat) : ℚ) := by exact_mod_cast this
          linarith
      · have hq4 : q + 1 = 2 ^ (f.mant + 1) := by omega
        have e2 : (q + 1) * 2 ^ (s + 1) = 2 ^ (f.mant + 1 + s + 1) := by
          rw [hq4, ← Nat.pow_add]; congr 1
        have hlt : 2 ^ (f.mant + 1 + s + 1) < 2 ^ (f.bias + 1) := by
          by_contra hge
          have hle : f.bias + 1 ≤ f.mant + 1 + s + 1 :=
            (Nat.pow_le_pow_iff_right (a := 2) (by omega)).mp (Nat.le_of_not_lt hge)
          have hes : f.bias - f.mant - 1 = s := by omega
          have : 2 ^ (f.bias + 1) = (q + 1) * 2 ^ (s + 1) := by rw [e2]; congr 1; omega
          rw [Nat.add_mul, one_mul] at this
          rw [hes] at hov
          omega
        have he := FloatFmt.exact hf (k := 1) (j := f.mant + 1 + s + 1)
          (Nat.one_lt_two_pow (by omega)) (by rw [one_mul]; exact hlt)
        rw [one_mul, ← e2] at he
        obtain ⟨-, c, hc, e⟩ := he
        refine le_trans (h.near hn hc) ?_
        rw [e, abs_of_nonneg]
        · have : (q + 1) * 2 ^ (s + 1) ≤ n + 2 ^ s := by rw [Nat.add_mul, one_mul]; omega
          have : (((q + 1) * 2 ^ (s + 1) : Nat) : ℚ) ≤ ((n + 2 ^ s : Nat) : ℚ) := by exact_mod_cast this
          rw [Nat.cast_add, Nat.cast_pow, Nat.cast_ofNat] at this
          linarith
        · have : n ≤ (q + 1) * 2 ^ (s + 1) := by rw [Nat.add_mul, one_mul]; omega
          have : (n : ℚ) ≤ (((q + 1) * 2 ^ (s + 1) : Nat) : ℚ) := by exact_mod_cast this
          linarith
    · obtain ⟨-, c, hc, e⟩ := FloatFmt.exact hf (k := q) (j := s + 1) hq2 (by omega)
      refine le_trans (h.near hn hc) ?_
      rw [e, abs_sub_comm, abs_of_nonneg]
      · have : n ≤ q * 2 ^ (s + 1) + 2 ^ s := by omega
        have : (n : ℚ) ≤ ((q * 2 ^ (s + 1) + 2 ^ s : Nat) : ℚ) := by exact_mod_cast this
        rw [Nat.cast_add, Nat.cast_pow, Nat.cast_ofNat] at this
        linarith
      · have : q * 2 ^ (s + 1) ≤ n := by omega
        have : ((q * 2 ^ (s + 1) : Nat) : ℚ) ≤ (n : ℚ) := by exact_mod_cast this
        linarith
  calc |f.toRat b - n| * 2 ^ (f.mant + 1) ≤ 2 ^ s * 2 ^ (f.mant + 1) :=
        mul_le_mul_of_nonneg_right key (by positivity)
    _ = ((2 ^ (f.mant + 1 + s) : Nat) : ℚ) := by push_cast; rw [← pow_add]; congr 1; omega
    _ ≤ n := by exact_mod_cast hl1

end Ibig
