import Verif.Props.Bits
/-!
# C15: exactly when `clear_bit` is right

`C15_clear_bit_violated` says that `clear_bit` is wrong for some arguments.  Here is what it does for all arguments, and for
exactly which of them this is what it should do.
-/
namespace Ibig

/-- C15: `clear_bit` never panics.  It sets a number of one word to zero if the position is beyond the word, and
clears the bit otherwise.  So it is right exactly if the position is in the first word, or the number has more than one word,
or the number is zero. -/
theorem C15_clear_bit_exact {cfg : Cfg} (hv : cfg.Valid) {a : UBig} (ha : a.WF cfg) (n : Nat) :
    ∃ c, a.clearBit cfg n = .ok c ∧ c.WF cfg ∧
      c.value cfg = (if a.value cfg < 2 ^ cfg.W ∧ cfg.W ≤ n then 0 else (a.value cfg).ldiff (2 ^ n)) ∧
      ((∀ i, (c.value cfg).testBit i = ((a.value cfg).testBit i && decide (i ≠ n))) ↔
        n < cfg.W ∨ 2 ^ cfg.W ≤ a.value cfg ∨ a.value cfg = 0) := by
  by_cases h : n < cfg.W ∨ 2 ^ cfg.W ≤ a.value cfg
  · obtain ⟨c, h1, h2, h3⟩ := C15_clear_bit_partial hv ha h
    refine ⟨c, h1, h2, ?_, fun _ => by tauto, fun _ => h3⟩
    rw [if_neg (by omega)]
    refine Nat.eq_of_testBit_eq fun i => ?_
    rw [h3, Nat.testBit_ldiff, Nat.testBit_two_pow]
    by_cases hi : i = n
    · subst hi; simp
    · simp [hi, Ne.symm hi]
  · have h1 : cfg.W ≤ n := by omega
    have h2 : a.value cfg < 2 ^ cfg.W := by omega
    rcases a with w | b
    · refine ⟨.small 0, ?_, Nat.two_pow_pos _, ?_, ?_⟩
      · unfold UBig.clearBit; simp only; rw [if_neg (by omega)]; rfl
      · rw [if_pos ⟨h2, h1⟩]; rfl
      · constructor
        · intro h3
          right; right
          by_contra h0
          exact (C15_clear_bit_violated h1 h0 h2).2 ⟨.small 0, by
            unfold UBig.clearBit; simp only; rw [if_neg (by omega)]; rfl, Nat.two_pow_pos _, h3⟩
        · intro h3 i
          have h4 : (UBig.small w).value cfg = 0 := by omega
          rw [h4]
          show Nat.testBit 0 i = _
          simp
    · have h3 : base cfg.W ≤ val cfg.W b.words := Buffer.WF.ge_base ha
      exact absurd (lt_of_lt_of_le h2 h3) (lt_irrefl _)

/-- The three cases in which it is right, and one in which it is wrong. -/
example := C15_clear_bit_exact cfg64_valid exA_wf 100
example : (UBig.small 0).clearBit cfg64 64 = .ok (.small 0) ∧ (UBig.small 7).clearBit cfg64 1 = .ok (.small 5) ∧
    exB.clearBit cfg64 64 = .ok (.small 5) ∧ (UBig.small 7).clearBit cfg64 64 = .ok (.small 0) := by decide +kernel

end Ibig
