import Verif.Proofs.BitCount
import Verif.Spec.Examples
/-!
# Properties C11–C16: shifts, bitwise operators, single bits and bit counts

Bits of a natural number are `Nat.testBit`; bits of an integer are `ibit` (infinite two's complement,
`Spec/Bits.lean`). Shift amounts are `usize` values, hence `n < 2 ^ cfg.U`.
-/
namespace Ibig

/-- C11: `UBig` shifts multiply by `2^n` and divide by `2^n`. -/
theorem C11_ubig_shift {cfg : Cfg} (hv : cfg.Valid) (o : Own) {a : UBig} (ha : a.WF cfg) {n : Nat}
    (hn : n < 2 ^ cfg.U) :
    Yields cfg (a.shl cfg o n) (a.value cfg * 2 ^ n) ∧
    ∃ c, a.shr cfg o n = .ok c ∧ c.WF cfg ∧ c.value cfg = a.value cfg / 2 ^ n :=
  ⟨UBig.shl_spec hv o ha hn, UBig.shr_spec hv o ha n⟩

example : Yields cfg64 (exLong.shl cfg64 .ref 1000003) (exLong.value cfg64 * 2 ^ 1000003) :=
  (C11_ubig_shift cfg64_valid .ref exLong_wf (by decide +kernel)).1
example : exB.shl cfg64 .val 68 = .ok (.large ⟨[0, 80, 16], 6⟩) ∧
    exB.shr cfg64 .val 1 = .ok (.small (2 ^ 63 + 2)) ∧
    (UBig.small 1).shl cfg64 .val (2 ^ 64 - 1) = .error .tooLarge := by decide +kernel

/-- C12: `IBig` shifts; the right shift rounds towards minus infinity (`/` on `Int` with a positive
divisor is floor division). -/
theorem C12_ibig_shift {cfg : Cfg} (hv : cfg.Valid) (o : Own) {a : IBig} (ha : a.WF cfg) {n : Nat}
    (hn : n < 2 ^ cfg.U) :
    IYields cfg (a.shl cfg o n) (a.value cfg * 2 ^ n) ∧
    ∃ c, a.shr cfg o n = .ok c ∧ c.WF cfg ∧
      c.value cfg * 2 ^ n ≤ a.value cfg ∧ a.value cfg < (c.value cfg + 1) * 2 ^ n := by
  refine ⟨IBig.shl_spec hv o ha hn, ?_⟩
  obtain ⟨c, h1, h2, h3⟩ := IBig.shr_spec hv o ha n
  have hp : (0 : Int) < 2 ^ n := by positivity
  refine ⟨c, h1, h2, ?_, ?_⟩
  · rw [h3]; exact Int.ediv_mul_le _ hp.ne'
  · rw [h3]; exact Int.lt_ediv_add_one_mul_self _ hp

/-- A negative two-word integer shifted by 1000. -/
example := C12_ibig_shift cfg64_valid .ref exNegA_wf (n := 1000) (by decide +kernel)

/-- `-(2^64 + 5) >> 65 = -1` -/
example : exNegB.shr cfg64 .ref 65 = .ok ⟨.neg, .small 1⟩ ∧
    exNegB.shr cfg64 .val 2 = .ok ⟨.neg, .small (2 ^ 62 + 2)⟩ := by decide +kernel

/-- C13: the `UBig` bitwise operators act bit by bit. -/
theorem C13_ubig_bitwise {cfg : Cfg} (hv : cfg.Valid) (o1 o2 : Own) {a b : UBig} (ha : a.WF cfg)
    (hb : b.WF cfg) :
    (∃ c, UBig.bitand cfg o1 o2 a b = .ok c ∧ c.WF cfg ∧ ∀ i, (c.value cfg).testBit i =
      ((a.value cfg).testBit i && (b.value cfg).testBit i)) ∧
    (∃ c, UBig.bitor cfg o1 o2 a b = .ok c ∧ c.WF cfg ∧ ∀ i, (c.value cfg).testBit i =
      ((a.value cfg).testBit i || (b.value cfg).testBit i)) ∧
    (∃ c, UBig.bitxor cfg o1 o2 a b = .ok c ∧ c.WF cfg ∧ ∀ i, (c.value cfg).testBit i =
      ((a.value cfg).testBit i ^^ (b.value cfg).testBit i)) ∧
    (∃ c, UBig.andNot cfg o1 o2 a b = .ok c ∧ c.WF cfg ∧ ∀ i, (c.value cfg).testBit i =
      ((a.value cfg).testBit i && !(b.value cfg).testBit i)) :=
  ⟨UBig.bitand_spec hv o1 o2 ha hb, UBig.bitor_spec hv o1 o2 ha hb, UBig.bitxor_spec hv o1 o2 ha hb,
    UBig.andNot_spec hv o1 o2 ha hb⟩

/-- A two-word number and a 300-word number. -/
example := C13_ubig_bitwise cfg64_valid .ref .val exA_wf exLong_wf

example : UBig.bitand cfg64 .ref .val exLong exB = .ok exB ∧
    UBig.bitxor cfg64 .ref .ref exA exB = .ok (.large ⟨[2 ^ 64 - 6, 2 ^ 64 - 2], 4⟩) ∧
    UBig.andNot cfg64 .val .val exB (.small 4) = .ok (.large ⟨[1, 1], 2⟩) ∧
    UBig.bitor cfg64 .val .val exB (.small 2) = .ok (.large ⟨[7, 1], 2⟩) := by decide +kernel

/-- C14: the `IBig` bitwise operators act on two's complement. The result `z` has the prescribed bits
(which determine it: `C14_bits_determine`), and the operator yields `z`. -/
theorem C14_ibig_bitwise {cfg : Cfg} (hv : cfg.Valid) (o1 o2 : Own) {a b : IBig} (ha : a.WF cfg)
    (hb : b.WF cfg) :
    (∃ z : Int, (∀ i, ibit z i = !ibit (a.value cfg) i) ∧ IYields cfg (a.not cfg o1) z) ∧
    (∃ z : Int, (∀ i, ibit z i = (ibit (a.value cfg) i && ibit (b.value cfg) i)) ∧
      IYields cfg (IBig.bitand cfg o1 o2 a b) z) ∧
    (∃ z : Int, (∀ i, ibit z i = (ibit (a.value cfg) i || ibit (b.value cfg) i)) ∧
      IYields cfg (IBig.bitor cfg o1 o2 a b) z) ∧
    (∃ z : Int, (∀ i, ibit z i = (ibit (a.value cfg) i ^^ ibit (b.value cfg) i)) ∧
      IYields cfg (IBig.bitxor cfg o1 o2 a b) z) ∧
    (∃ z : Int, (∀ i, ibit z i = (ibit (a.value cfg) i && !ibit (b.value cfg) i)) ∧
      IYields cfg (IBig.andNot cfg o1 o2 a b) z) :=
  ⟨⟨_, fun i => ibit_not _ i, IBig.not_spec hv o1 ha⟩, IBig.bitand_spec hv o1 o2 ha hb,
    IBig.bitor_spec hv o1 o2 ha hb, IBig.bitxor_spec hv o1 o2 ha hb, IBig.andNot_spec hv o1 o2 ha hb⟩

/-- A negative and a positive integer. -/
example := C14_ibig_bitwise cfg64_valid .val .ref exNegA_wf exPosB_wf

/-- C14: an integer is determined by its two's complement bits. -/
theorem C14_bits_determine {a b : Int} (h : ∀ i, ibit a i = ibit b i) : a = b := ibit_ext h

example : IBig.bitand cfg64 .ref .val exNegB exPosB = .ok ⟨.pos, .small 1⟩ ∧
    IBig.bitor cfg64 .ref .val exNegB exPosB = .ok ⟨.neg, .small 1⟩ ∧
    IBig.not cfg64 .ref exNegB = .ok ⟨.pos, .large ⟨[4, 1], 4⟩⟩ := by decide +kernel

/-- C15: `bit` and `set_bit`. -/
theorem C15_bit_set_bit {cfg : Cfg} (hv : cfg.Valid) {a : UBig} (ha : a.WF cfg) (n : Nat) :
    a.bit cfg n = .ok ((a.value cfg).testBit n) ∧
    ∃ m : Nat, (∀ i, m.testBit i = (decide (i = n) || (a.value cfg).testBit i)) ∧
      Yields cfg (a.setBit cfg n) m :=
  ⟨UBig.bit_spec hv ha n, UBig.setBit_spec hv ha n⟩

/-- A bit far above the top of the number. -/
example := C15_bit_set_bit cfg64_valid exA_wf 1000

example : exB.setBit cfg64 200 = .ok (.large ⟨[5, 1, 0, 256], 6⟩) ∧ exB.bit cfg64 64 = .ok true ∧
    exB.bit cfg64 1000 = .ok false := by decide +kernel

/-- C15, `clear_bit`, for a position inside the word or a number of more than one word.
Missing (and false, see `C15_clear_bit_violated`): a single-word number and a position beyond it. -/
theorem C15_clear_bit_partial {cfg : Cfg} (hv : cfg.Valid) {a : UBig} (ha : a.WF cfg) {n : Nat}
    (hn : n < cfg.W ∨ 2 ^ cfg.W ≤ a.value cfg) :
    ∃ c, a.clearBit cfg n = .ok c ∧ c.WF cfg ∧
      ∀ i, (c.value cfg).testBit i = ((a.value cfg).testBit i && decide (i ≠ n)) :=
  UBig.clearBit_spec hv ha hn

/-- A bit in the second word of a two-word number. -/
example := C15_clear_bit_partial cfg64_valid exA_wf (n := 100) (Or.inr (by decide +kernel))

example : exB.clearBit cfg64 64 = .ok (.small 5) ∧ exB.clearBit cfg64 200 = .ok exB ∧
    (UBig.small 5).clearBit cfg64 2 = .ok (.small 1) := by decide +kernel

/-- C15 is violated: for every build, every non-zero single-word number and every position from the word
size on, `clear_bit` sets the number to zero instead of leaving it unchanged. -/
theorem C15_clear_bit_violated {cfg : Cfg} {w n : Nat} (hn : cfg.W ≤ n) (hw0 : w ≠ 0)
    (hw : w < 2 ^ cfg.W) :
    (UBig.small w).WF cfg ∧ ¬∃ c, (UBig.small w).clearBit cfg n = .ok c ∧ c.WF cfg ∧
      ∀ i, (c.value cfg).testBit i = (((UBig.small w).value cfg).testBit i && decide (i ≠ n)) := by
  refine ⟨hw, ?_⟩
  rintro ⟨c, h1, -, h3⟩
  rw [show (UBig.small w).clearBit cfg n = .ok (.small 0) by
    unfold UBig.clearBit; simp only; rw [if_neg (by omega)]; rfl] at h1
  cases h1
  obtain ⟨i, hi⟩ := Nat.exists_testBit_of_ne_zero hw0
  have h4 := h3 i
  have hin : i ≠ n := by
    rintro rfl
    rw [Nat.testBit_lt_two_pow (lt_of_lt_of_le hw (Nat.pow_le_pow_right (by norm_num) hn))] at hi
    cases hi
  simp only [UBig.value, Nat.zero_testBit, hi, hin, ne_eq, not_false_eq_true, decide_true,
    Bool.and_true] at h4
  cases h4

/-- `ubig!(5).clear_bit(64)` gives 0 on a 64-bit build -/
example : (UBig.small 5).clearBit cfg64 64 = .ok (.small 0) := by decide +kernel

/-- C16: `trailing_zeros`, `bit_len`, `is_power_of_two`, `next_power_of_two` of `UBig`. -/
theorem C16_bit_counts {cfg : Cfg} (hv : cfg.Valid) (o : Own) {a : UBig} (ha : a.WF cfg) :
    (a.value cfg = 0 → a.trailingZeros cfg = .ok none) ∧
    (a.value cfg ≠ 0 → ∃ k, a.trailingZeros cfg = .ok (some k) ∧ 2 ^ k ∣ a.value cfg ∧
      ∀ j, 2 ^ j ∣ a.value cfg → j ≤ k) ∧
    (∃ k, a.bitLen cfg = .ok k ∧ a.value cfg < 2 ^ k ∧ ∀ j, a.value cfg < 2 ^ j → k ≤ j) ∧
    (∃ r, a.isPowerOfTwo = .ok r ∧ (r = true ↔ ∃ k, a.value cfg = 2 ^ k)) ∧
    (∃ k, Yields cfg (a.nextPowerOfTwo cfg o) (2 ^ k) ∧ a.value cfg ≤ 2 ^ k ∧
      ∀ j, a.value cfg ≤ 2 ^ j → k ≤ j) := by
  obtain ⟨r, h1, h2⟩ := UBig.trailingZeros_spec hv ha
  refine ⟨?_, ?_, ?_, UBig.isPowerOfTwo_spec hv ha, ?_⟩
  · intro h0
    cases r with
    | none => exact h1
    | some k => exact absurd h0 h2.1
  · intro h0
    cases r with
    | none => exact absurd h2 h0
    | some k =>
      refine ⟨k, h1, h2.2.1, fun j hj => ?_⟩
      by_contra hc
      exact h2.2.2 (dvd_trans (pow_dvd_pow 2 (by omega)) hj)
  · exact ⟨_, UBig.bitLen_spec hv ha, lt_two_pow_bitLen _, fun j hj => bitLen_le_iff.mpr hj⟩
  · exact ⟨_, UBig.nextPowerOfTwo_spec hv o ha, (le_two_pow_iff _ _).mpr le_rfl,
      fun j hj => (le_two_pow_iff _ _).mp hj⟩

/-- `3·2^(64·99)` -/
example := (C16_bit_counts cfg64_valid .ref exMid_wf).2.1 (by decide +kernel)

example : exMid.trailingZeros cfg64 = .ok (some 6336) ∧ exMid.bitLen cfg64 = .ok 6338 ∧
    exMid.isPowerOfTwo = .ok false ∧
    exA.nextPowerOfTwo cfg64 .val = .ok (.large ⟨[0, 0, 1], 5⟩) := by decide +kernel

/-- C16: `IBig::trailing_zeros`. -/
theorem C16_ibig_trailing_zeros {cfg : Cfg} (hv : cfg.Valid) {a : IBig} (ha : a.WF cfg) :
    (a.value cfg = 0 → a.trailingZeros cfg = .ok none) ∧
    (a.value cfg ≠ 0 → ∃ k, a.trailingZeros cfg = .ok (some k) ∧ (2 : Int) ^ k ∣ a.value cfg ∧
      ∀ j, (2 : Int) ^ j ∣ a.value cfg → j ≤ k) := by
  obtain ⟨h1, h2, -⟩ := C16_bit_counts hv .val ha.mag
  have e : ∀ j, (2 : Int) ^ j ∣ a.value cfg ↔ 2 ^ j ∣ a.mag.value cfg := by
    intro j
    rw [← Int.natAbs_dvd_natAbs, Int.natAbs_pow, IBig.natAbs_value]; rfl
  refine ⟨fun h => h1 ((IBig.value_eq_zero).mp h), fun h => ?_⟩
  obtain ⟨k, g1, g2, g3⟩ := h2 (fun h' => h ((IBig.value_eq_zero).mpr h'))
  exact ⟨k, g1, (e k).mpr g2, fun j hj => g3 j ((e j).mp hj)⟩

/-- `-(2^64 + 5)` -/
example := (C16_ibig_trailing_zeros cfg64_valid exNegB_wf).2 (by decide +kernel)

example : exNegB.trailingZeros cfg64 = .ok (some 0) ∧
    (⟨.neg, exMid⟩ : IBig).trailingZeros cfg64 = .ok (some 6336) := by decide +kernel

end Ibig
