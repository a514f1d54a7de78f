import Verif.Proofs.Checked
import Verif.Proofs.Parse
import Verif.Spec.Examples
import Verif.Spec.ExamplesModular
/-! C66: builds with and without overflow checks behave alike.  Where the model computes with unlimited integers, the
arithmetic of the machine gives the same numbers, and no overflow check fails. -/
namespace Ibig

/-- C66: multiplying words by a word. -/
theorem C66_mul_word {W rhs : Nat} (hr : rhs < base W) {l : List Nat} {c : Nat} (hl : IsWords W l)
    (hc : c < base W) : Checked.mulWordLoop W rhs l c = .ok (mulWordLoop W rhs l c) := by
  induction l generalizing c with
  | nil => rfl
  | cons a as ih =>
    have ha : a < base W := hl a (by simp)
    have h := mul_add_add_lt ha hr hc (d := 0) (by omega)
    rw [base_sq] at h
    unfold Checked.mulWordLoop
    rw [ckMul_ok (by omega)]
    simp only [bind, Except.bind]
    rw [ckAdd_ok (by omega)]
    simp only [mulWordLoop]
    rw [ih (fun x hx => hl x (by simp [hx])) (splitDoubleWord_hi_lt (by omega))]

/-- The largest words. -/
example := C66_mul_word (W := 16) (rhs := 65535) (by decide) (l := [65535, 65535]) (c := 65535)
  (by unfold IsWords; decide) (by decide)

/-- C66: adding a multiple. -/
theorem C66_add_mul_word {W m : Nat} (hm : m < base W) {l r : List Nat} {c : Nat} (hl : IsWords W l)
    (hr : IsWords W r) (hc : c < base W) :
    Checked.addMulWordLoop W m l r c = .ok (addMulWordLoop W m l r c) := by
  induction l generalizing c r with
  | nil => rfl
  | cons a as ih =>
    cases r with
    | nil => rfl
    | cons b bs =>
      have ha : a < base W := hl a (by simp)
      have hb : b < base W := hr b (by simp)
      have h := mul_add_add_lt hm hb ha hc
      rw [base_sq] at h
      unfold Checked.addMulWordLoop
      rw [ckAdd_ok (by omega)]
      simp only [bind, Except.bind]
      rw [ckMul_ok (by omega)]
      simp only
      rw [ckAdd_ok (by omega)]
      simp only [addMulWordLoop]
      rw [ih (fun x hx => hl x (by simp [hx])) (fun x hx => hr x (by simp [hx]))
        (splitDoubleWord_hi_lt (by omega))]

/-- The largest words. -/
example := C66_add_mul_word (W := 16) (m := 65535) (by decide) (l := [65535, 65535]) (r := [65535, 65535])
  (c := 65535) (by unfold IsWords; decide) (by unfold IsWords; decide) (by decide)

/-- C66: subtracting a multiple. -/
theorem C66_sub_mul_word {W m : Nat} (hm : m < base W) {l r : List Nat} {c : Nat} (hl : IsWords W l)
    (hr : IsWords W r) (hc : c < base W) :
    Checked.subMulWordLoop W m l r c = subMulWordLoop W m l r c := by
  induction l generalizing c r with
  | nil => rfl
  | cons a as ih =>
    cases r with
    | nil => rfl
    | cons b bs =>
      have ha : a < base W := hl a (by simp)
      have hb : b < base W := hr b (by simp)
      have h := mul_add_add_lt hm hb ha hc
      have e : base W * (base W - 1) - (base W - 1) + (base W - 1) = base W * (base W - 1) :=
        Nat.sub_add_cancel (Nat.le_mul_of_pos_left _ (by omega))
      have e2 : base W * (base W - 1) + base W = base W * base W := by
        obtain ⟨k, hk⟩ : ∃ k, base W = k + 1 := ⟨base W - 1, by omega⟩
        rw [hk]; simp only [Nat.add_sub_cancel]; ring
      have hp : m * b < 2 ^ (2 * W) := by rw [← base_sq]; omega
      have hx : a + c + (base W * (base W - 1) - (base W - 1)) < 2 ^ (2 * W) := by
        rw [← base_sq]; omega
      have hlt : a + c < 2 ^ (2 * W) := by omega
      unfold Checked.subMulWordLoop subMulWordLoop
      rw [ckAdd_ok hlt, ckAdd_ok hx]
      simp only [bind, Except.bind]
      rw [ckSub_ok (by simp only [doubleWord]; omega)]
      simp only [doubleWord, Nat.zero_add]
      rw [ckAdd_ok hx, ckMul_ok hp]
      simp only
      by_cases hle : m * b ≤ a + c + (base W * (base W - 1) - (base W - 1))
      · rw [ckSub_ok hle]
        simp only
        rw [ih (fun x hx => hl x (by simp [hx])) (fun x hx => hr x (by simp [hx]))
          (splitDoubleWord_hi_lt (by omega))]
      · unfold ckSub
        rw [if_neg hle]

/-- The largest words. -/
example := C66_sub_mul_word (W := 16) (m := 65535) (by decide) (l := [0, 1]) (r := [65535, 65535]) (c := 65535)
  (by unfold IsWords; decide) (by unfold IsWords; decide) (by decide)

/-- C66: shifting to the left loses no bits. -/
theorem C66_shl {W s : Nat} (hs : s < W) {l : List Nat} {c : Nat} (hl : IsWords W l) :
    Checked.shlLoop W s l c = .ok (shlLoop W s l c) := by
  induction l generalizing c with
  | nil => rfl
  | cons a as ih =>
    unfold Checked.shlLoop
    rw [shlDouble_ok (hl a (by simp)) hs]
    simp only [bind, Except.bind, shlLoop]
    rw [ih (fun x hx => hl x (by simp [hx]))]

/-- The largest words and the largest shift. -/
example := C66_shl (W := 16) (s := 15) (by decide) (l := [65535, 65535]) (c := 1) (by unfold IsWords; decide)

example : Checked.mulWordLoop 16 65535 [65535, 65535] 65535 = .ok ([0, 0], 65535) := by decide +kernel
example : Checked.addMulWordLoop 16 65535 [65535, 65535] [65535, 65535] 65535 =
    .ok ([65535, 65535], 65535) := by decide +kernel
example : Checked.subMulWordLoop 16 65535 [0, 1] [65535, 65535] 65535 = .ok ([65535, 1], 0) := by decide +kernel
example : Checked.shlLoop 16 15 [65535, 65535] 1 = .ok ([32769, 65535], 32767) := by decide +kernel

example : (FastDivideSmall.new 16 65535 >>= fun fd => Checked.fastDivideSmall 16 fd 65534) = .ok (0, 65534) := by
  decide +kernel
example : (FastDivideNormalized.new 16 32768 >>= fun fd => Checked.fastDivideProduct 16 fd (32767 * 65536 + 65535)) =
    .ok 4294868992 := by decide +kernel
example : Checked.refineQ 16 32768 65535 0 65536 65535 0 = .ok 65533 := by decide +kernel

/-- C66: a word shifted left by less than its size, as a double word (`extend_word(w) << s` in shift_ops.rs:207,
div/mod.rs:84, modular/convert.rs:106, 114), loses no bits; and `w << w.leading_zeros()` is a word (div/mod.rs:46, 82). -/
theorem C66_shift_word {W w s : Nat} (hw : w < base W) (hs : s < W) :
    Checked.shlDouble W w s = .ok (w * 2 ^ s) ∧ w * 2 ^ leadingZeros W w < base W := by
  refine ⟨shlDouble_ok hw hs, ?_⟩
  unfold leadingZeros
  have h1 : bitLen w ≤ W := bitLen_le_iff.mpr hw
  calc w * 2 ^ (W - bitLen w) < 2 ^ bitLen w * 2 ^ (W - bitLen w) :=
        Nat.mul_lt_mul_of_pos_right (lt_two_pow_bitLen w) (Nat.two_pow_pos _)
    _ = base W := by rw [base_eq, ← pow_add]; congr 1; omega

/-- The largest word and the largest shift. -/
example := C66_shift_word (W := 16) (w := 65535) (s := 15) (by decide) (by decide)

example : Checked.shlDouble 16 65535 15 = .ok 2147450880 ∧ leadingZeros 16 5 = 13 := by decide +kernel

/-- C66: dividing a word by a prepared divisor. -/
theorem C66_fast_divide_small {W d a : Nat} (hd1 : 1 < d) (hd : d < base W) (ha : a < base W) {fd : FastDivideSmall}
    (h : FastDivideSmall.new W d = .ok fd) : Checked.fastDivideSmall W fd a = .ok (a / d, a % d) := by
  obtain ⟨fd', e, hv⟩ := FastDivideSmall.new_spec hd1 hd
  rw [h] at e
  cases e
  rw [← FastDivideSmall.divRem_spec hv ha]
  have hs := hv.shift_lt
  obtain ⟨-, -, -, -, hm, -⟩ := hv
  have hp := mul_add_add_lt hm ha (c := 0) (d := 0) (by omega) (by omega)
  rw [base_sq] at hp
  have h1 : (1 : Nat) < W := by
    by_contra hc
    have : base W ≤ 2 ^ 1 := by rw [base_eq]; exact Nat.pow_le_pow_right (by norm_num) (by omega)
    omega
  unfold Checked.fastDivideSmall FastDivideSmall.divRem
  rw [ckMul_ok (by omega)]
  simp only [bind, Except.bind, shrW, if_pos h1, if_pos hs, pow_one]

/-- The largest divisor. -/
example {fd : FastDivideSmall} (h : FastDivideSmall.new 16 65535 = .ok fd) :=
  C66_fast_divide_small (a := 65534) (by decide) (by decide) (by decide) h

/-- C66: the product in the division of a double word by a prepared divisor does not overflow, and its division gives
quotient and remainder. -/
theorem C66_fast_divide_normalized {W d a : Nat} (hW : 1 ≤ W) (hd : d < base W) (hn : base W ≤ 2 * d)
    (ha : a < d * base W) {fd : FastDivideNormalized} (h : FastDivideNormalized.new W d = .ok fd) :
    Checked.fastDivideProduct W fd a = .ok (fd.m * (a / base W) + a) ∧ fd.divRem W a = .ok (a / d, a % d) := by
  obtain ⟨fd', e, hv⟩ := FastDivideNormalized.new_spec hW hd hn
  rw [h] at e
  cases e
  refine ⟨?_, FastDivideNormalized.divRem_spec hv ha⟩
  obtain ⟨-, -, -, k, hk, -, hm, hmB⟩ := hv
  have hah : a / base W < d := (Nat.div_lt_iff_lt_mul (base_pos W)).mpr ha
  have h1 : (fd.m + base W) * (a / base W + 1) ≤ (fd.m + base W) * d := Nat.mul_le_mul_left _ hah
  rw [Nat.mul_add, Nat.mul_one, Nat.add_mul] at h1
  have h2 := Nat.div_add_mod a (base W)
  have h3 := Nat.mod_lt a (base_pos W)
  have h4 : fd.m * (a / base W) + a < 2 ^ (2 * W) := by rw [← base_sq]; omega
  unfold Checked.fastDivideProduct
  simp only [splitDoubleWord]
  rw [ckMul_ok (by omega)]
  exact ckAdd_ok h4

/-- The smallest divisor and the largest dividend. -/
example {fd : FastDivideNormalized} (h : FastDivideNormalized.new 16 32768 = .ok fd) :=
  C66_fast_divide_normalized (a := 32767 * 65536 + 65535) (by decide) (by decide) (by decide) (by decide) h

/-- C66: the correction of an estimated quotient word. -/
theorem C66_refine {W v0 v1 u2 q : Nat} (hv1 : v1 < base W) (hq : q < base W) (r : Nat) :
    Checked.refineQ W v0 v1 u2 (base W) q r = .ok (refineQ W v0 v1 u2 q r) := checked_refineQ hv1 _ q r hq hq

/-- The largest quotient digit. -/
example := C66_refine (W := 16) (v0 := 32768) (v1 := 65535) (u2 := 0) (q := 65535) (by decide) (by decide) 0

/-- C66: products of two words. -/
theorem C66_mul_words {cfg : Cfg} {a b : Nat} (ha : a < base cfg.W) (hb : b < base cfg.W) :
    Checked.mulWord cfg a b = UBig.mulWord cfg a b := by
  have hp := mul_add_add_lt ha hb (c := 0) (d := 0) (by omega) (by omega)
  rw [base_sq] at hp
  unfold Checked.mulWord
  rw [ckMul_ok (by omega)]
  rfl

/-- The largest words. -/
example := C66_mul_words (cfg := cfg16) (a := 65535) (b := 65535) (by decide) (by decide)

/-- C66: products of elements of a ring with a modulus of one word. -/
theorem C66_modular_small {cfg : Cfg} (hv : cfg.Valid) {ring : Ring} {n : Nat} (hr : IsRing cfg ring n)
    {r : RingSmall} (hs : ring.repr = .small r) {j k : Nat} (hj : j < n) (hk : k < n) :
    Checked.ringSmallMul cfg.W r (j * 2 ^ r.shift) (k * 2 ^ r.shift) =
      r.mul cfg.W (j * 2 ^ r.shift) (k * 2 ^ r.shift) := by
  have h := hr.ok hv
  simp only [Ring.OK, hs] at h
  have hp2 := Nat.two_pow_pos r.shift
  have hlt : ∀ i, i < n → i * 2 ^ r.shift < base cfg.W := fun i hi => by
    have h1 := h.lt
    rw [h.eq] at h1
    exact lt_of_le_of_lt (Nat.mul_le_mul_right _ hi.le) h1
  have hj' : j < base cfg.W := lt_of_le_of_lt (Nat.le_mul_of_pos_right _ hp2) (hlt j hj)
  have hp := mul_add_add_lt hj' (hlt k hk) (c := 0) (d := 0) (by omega) (by omega)
  rw [base_sq] at hp
  unfold Checked.ringSmallMul RingSmall.mul
  rw [assertR_true ⟨RingSmall.isValid_mul h hj, RingSmall.isValid_mul h hk⟩]
  simp only [bind, Except.bind]
  rw [shrW_ok h.shift, Nat.mul_div_cancel _ hp2]
  simp only
  rw [ckMul_ok (by omega)]

/-- 10006 times 10006 in the ring modulo 10007. -/
example := C66_modular_small cfg64_valid exRing1_is rfl (j := 10006) (k := 10006) (by decide) (by decide)

/-- C66: sums and multiples of lengths that the model does not check. `n` and `m` are numbers of words in buffers.
In the order of the lines: `c.len() == a.len() + b.len()` and indices below it (mul/*.rs, mul_ops.rs); indices in
Karatsuba (mul/karatsuba.rs) and Toom-Cook-3 multiplication (mul/toom_3.rs); sizes of scratch memory
(karatsuba.rs:34, toom_3.rs:53); capacities (buffer.rs:166, 177) and `len() + 1`. -/
theorem C66_lengths {cfg : Cfg} (hv : cfg.Valid) {n m : Nat} (hn : n ≤ cfg.maxCap) (hm : m ≤ cfg.maxCap) :
    n + m < 2 ^ cfg.U ∧
    3 * ((n + 1) / 2) < 2 ^ cfg.U ∧
    5 * ((n + 2) / 3) + 2 < 2 ^ cfg.U ∧
    2 * n + 2 * bitLen (n - 1) < 2 ^ cfg.U ∧
    4 * n + 13 * bitLen (n - 1) < 2 ^ cfg.U ∧
    n + n / 8 + 2 < 2 ^ cfg.U ∧
    n + n / 4 + 4 < 2 ^ cfg.U ∧
    n + 1 < 2 ^ cfg.U := by
  have h1 : 16 * cfg.maxLen < 2 ^ cfg.U := by
    have := hv.bits
    have := Nat.mul_le_mul_left cfg.maxLen hv.W16
    omega
  have h2 : 2 ^ 16 ≤ 2 ^ cfg.U := Nat.pow_le_pow_right (by norm_num) (by rcases hv.usize with h | h | h <;> omega)
  have h3 : cfg.U ≤ 64 := by rcases hv.usize with h | h | h <;> omega
  unfold Cfg.maxCap at hn hm
  have h4 : bitLen (n - 1) ≤ cfg.U := bitLen_le_of_lt (by omega)
  refine ⟨?_, ?_, ?_, ?_, ?_, ?_, ?_, ?_⟩ <;> omega

/-- The longest buffer on the 16-bit build. -/
example := C66_lengths cfg16_valid (n := cfg16.maxCap) (m := cfg16.maxCap) le_rfl le_rfl

/-- C66: other sums of machine integers that the model does not check: the number of words for a bit index `i`
(bits.rs:67-87) or for `i` bytes (convert.rs:51, 82); the bits of a window in modular exponentiation (pow.rs:196). -/
theorem C66_indices {cfg : Cfg} (hv : cfg.Valid) {i : Nat} (hi : i < 2 ^ cfg.U) :
    i / cfg.W + 1 < 2 ^ cfg.U ∧ (i - 1) / (cfg.W / 8) + 1 < 2 ^ cfg.U ∧
    ∀ b, b < cfg.W → b + 1 + cfg.W < 2 ^ 32 := by
  have h2 : 2 ^ 16 ≤ 2 ^ cfg.U := Nat.pow_le_pow_right (by norm_num) (by rcases hv.usize with h | h | h <;> omega)
  have h3 : i / cfg.W ≤ i / 16 := Nat.div_le_div_left hv.W16 (by norm_num)
  have h4 : (i - 1) / (cfg.W / 8) ≤ (i - 1) / 2 :=
    Nat.div_le_div_left (by have := hv.W16; omega) (by norm_num)
  have h5 : cfg.W ≤ 64 := by rcases hv.word with h | h | h <;> omega
  refine ⟨by omega, by omega, fun b hb => by omega⟩

/-- The largest index on the 16-bit build. -/
example := C66_indices cfg16_valid (i := 65535) (by decide)

/-- C66: the sizes of chunks of digits (parse/non_power_two.rs, fmt/non_power_two.rs) in a radix that is not a power
of two. -/
theorem C66_chunks {cfg : Cfg} (hv : cfg.Valid) {r : Nat} (h : isRadixValid r = true) (h2 : isRadixPow2 r = false)
    {info : RadixInfo} (hi : radixInfo cfg.W r = .ok info) :
    parseChunkLen * info.digitsPerWord < 2 ^ cfg.U ∧ fmtChunkLen * info.digitsPerWord < 2 ^ cfg.U := by
  obtain ⟨i, e, hn⟩ := radixInfo_nonPow2 hv.W16 h h2
  rw [hi] at e
  cases e
  have h1 := digitsPerWord_le (by simp only [isRadixValid, Bool.and_eq_true, decide_eq_true_eq] at h; exact h.1) hn
  have h2 : 2 ^ 16 ≤ 2 ^ cfg.U := Nat.pow_le_pow_right (by norm_num) (by rcases hv.usize with h | h | h <;> omega)
  have h5 : cfg.W ≤ 64 := by rcases hv.word with h | h | h <;> omega
  unfold parseChunkLen fmtChunkLen
  constructor <;> omega

/-- Radix 10 on the 64-bit build. -/
example {info : RadixInfo} (h : radixInfo 64 10 = .ok info) := C66_chunks cfg64_valid (by decide) (by decide) h

example : (radixInfo 64 10).map (fun i => parseChunkLen * i.digitsPerWord) = .ok 4864 := by decide +kernel
example : 512 ≤ cfg16.maxCap ∧ 4 * 512 + 13 * bitLen 511 = 2165 := by decide +kernel

end Ibig
