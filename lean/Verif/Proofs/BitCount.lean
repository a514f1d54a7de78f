import Verif.Proofs.IBits
import Mathlib.Data.Nat.Log
/-! Single-bit access, bit counts and powers of two (/repo/src/bits.rs). -/
namespace Ibig

theorem and_two_pow_ne_zero (x n : Nat) : decide (x &&& 2 ^ n ≠ 0) = x.testBit n := by
  rw [Nat.and_two_pow]
  cases x.testBit n <;> simp

theorem UBig.bit_spec {cfg : Cfg} (hv : cfg.Valid) {a : UBig} (ha : a.WF cfg) (n : Nat) :
    a.bit cfg n = .ok ((a.value cfg).testBit n) := by
  cases a with
  | small w =>
    simp only [UBig.bit, UBig.value, and_two_pow_ne_zero]
    by_cases hn : n < cfg.W
    · simp [hn, Nat.mod_eq_of_lt hn]
    · rw [Nat.testBit_lt_two_pow (i := n) (lt_of_lt_of_le (show w < 2 ^ cfg.W from ha)
        (Nat.pow_le_pow_right (by norm_num) (by omega)))]
      simp [hn]
  | large b =>
    have hb : b.WF cfg := ha
    simp only [UBig.bit, and_two_pow_ne_zero]
    rw [show (UBig.large b).value cfg = val cfg.W b.words from rfl, testBit_val hv.W1 hb.words]
    by_cases hl : n / cfg.W < b.len
    · rw [if_pos hl, getR_ok hl]
      show Except.ok _ = _
      rw [List.getD_eq_getElem _ _ hl]
    · rw [if_neg hl, List.getD_eq_default _ _ (by unfold Buffer.len at hl; omega)]
      simp

theorem getD_set {l : List Nat} {i k x : Nat} (hi : i < l.length) :
    (l.set i x).getD k 0 = if k = i then x else l.getD k 0 := by
  simp only [List.getD, List.getElem?_set]
  by_cases h : i = k
  · subst h; simp [hi]
  · simp [h, Ne.symm h]

theorem eq_iff_div_mod {W i n : Nat} : i = n ↔ i / W = n / W ∧ i % W = n % W := by
  constructor
  · rintro rfl; simp
  · rintro ⟨h1, h2⟩
    rw [← Nat.div_add_mod i W, ← Nat.div_add_mod n W, h1, h2]

theorem two_pow_mod_lt {W n : Nat} (hW : 1 ≤ W) : 2 ^ (n % W) < base W :=
  Nat.pow_lt_pow_right (by norm_num) (Nat.mod_lt _ (by omega))

/-- The exact result of an operation that may exceed the size limit, given by its bits. -/
def YieldsBits (cfg : Cfg) (x : R UBig) (p : Nat → Bool) : Prop :=
  ∃ n : Nat, (∀ i, n.testBit i = p i) ∧ Yields cfg x n

theorem testBit_or_two_pow (x n i : Nat) :
    (x ||| 2 ^ n).testBit i = (decide (i = n) || x.testBit i) := by
  rw [Nat.testBit_or, Nat.testBit_two_pow, Bool.or_comm]
  congr 1
  rw [decide_eq_decide]; exact eq_comm

theorem add_two_pow_or {x n : Nat} (h : x < 2 ^ n) : x + 2 ^ n = x ||| 2 ^ n := by
  have := Nat.two_pow_add_eq_or_of_lt h 1
  rw [Nat.mul_one] at this
  rw [Nat.add_comm, this, Nat.or_comm]

theorem Buffer.ensureCapacity_err {cfg : Cfg} {b : Buffer} {n : Nat} (h : b.OK cfg)
    (hn : cfg.maxLen + 4 < n) (hc : b.cap < n) (hW : 2 < n) :
    b.ensureCapacity cfg n = .error .tooLarge := by
  have h2 := h.fits
  unfold Buffer.ensureCapacity
  rw [if_pos (by omega)]
  unfold Buffer.reallocate
  rw [assertR_true (show b.len ≤ n by unfold Buffer.len; omega), Buffer.allocate_err hn]
  rfl

/-- A vector with spare capacity may be larger than any request could be. -/
theorem Buffer.ensureCapacity_spec' {cfg : Cfg} {b : Buffer} {n : Nat} (h : b.OK cfg)
    (hn : b.words.length ≤ n) (hn2 : n ≤ cfg.maxLen + 4 ∨ n ≤ b.cap) :
    Returns (b.ensureCapacity cfg n) fun c => c.OK cfg ∧ c.words = b.words ∧ n ≤ c.cap := by
  by_cases hc : n ≤ b.cap
  · unfold Buffer.ensureCapacity
    rw [if_neg (by omega), returns_ok]
    exact ⟨h, rfl, hc⟩
  · exact Buffer.ensureCapacity_spec h hn (by omega)

theorem base_pow_le_two_pow {W n k : Nat} (h : k ≤ n / W) : base W ^ k ≤ 2 ^ n := by
  rw [shift_split W n]
  calc base W ^ k ≤ base W ^ (n / W) := Nat.pow_le_pow_right (base_pos W) h
    _ = base W ^ (n / W) * 1 := by ring
    _ ≤ _ := Nat.mul_le_mul_left _ Nat.one_le_two_pow

theorem UBig.withBitWordSlow_spec {cfg : Cfg} (hv : cfg.Valid) {w n : Nat} (hw : w < base cfg.W)
    (hn : cfg.W ≤ n) : Yields cfg (UBig.withBitWordSlow cfg w n) (w + 2 ^ n) := by
  have hW := hv.W1
  have hidx : 1 ≤ n / cfg.W := (Nat.one_le_div_iff (by omega)).mpr hn
  unfold UBig.withBitWordSlow
  refine Yields.of_bind (returns_assertR hn) ?_
  rintro _ -
  simp only
  refine Yields.allocate ?_ ?_
  · intro hbig
    refine not_fits_of_ge (k := n / cfg.W) ?_ (by omega)
    exact le_trans (base_pow_le_two_pow le_rfl) (Nat.le_add_left _ _)
  intro hok
  have hac := le_allocCap hok
  refine Yields.of_bind (Buffer.push_spec (cfg := cfg) (w := w) ⟨by simp, by simp⟩ hw
    (by simp only [List.length_nil]; omega)) ?_
  rintro b1 ⟨g1, g2, g3⟩
  simp only [List.nil_append] at g2 g3
  refine Yields.of_bind (Buffer.extend_spec g1 (isWords_replicate_zero _ _)
    (by rw [g2, g3]; simp; omega)) ?_
  rintro b2 ⟨k1, k2, k3⟩
  refine Yields.of_bind (Buffer.push_spec k1 (two_pow_mod_lt hW)
    (by rw [k2, k3, g2, g3]; simp; omega)) ?_
  rintro b3 ⟨l1, l2, l3⟩
  refine yields_ofBuffer hv l1 ?_
  rw [l2, k2, g2, shift_split cfg.W n]
  simp only [val_append, val_replicate_zero, List.length_replicate, val_cons, val_nil, mul_zero,
    add_zero, List.length_append, List.length_cons, List.length_nil]
  rw [show 0 + 1 + (n / cfg.W - 1) = n / cfg.W by omega]

theorem UBig.withBitLarge_spec {cfg : Cfg} (hv : cfg.Valid) {b : Buffer} (hb : b.WF cfg) (n : Nat) :
    YieldsBits cfg (UBig.withBitLarge cfg b n) fun i =>
      decide (i = n) || (val cfg.W b.words).testBit i := by
  have hW := hv.W1
  have hlb := hb.len
  refine ⟨val cfg.W b.words ||| 2 ^ n, testBit_or_two_pow _ _, ?_⟩
  unfold UBig.withBitLarge
  simp only
  by_cases hl : n / cfg.W < b.len
  · rw [if_pos hl, getR_ok hl]
    unfold Buffer.len at hl
    refine Yields.of_bind (P := fun s => s = b.words[n / cfg.W]) (returns_ok.mpr rfl) ?_
    intro w hw
    have hwB : w < base cfg.W := by rw [hw]; exact hb.words _ (List.getElem_mem hl)
    unfold setR
    rw [if_pos hl]
    refine Yields.of_bind (P := fun s => s = _) (returns_ok.mpr rfl) ?_
    intro ws hws
    have hx : w ||| 2 ^ (n % cfg.W) < base cfg.W := Nat.or_lt_two_pow hwB (two_pow_mod_lt hW)
    rw [hws]
    have hws' := isWords_set hb.words (n / cfg.W) hx
    refine yields_ofBuffer hv (hb.ok.setWords hws' (by simp)) ?_
    simp only
    apply Nat.eq_of_testBit_eq
    intro i
    rw [testBit_or_two_pow, testBit_val hW hws', testBit_val hW hb.words, getD_set hl]
    by_cases hi : i / cfg.W = n / cfg.W
    · rw [if_pos hi, testBit_or_two_pow, hi, List.getD_eq_getElem _ _ hl, hw]
      congr 1
      rw [decide_eq_decide, eq_iff_div_mod (W := cfg.W) (i := i)]
      simp [hi]
    · rw [if_neg hi]
      have : ¬ i = n := fun h => hi (by rw [h])
      simp [this]
  · rw [if_neg hl]
    unfold Buffer.len at hl
    have hlt : val cfg.W b.words < 2 ^ n :=
      lt_of_lt_of_le hb.lt (base_pow_le_two_pow (by omega))
    by_cases hbig : n / cfg.W + 1 ≤ cfg.maxLen + 4 ∨ n / cfg.W + 1 ≤ b.cap
    · refine Yields.of_bind (Buffer.ensureCapacity_spec' hb.ok (n := n / cfg.W + 1) (by omega) hbig) ?_
      rintro b1 ⟨g1, g2, g3⟩
      unfold Buffer.len
      rw [ckSub_ok (by rw [g2]; omega)]
      refine Yields.of_bind (P := fun s => s = n / cfg.W - b1.words.length) (returns_ok.mpr rfl) ?_
      intro k hk
      rw [hk]
      have hl1 : b1.words.length = b.words.length := by rw [g2]
      refine Yields.of_bind (Buffer.pushZeros_spec g1 (by omega)) ?_
      rintro b2 ⟨k1, k2, k3⟩
      refine Yields.of_bind (Buffer.push_spec k1 (two_pow_mod_lt hW)
        (by rw [k2, k3]; simp; omega)) ?_
      rintro b3 ⟨l1, l2, l3⟩
      refine yields_ofBuffer hv l1 ?_
      rw [← add_two_pow_or hlt, l2, k2, g2, shift_split cfg.W n]
      simp only [val_append, val_replicate_zero, List.length_replicate, val_cons, val_nil, mul_zero,
        add_zero, List.length_append]
      rw [show b.words.length + (n / cfg.W - b.words.length) = n / cfg.W by omega]
    · rw [Buffer.ensureCapacity_err hb.ok (by omega) (by omega) (by omega)]
      refine ⟨fun hf => absurd hf ?_, fun _ => rfl⟩
      refine not_fits_of_ge (k := n / cfg.W) ?_ (by omega)
      rw [← add_two_pow_or hlt]
      exact le_trans (base_pow_le_two_pow le_rfl) (Nat.le_add_left _ _)

/-- `set_bit(n)` sets exactly bit `n`. -/
theorem UBig.setBit_spec {cfg : Cfg} (hv : cfg.Valid) {a : UBig} (ha : a.WF cfg) (n : Nat) :
    YieldsBits cfg (a.setBit cfg n) fun i => decide (i = n) || (a.value cfg).testBit i := by
  cases a with
  | small w =>
    simp only [UBig.setBit, UBig.value]
    refine ⟨w ||| 2 ^ n, testBit_or_two_pow _ _, ?_⟩
    by_cases hn : n < cfg.W
    · rw [if_pos hn, Nat.mod_eq_of_lt hn]
      exact yields_small hv (Nat.or_lt_two_pow ha (Nat.pow_lt_pow_right (by norm_num) hn))
    · rw [if_neg hn, ← add_two_pow_or (lt_of_lt_of_le (show w < 2 ^ cfg.W from ha)
        (Nat.pow_le_pow_right (by norm_num) (by omega)))]
      exact UBig.withBitWordSlow_spec hv ha (by omega)
  | large b => exact UBig.withBitLarge_spec hv ha n

theorem testBit_andNot_two_pow {W x n i : Nat} (hx : x < base W) (hn : n < W) :
    (x &&& wordNot W (2 ^ n)).testBit i = (x.testBit i && decide (i ≠ n)) := by
  rw [Nat.testBit_and, testBit_wordNot (Nat.pow_lt_pow_right (by norm_num) hn), Nat.testBit_two_pow]
  by_cases hi : i < W
  · by_cases h : n = i
    · subst h; simp
    · simp [hi, h, Ne.symm h]
  · rw [Nat.testBit_lt_two_pow (lt_of_lt_of_le hx (Nat.pow_le_pow_right (by norm_num) (by omega)))]
    simp

theorem UBig.withoutBitLarge_spec {cfg : Cfg} (hv : cfg.Valid) {b : Buffer} (hb : b.WF cfg) (n : Nat) :
    BitYields cfg (UBig.withoutBitLarge cfg b n) fun i =>
      (val cfg.W b.words).testBit i && decide (i ≠ n) := by
  have hW := hv.W1
  have hlb := hb.len
  unfold UBig.withoutBitLarge
  simp only
  by_cases hl : n / cfg.W < b.len
  · rw [if_pos hl, getR_ok hl]
    unfold Buffer.len at hl
    refine BitYields.of_bind (P := fun s => s = b.words[n / cfg.W]) (returns_ok.mpr rfl) ?_
    intro w hw
    have hwB : w < base cfg.W := by rw [hw]; exact hb.words _ (List.getElem_mem hl)
    unfold setR
    rw [if_pos hl]
    refine BitYields.of_bind (P := fun s => s = _) (returns_ok.mpr rfl) ?_
    intro ws hws
    have hx : w &&& wordNot cfg.W (2 ^ (n % cfg.W)) < base cfg.W :=
      Nat.and_lt_two_pow _ (wordNot_lt _ _)
    rw [hws]
    have hws' := isWords_set hb.words (n / cfg.W) hx
    refine bitYields_ofBuffer hv (hb.ok.setWords hws' (by simp)) (by simpa using hlb) fun i => ?_
    simp only
    rw [testBit_val hW hws', testBit_val hW hb.words, getD_set hl]
    by_cases hi : i / cfg.W = n / cfg.W
    · rw [if_pos hi, testBit_andNot_two_pow hwB (Nat.mod_lt _ (by omega)), hi,
        List.getD_eq_getElem _ _ hl, hw]
      congr 1
      rw [decide_eq_decide, ne_eq, ne_eq, eq_iff_div_mod (W := cfg.W) (i := i)]
      simp [hi]
    · rw [if_neg hi]
      have : ¬ i = n := fun h => hi (by rw [h])
      simp [this]
  · rw [if_neg hl]
    unfold Buffer.len at hl
    refine bitYields_ofBuffer hv hb.ok hlb fun i => ?_
    by_cases hi : i = n
    · subst hi
      rw [testBit_val hW hb.words, List.getD_eq_default _ _ (by omega)]
      simp
    · simp [hi]

/-- `clear_bit(n)` clears exactly bit `n`, except for a single-word number with `n` beyond the word. -/
theorem UBig.clearBit_spec {cfg : Cfg} (hv : cfg.Valid) {a : UBig} (ha : a.WF cfg) {n : Nat}
    (hn : n < cfg.W ∨ base cfg.W ≤ a.value cfg) :
    BitYields cfg (a.clearBit cfg n) fun i => (a.value cfg).testBit i && decide (i ≠ n) := by
  cases a with
  | small w =>
    simp only [UBig.clearBit, UBig.value] at *
    have hw : w < base cfg.W := ha
    have hn' : n < cfg.W := by omega
    rw [if_pos hn', Nat.mod_eq_of_lt hn']
    exact bitYields_small (Nat.and_lt_two_pow _ (wordNot_lt _ _)) fun i =>
      testBit_andNot_two_pow hw hn'
  | large b => exact UBig.withoutBitLarge_spec hv ha n

/-! ### Counting -/

theorem trailingZeros_spec {W w : Nat} (h0 : w ≠ 0) (hw : w < 2 ^ W) :
    2 ^ trailingZeros W w ∣ w ∧ ¬2 ^ (trailingZeros W w + 1) ∣ w := by
  induction W generalizing w with
  | zero => simp at hw; omega
  | succ W ih =>
    unfold trailingZeros
    split
    · rename_i h; constructor
      · simp
      · rw [Nat.zero_add, pow_one]; omega
    · have h1 : w = 2 * (w / 2) := by omega
      obtain ⟨g1, g2⟩ := ih (w := w / 2) (by omega) (by rw [pow_succ] at hw; omega)
      constructor
      · conv_rhs => rw [h1]
        rw [pow_succ, mul_comm]; exact Nat.mul_dvd_mul_left 2 g1
      · intro hc
        rw [pow_succ, mul_comm] at hc
        have hc' : 2 * 2 ^ (trailingZeros W (w / 2) + 1) ∣ 2 * (w / 2) := by rw [← h1]; exact hc
        exact g2 (Nat.dvd_of_mul_dvd_mul_left (by norm_num) hc')

theorem trailingZerosLoop_spec {W U : Nat} {l : List Nat} (hl : IsWords W l) (h0 : val W l ≠ 0)
    (idx : Nat) (hU : (idx + l.length) * W < 2 ^ U) : ∃ k, trailingZerosLoop W U l idx = .ok (idx * W + k) ∧
      2 ^ k ∣ val W l ∧ ¬2 ^ (k + 1) ∣ val W l := by
  induction l generalizing idx with
  | nil => simp at h0
  | cons w l ih =>
    simp only [isWords_cons] at hl
    unfold trailingZerosLoop
    by_cases hw : w = 0
    · subst hw
      rw [if_neg (by simp)]
      simp only [val_cons, Nat.zero_add] at h0
      obtain ⟨k, h1, h2, h3⟩ := ih hl.2 (by rintro h; rw [h] at h0; simp at h0) (idx + 1)
        (by rw [List.length_cons] at hU; rwa [show idx + 1 + l.length = idx + (l.length + 1) by omega])
      refine ⟨W + k, by rw [h1]; congr 1; ring, ?_, ?_⟩
      · rw [pow_add, val_cons, Nat.zero_add]; exact Nat.mul_dvd_mul_left _ h2
      · rw [Nat.add_assoc, pow_add, val_cons, Nat.zero_add]
        intro hc; exact h3 (Nat.dvd_of_mul_dvd_mul_left (by positivity) hc)
    · rw [if_pos hw]
      obtain ⟨g1, g2⟩ := trailingZeros_spec hw hl.1
      have hlt : trailingZeros W w < W := by
        by_contra hc
        have := Nat.le_of_dvd (by omega) g1
        have := Nat.pow_le_pow_right (show 0 < 2 by norm_num) (Nat.le_of_not_lt hc)
        have := hl.1; unfold base at this; omega
      have hle : idx * W + W ≤ (idx + (w :: l).length) * W := by
        rw [List.length_cons, ← Nat.succ_mul]; exact Nat.mul_le_mul_right _ (by omega)
      refine ⟨trailingZeros W w, ?_, ?_⟩
      · rw [ckMul_ok (by omega)]
        exact ckAdd_ok (by omega)
      have hd : ∀ k, k ≤ W → (2 ^ k ∣ val W (w :: l) ↔ 2 ^ k ∣ w) := by
        intro k hk
        rw [val_cons]
        refine (Nat.dvd_add_iff_left ?_).symm
        exact Dvd.dvd.mul_right (pow_dvd_pow 2 hk) _
      exact ⟨(hd _ hlt.le).mpr g1, fun hc => g2 ((hd _ hlt).mp hc)⟩

theorem lastR_spec {l : List Nat} (h : l ≠ []) : lastR l = .ok (l.getLast h) := by
  unfold lastR; rw [List.getLast?_eq_some_getLast h]

theorem Buffer.WF.ne_nil {cfg : Cfg} {b : Buffer} (h : b.WF cfg) : b.words ≠ [] := ne_nil_of_two h.two

theorem Buffer.WF.last_ne {cfg : Cfg} {b : Buffer} (h : b.WF cfg) : b.words.getLast h.ne_nil ≠ 0 := by
  intro e
  apply h.top; rw [List.getLast?_eq_some_getLast h.ne_nil, e]

/-- `trailing_zeros`: `None` for zero, otherwise the exponent of the largest power of two dividing. -/
theorem UBig.trailingZeros_spec {cfg : Cfg} (hv : cfg.Valid) {a : UBig} (ha : a.WF cfg) :
    Returns (a.trailingZeros cfg) fun r => match r with
      | none => a.value cfg = 0
      | some k => a.value cfg ≠ 0 ∧ 2 ^ k ∣ a.value cfg ∧ ¬2 ^ (k + 1) ∣ a.value cfg := by
  cases a with
  | small w =>
    simp only [UBig.trailingZeros, UBig.value]
    split
    · rename_i h; exact returns_ok.mpr h
    · rename_i h
      exact returns_ok.mpr ⟨h, Ibig.trailingZeros_spec h ha⟩
  | large b =>
    have hb : b.WF cfg := ha
    simp only [UBig.trailingZeros, UBig.value]
    have hne : val cfg.W b.words ≠ 0 := by have := hb.ge_base; have := base_pos cfg.W; omega
    obtain ⟨k, h1, h2, h3⟩ := trailingZerosLoop_spec hb.words hne 0 (by
      rw [Nat.zero_add]; exact lt_of_le_of_lt (Nat.mul_le_mul_right _ hb.len) hv.bits)
    refine Returns.bind (P := fun r => r = k) ?_ ?_
    · unfold UBig.trailingZerosLarge
      rw [lastR_spec hb.ne_nil, h1]
      refine Returns.bind (P := fun l => l = b.words.getLast hb.ne_nil) (returns_ok.mpr rfl) ?_
      intro l hl
      rw [hl]
      refine Returns.bind (returns_assertR hb.last_ne) ?_
      rintro _ -
      exact returns_ok.mpr (by ring)
    · intro r hr
      rw [hr]
      exact returns_ok.mpr ⟨hne, h2, h3⟩

theorem bitLen_eq {v k : Nat} (h1 : v < 2 ^ k) (h2 : k = 0 ∨ 2 ^ (k - 1) ≤ v) : bitLen v = k := by
  apply le_antisymm (bitLen_le_iff.mpr h1)
  rcases h2 with h2 | h2
  · omega
  · by_contra hc
    have := bitLen_le_iff.mp (show bitLen v ≤ k - 1 by omega)
    omega

theorem Buffer.WF.bitLen {cfg : Cfg} {b : Buffer} (hb : b.WF cfg) :
    Ibig.bitLen (val cfg.W b.words) =
      (b.words.length - 1) * cfg.W + Ibig.bitLen (b.words.getLast hb.ne_nil) := by
  have hlast := hb.last_ne
  have hl1 := bitLen_pos hlast
  have e := val_getLast cfg.W hb.ne_nil
  have hlow : val cfg.W b.words.dropLast < base cfg.W ^ (b.words.length - 1) := by
    have := val_lt (W := cfg.W) (l := b.words.dropLast)
      (fun x hx => hb.words x (List.mem_of_mem_dropLast hx))
    rwa [List.length_dropLast] at this
  have eB : base cfg.W ^ (b.words.length - 1) = 2 ^ ((b.words.length - 1) * cfg.W) := by
    unfold base; rw [← pow_mul, Nat.mul_comm]
  rw [eB] at e hlow
  generalize b.words.getLast hb.ne_nil = t at *
  have h1 := lt_two_pow_bitLen t
  have h2 := two_pow_le_of_bitLen hlast
  apply bitLen_eq
  · rw [e, pow_add]
    calc _ < 2 ^ ((b.words.length - 1) * cfg.W) + 2 ^ ((b.words.length - 1) * cfg.W) * t := by omega
      _ = 2 ^ ((b.words.length - 1) * cfg.W) * (t + 1) := by ring
      _ ≤ _ := Nat.mul_le_mul_left _ h1
  · right
    rw [e, show (b.words.length - 1) * cfg.W + Ibig.bitLen t - 1
      = (b.words.length - 1) * cfg.W + (Ibig.bitLen t - 1) by omega, pow_add]
    exact le_trans (Nat.mul_le_mul_left _ h2) (Nat.le_add_left _ _)

theorem UBig.bitLen_spec {cfg : Cfg} (hv : cfg.Valid) {a : UBig} (ha : a.WF cfg) :
    a.bitLen cfg = .ok (Ibig.bitLen (a.value cfg)) := by
  cases a with
  | small w => rfl
  | large b =>
    have hb : b.WF cfg := ha
    have h2 := hb.two
    have hlast : b.words.getLast hb.ne_nil < base cfg.W := hb.words _ (List.getLast_mem _)
    have hl := bitLen_le_iff.mpr hlast
    simp only [UBig.bitLen, UBig.value, Buffer.len]
    have hm : b.words.length * cfg.W < 2 ^ cfg.U :=
      lt_of_le_of_lt (Nat.mul_le_mul_right _ hb.len) hv.bits
    rw [ckMul_ok hm, lastR_spec hb.ne_nil, hb.bitLen]
    have e : b.words.length * cfg.W = (b.words.length - 1) * cfg.W + cfg.W := by
      conv_lhs => rw [show b.words.length = b.words.length - 1 + 1 by omega]
      rw [Nat.add_mul, Nat.one_mul]
    show ckSub _ _ = _
    unfold leadingZeros
    rw [ckSub_ok (by omega)]
    congr 1
    omega

theorem wordIsPow2_iff (w : Nat) : wordIsPow2 w = true ↔ ∃ k, w = 2 ^ k := by
  unfold wordIsPow2
  rw [decide_eq_true_iff]
  constructor
  · rintro ⟨-, h⟩; exact ⟨_, h⟩
  · rintro ⟨k, rfl⟩
    exact ⟨by positivity, by rw [Nat.log2_two_pow]⟩

theorem all_zero_iff {l : List Nat} : l.all (fun x => x == 0) = true ↔ l = List.replicate l.length 0 := by
  rw [List.eq_replicate_iff]
  simp

theorem UBig.isPowerOfTwo_spec {cfg : Cfg} (hv : cfg.Valid) {a : UBig} (ha : a.WF cfg) :
    Returns a.isPowerOfTwo fun r => (r = true ↔ ∃ k, a.value cfg = 2 ^ k) := by
  cases a with
  | small w => exact returns_ok.mpr (wordIsPow2_iff w)
  | large b =>
    have hb : b.WF cfg := ha
    have h2 := hb.two
    have hne := hb.ne_nil
    simp only [UBig.isPowerOfTwo, UBig.value]
    unfold UBig.isPowerOfTwoLarge
    rw [lastR_spec hne, sliceR_ok (by omega) (by omega), List.drop_zero, ← List.dropLast_eq_take]
    refine Returns.bind (P := fun l => l = b.words.getLast hne) (returns_ok.mpr rfl) ?_
    intro l hl
    refine Returns.bind (returns_assertR (p := l ≠ 0) (by rw [hl]; exact hb.last_ne)) ?_
    rintro _ -
    refine returns_ok.mpr ?_
    rw [Bool.and_eq_true, all_zero_iff, wordIsPow2_iff]
    have e : b.words = b.words.dropLast ++ [l] := by rw [hl, List.dropLast_append_getLast hne]
    constructor
    · rintro ⟨h3, k, h4⟩
      refine ⟨cfg.W * b.words.dropLast.length + k, ?_⟩
      rw [e, h3, val_append]
      simp only [val_replicate_zero, List.length_replicate, val_cons, val_nil, mul_zero, add_zero,
        zero_add]
      rw [h4, pow_add, base, ← pow_mul]
      simp
    · rintro ⟨k, hk⟩
      have hW := hv.W1
      have hlo := hb.ge
      have hhi := hb.lt
      rw [hk, shift_split cfg.W k] at hlo hhi
      have hs : 2 ^ (k % cfg.W) < base cfg.W := two_pow_mod_lt hW
      have hd : k / cfg.W = b.words.length - 1 := by
        have a1 : k / cfg.W < b.words.length := by
          by_contra hc
          have := Nat.pow_le_pow_right (base_pos cfg.W) (Nat.le_of_not_lt hc)
          have := Nat.one_le_two_pow (n := k % cfg.W)
          have := Nat.mul_le_mul_left (base cfg.W ^ (k / cfg.W)) this
          omega
        have a2 : b.words.length - 1 ≤ k / cfg.W := by
          by_contra hc
          have h5 : base cfg.W ^ (k / cfg.W + 1) ≤ base cfg.W ^ (b.words.length - 1) :=
            Nat.pow_le_pow_right (base_pos cfg.W) (by omega)
          rw [pow_succ] at h5
          have := Nat.mul_lt_mul_of_pos_left hs (base_pow_pos cfg.W (k / cfg.W))
          omega
        omega
      have hv2 : val cfg.W (List.replicate (b.words.length - 1) 0 ++ [2 ^ (k % cfg.W)])
          = val cfg.W b.words := by
        rw [hk, shift_split cfg.W k, hd, val_append]; simp
      have hinj := val_inj (W := cfg.W) (by
        simp only [isWords_append, isWords_cons]
        exact ⟨isWords_replicate_zero _ _, hs, by simp⟩) hb.words (by simp; omega) hv2
      rw [e] at hinj
      have hlen : (List.replicate ((b.words.dropLast ++ [l]).length - 1) 0).length
        = b.words.dropLast.length := by simp
      obtain ⟨q1, q2⟩ := List.append_inj hinj hlen
      refine ⟨by rw [← q1]; simp, k % cfg.W, ?_⟩
      simpa using q2.symm

/-! ### next_power_of_two -/

/-- the exponent of the least power of two `≥ x` -/
theorem le_two_pow_iff (x k : Nat) : x ≤ 2 ^ k ↔ bitLen (x - 1) ≤ k := by
  rw [bitLen_le_iff]
  have := Nat.one_le_two_pow (n := k)
  omega

theorem wordNextPow2_spec {W x : Nat} (hx : x ≤ base W) :
    (∀ p, wordNextPow2 W x = some p → p = 2 ^ bitLen (x - 1) ∧ p < base W) ∧
    (wordNextPow2 W x = none → bitLen (x - 1) = W) := by
  have e : (if x ≤ 1 then 1 else 2 ^ (Nat.log2 (x - 1) + 1)) = 2 ^ bitLen (x - 1) := by
    unfold bitLen
    by_cases h : x ≤ 1
    · rw [if_pos h, if_pos (by omega)]; rfl
    · rw [if_neg h, if_neg (by omega)]
  unfold wordNextPow2
  simp only [e]
  have hle : bitLen (x - 1) ≤ W := (le_two_pow_iff x W).mp hx
  constructor
  · intro p hp
    split at hp
    · rename_i h
      have : 2 ^ bitLen (x - 1) = p := by simpa using hp
      rw [← this]; exact ⟨rfl, h⟩
    · cases hp
  · intro hp
    split at hp
    · cases hp
    · rename_i h
      have := (Nat.pow_le_pow_iff_right (a := 2) (by norm_num)).mp (Nat.le_of_not_lt h)
      omega

theorem wordNextPow2Carry_spec {W x c : Nat} (hx : x < base W) (hc : c ≤ 1) :
    (∀ p, wordNextPow2Carry W x c = some p → p = 2 ^ bitLen (x + c - 1) ∧ p < base W) ∧
    (wordNextPow2Carry W x c = none → bitLen (x + c - 1) = W) := by
  unfold wordNextPow2Carry
  split
  · exact wordNextPow2_spec (by omega)
  · refine ⟨fun p hp => (by cases hp), fun _ => ?_⟩
    apply bitLen_eq
    · show _ < base W; omega
    · by_cases hW : W = 0
      · exact Or.inl hW
      · right
        have : base W = 2 * 2 ^ (W - 1) := by
          unfold base; rw [← pow_succ']; congr 1; omega
        have := Nat.one_le_two_pow (n := W - 1)
        omega

/-- `⌈(low + B·last) / B⌉ ≤ 2^j ↔ low + B·last ≤ B·2^j` -/
theorem carry_le_iff {B low last m c : Nat} (hlow : low < B) (hc : c = if low = 0 then 0 else 1) :
    low + B * last ≤ B * m ↔ last + c ≤ m := by
  constructor
  · intro h
    by_contra hlt
    by_cases h0 : low = 0
    · rw [if_pos h0] at hc
      have : B * (m + 1) ≤ B * last := Nat.mul_le_mul_left _ (by omega)
      rw [Nat.mul_add] at this; omega
    · rw [if_neg h0] at hc
      have : B * m ≤ B * last := Nat.mul_le_mul_left _ (by omega)
      omega
  · intro h
    by_cases h0 : low = 0
    · rw [if_pos h0] at hc
      have : B * last ≤ B * m := Nat.mul_le_mul_left _ (by omega)
      omega
    · rw [if_neg h0] at hc
      have : B * (last + 1) ≤ B * m := Nat.mul_le_mul_left _ (by omega)
      rw [Nat.mul_add] at this; omega

theorem UBig.nextPowerOfTwoLarge_spec {cfg : Cfg} (hv : cfg.Valid) {b : Buffer} (hb : b.WF cfg) :
    Yields cfg (UBig.nextPowerOfTwoLarge cfg b) (2 ^ Ibig.bitLen (val cfg.W b.words - 1)) := by
  have h2 := hb.two
  have hlen := hb.len
  have hne := hb.ne_nil
  have hlast : b.words.getLast hne < base cfg.W := hb.words _ (List.getLast_mem _)
  have hlast0 := hb.last_ne
  unfold UBig.nextPowerOfTwoLarge
  rw [lastR_spec hne]
  refine Yields.of_bind (P := fun l => l = b.words.getLast hne) (returns_ok.mpr rfl) ?_
  intro l hl
  rw [← hl] at hlast hlast0
  refine Yields.of_bind (returns_assertR (p := l ≠ 0) hlast0) ?_
  rintro _ -
  simp only [Buffer.len]
  rw [sliceR_ok (by omega) (by omega), List.drop_zero, ← List.dropLast_eq_take]
  refine Yields.of_bind (P := fun x => x = b.words.dropLast) (returns_ok.mpr rfl) ?_
  intro low hlow
  have hlowlen : low.length = b.words.length - 1 := by rw [hlow, List.length_dropLast]
  have hlowW : IsWords cfg.W low := by
    rw [hlow]; exact fun x hx => hb.words x (List.mem_of_mem_dropLast hx)
  have hval : val cfg.W b.words = val cfg.W low + base cfg.W ^ (b.words.length - 1) * l := by
    rw [hlow, hl]; exact val_getLast cfg.W hne
  -- the low part becomes zero
  have hz : low.takeWhile (fun x => x == 0) ++ (low.dropWhile (fun x => x == 0)).map (fun _ => 0)
      = List.replicate (b.words.length - 1) 0 := by
    rw [← hlowlen]
    clear hlow hlowlen hlowW hval
    induction low with
    | nil => rfl
    | cons x low ih =>
      by_cases hx : x = 0
      · subst hx; simp only [List.takeWhile_cons, List.dropWhile_cons, beq_self_eq_true, if_true,
          List.cons_append, ih, List.length_cons, List.replicate_succ]
      · simp [hx, List.replicate_succ, List.map_const']
  -- the carry says whether the low part was non-zero
  have hcar : (low.dropWhile (fun x => x == 0) = []) ↔ val cfg.W low = 0 := by
    rw [← not_iff_not, ← ne_eq (val cfg.W low), ← any_ne_zero (W := cfg.W) (l := low)]
    clear hlow hlowlen hlowW hval hz
    induction low with
    | nil => simp
    | cons x low ih =>
      by_cases hx : x = 0
      · subst hx; simpa using ih
      · simp [hx]
  rw [hz]
  generalize hc : (if low.dropWhile (fun x => x == 0) = [] then 0 else 1) = c
  have hc' : c = if val cfg.W low = 0 then 0 else 1 := by
    rw [← hc]
    by_cases h : val cfg.W low = 0
    · rw [if_pos h, if_pos (hcar.mpr h)]
    · rw [if_neg h, if_neg (fun hh => h (hcar.mp hh))]
  have hc1 : c ≤ 1 := by rw [hc']; split <;> omega
  have hlt := val_lt hlowW
  rw [hlowlen] at hlt
  have hkey : Ibig.bitLen (val cfg.W b.words - 1) = cfg.W * (b.words.length - 1) + Ibig.bitLen (l + c - 1) := by
    have hB : base cfg.W ^ (b.words.length - 1) = 2 ^ (cfg.W * (b.words.length - 1)) := by
      unfold base; rw [← pow_mul]
    have iff1 : ∀ j, Ibig.bitLen (val cfg.W b.words - 1) ≤ cfg.W * (b.words.length - 1) + j ↔
        Ibig.bitLen (l + c - 1) ≤ j := by
      intro j
      rw [← le_two_pow_iff, ← le_two_pow_iff, pow_add, ← hB, hval]
      exact carry_le_iff hlt hc'
    apply le_antisymm
    · exact (iff1 _).mpr le_rfl
    · by_cases hge : cfg.W * (b.words.length - 1) ≤ Ibig.bitLen (val cfg.W b.words - 1)
      · have := (iff1 (Ibig.bitLen (val cfg.W b.words - 1) - cfg.W * (b.words.length - 1))).mp (by omega)
        omega
      · exfalso
        have h3 := (le_two_pow_iff (val cfg.W b.words) (cfg.W * (b.words.length - 1) - 1)).mpr (by omega)
        have h4 := hb.ge
        rw [hB] at h4
        have := Nat.pow_lt_pow_right (a := 2) (by norm_num)
          (show cfg.W * (b.words.length - 1) - 1 < cfg.W * (b.words.length - 1) by omega)
        omega
  obtain ⟨s1, s2⟩ := wordNextPow2Carry_spec hlast hc1
  rw [hkey, pow_add, pow_mul]
  rcases hp : wordNextPow2Carry cfg.W l c with _ | p
  · have := s2 hp
    simp only
    have hw0 : IsWords cfg.W (List.replicate (b.words.length - 1) 0 ++ [0]) := by
      rw [← List.replicate_succ']; exact isWords_replicate_zero _ _
    refine Yields.of_bind (Buffer.ensureCapacity_spec (hb.ok.setWords hw0 (by simp; omega))
      (n := b.words.length + 1) (by simp) (by omega)) ?_
    rintro b1 ⟨g1, g2, g3⟩
    simp only at g2
    refine Yields.of_bind (Buffer.push_spec (w := 1) g1 (by have := two_le_base hv.W1; omega)
      (by rw [g2]; simp; omega)) ?_
    rintro b2 ⟨k1, k2, k3⟩
    refine yields_ofBuffer hv k1 ?_
    rw [k2, g2, this, ← List.replicate_succ', val_append]
    simp only [val_replicate_zero, List.length_replicate, val_cons, val_nil, mul_zero, add_zero,
      zero_add, mul_one]
    rw [pow_succ]; rfl
  · obtain ⟨q1, q2⟩ := s1 p hp
    simp only
    have hw0 : IsWords cfg.W (List.replicate (b.words.length - 1) 0 ++ [p]) := by
      simp only [isWords_append, isWords_cons]; exact ⟨isWords_replicate_zero _ _, q2, by simp⟩
    refine yields_ofBuffer hv (hb.ok.setWords hw0 (by simp; omega)) ?_
    simp only
    rw [val_append, ← q1]
    simp [base]

theorem UBig.nextPowerOfTwoV_spec {cfg : Cfg} (hv : cfg.Valid) {a : UBig} (ha : a.WF cfg) :
    Yields cfg (UBig.nextPowerOfTwoV cfg a) (2 ^ Ibig.bitLen (a.value cfg - 1)) := by
  cases a with
  | small w =>
    have hw : w < base cfg.W := ha
    obtain ⟨s1, s2⟩ := wordNextPow2_spec hw.le
    simp only [UBig.nextPowerOfTwoV, UBig.value]
    split
    · rename_i p hp
      obtain ⟨q1, q2⟩ := s1 p hp
      rw [← q1]; exact yields_small hv q2
    · rename_i hp
      rw [s2 hp]
      have e : doubleWord cfg.W 0 1 = 2 ^ cfg.W := by unfold doubleWord base; ring
      rw [e]
      have := hv.W1
      exact (UBig.fromUnsigned_spec hv hv.dbl.1 hv.dbl.2
        (Nat.pow_lt_pow_right (by norm_num) (by omega))).1
  | large b => exact UBig.nextPowerOfTwoLarge_spec hv ha

theorem UBig.nextPowerOfTwo_spec {cfg : Cfg} (hv : cfg.Valid) (o : Own) {a : UBig} (ha : a.WF cfg) :
    Yields cfg (a.nextPowerOfTwo cfg o) (2 ^ Ibig.bitLen (a.value cfg - 1)) := by
  cases o
  · exact UBig.nextPowerOfTwoV_spec hv ha
  · unfold UBig.nextPowerOfTwo
    refine Yields.of_bind (UBig.clone_spec ha) ?_
    rintro c ⟨h1, h2⟩
    rw [← h2]; exact UBig.nextPowerOfTwoV_spec hv h1

end Ibig
