import Verif.Proofs.ModularInv
import Verif.Proofs.FmtNonPow2
import Verif.Proofs.Parse
import Verif.Proofs.Pow
/-! Modular rings: exponentiation. -/
namespace Ibig

theorem pow_mod_mul (a n e f : Nat) : (a ^ e % n) * (a ^ f % n) % n = a ^ (e + f) % n := by
  rw [← Nat.mul_mod, ← pow_add]

theorem and_two_pow_ne_zero' (x i : Nat) : (x &&& 2 ^ i ≠ 0) ↔ x.testBit i = true := by
  rw [Nat.and_two_pow]
  have := Nat.two_pow_pos i
  cases x.testBit i <;> simp

/-! ### Small moduli -/

/-- the raw form of the power `a^e` -/
def RingSmall.power (r : RingSmall) (n a e : Nat) : Nat := a ^ e % n * 2 ^ r.shift

theorem RingSmall.mul_power {W : Nat} {r : RingSmall} {n : Nat} (h : r.OK W n) (a e f : Nat) :
    r.mul W (r.power n a e) (r.power n a f) = .ok (r.power n a (e + f)) := by
  unfold RingSmall.power
  rw [RingSmall.mul_spec h (Nat.mod_lt _ h.pos) (Nat.mod_lt _ h.pos), pow_mod_mul]

theorem RingSmall.powHelper_spec {W : Nat} {r : RingSmall} {n : Nat} (h : r.OK W n) (a exp : Nat) :
    ∀ bits e, bits ≤ W → r.powHelper W (r.power n a 1) exp bits (r.power n a e) =
      .ok (r.power n a (e * 2 ^ bits + exp % 2 ^ bits)) := by
  intro bits
  induction bits with
  | zero => intro e _; simp [RingSmall.powHelper, Nat.mod_one]
  | succ bits ih =>
    intro e hb
    unfold RingSmall.powHelper
    rw [RingSmall.mul_power h]
    simp only [bind, Except.bind]
    rw [shlW_ok le_rfl (by rw [Nat.one_mul]; exact Nat.pow_lt_pow_right (by norm_num) (by omega)), Nat.one_mul]
    simp only
    have hmod : exp % 2 ^ (bits + 1) = exp % 2 ^ bits + 2 ^ bits * (exp / 2 ^ bits % 2) := Nat.mod_pow_succ
    by_cases ht : exp.testBit bits = true
    · rw [if_pos ((and_two_pow_ne_zero' _ _).mpr ht), RingSmall.mul_power h]
      simp only
      rw [ih _ (by omega)]
      rw [Nat.testBit_eq_decide_div_mod_eq, decide_eq_true_iff] at ht
      congr 2
      rw [hmod, ht, pow_succ]
      ring
    · rw [if_neg (fun hc => ht ((and_two_pow_ne_zero' _ _).mp hc)), ih _ (by omega)]
      rw [Nat.testBit_eq_decide_div_mod_eq, decide_eq_true_iff] at ht
      have ht : exp / 2 ^ bits % 2 = 0 := by omega
      congr 2
      rw [hmod, ht, pow_succ]
      ring

theorem mod_two_pow_bitLen {x : Nat} (h0 : x ≠ 0) : 2 ^ (bitLen x - 1) + x % 2 ^ (bitLen x - 1) = x := by
  have h1 := two_pow_le_of_bitLen h0
  have h2 := lt_two_pow_bitLen x
  have h3 := bitLen_pos h0
  have e : 2 ^ bitLen x = 2 * 2 ^ (bitLen x - 1) := by rw [← Nat.pow_succ']; congr 1; omega
  rw [Nat.mod_eq_sub_mod h1, Nat.mod_eq_of_lt (by omega)]
  omega

theorem RingSmall.power_one {W : Nat} {r : RingSmall} {n a : Nat} (_h : r.OK W n) (ha : a < n) :
    r.power n a 1 = a * 2 ^ r.shift := by
  unfold RingSmall.power; rw [pow_one, Nat.mod_eq_of_lt ha]

theorem RingSmall.powWord_spec {W : Nat} (hW : 1 ≤ W) {r : RingSmall} {n a exp : Nat} (h : r.OK W n)
    (he : exp < base W) : r.powWord W (r.power n a 1) exp = .ok (r.power n a exp) := by
  unfold RingSmall.powWord
  split
  · rename_i h0
    subst h0
    rw [RingSmall.fromWord_spec h (by rw [base_eq]; exact Nat.one_lt_two_pow (by omega))]
    simp [RingSmall.power]
  · rename_i h0
    have h1 := bitLen_pos h0
    have h2 : bitLen exp ≤ W := bitLen_le_iff.mpr (by rw [← base_eq]; exact he)
    unfold leadingZeros
    rw [ckSub_ok (by omega), show W - 1 - (W - bitLen exp) = bitLen exp - 1 by omega]
    simp only [bind, Except.bind]
    rw [RingSmall.powHelper_spec h a exp _ _ (by omega), one_mul, mod_two_pow_bitLen h0]

theorem RingSmall.powLoop_spec {W : Nat} {r : RingSmall} {n a : Nat} (h : r.OK W n) :
    ∀ (ws : List Nat) (e : Nat), IsWords W ws → r.powLoop W (r.power n a 1) ws (r.power n a e) =
      .ok (r.power n a (e * base W ^ ws.length + val W ws.reverse)) := by
  intro ws
  induction ws with
  | nil => intro e _; simp [RingSmall.powLoop]
  | cons x xs ih =>
    intro e hw
    rw [isWords_cons] at hw
    unfold RingSmall.powLoop
    rw [RingSmall.powHelper_spec h a x W e le_rfl]
    simp only [bind, Except.bind]
    rw [ih _ hw.2, ← base_eq, Nat.mod_eq_of_lt hw.1, List.reverse_cons, val_append, List.length_cons,
      List.length_reverse]
    congr 2
    simp [pow_succ]
    ring

theorem ModSmall.powNontrivial_spec {cfg : Cfg} (hv : cfg.Valid) {addr : Nat} {r : RingSmall} {n a : Nat}
    (h : r.OK cfg.W n) (ha : a < n) {exp : UBig} (he : exp.WF cfg) (h3 : 3 ≤ exp.value cfg) :
    ModSmall.powNontrivial cfg ⟨addr, r, a * 2 ^ r.shift⟩ exp =
      .ok ⟨addr, r, a ^ exp.value cfg % n * 2 ^ r.shift⟩ := by
  have h16 := hv.W16
  have hb3 : 3 < base cfg.W := by
    have := Nat.pow_le_pow_right (n := 2) (by norm_num) h16
    rw [base_eq]; omega
  unfold ModSmall.powNontrivial
  rw [UBig.lt_spec hv he (wf_small hb3)]
  simp only [bind, Except.bind]
  rw [assertR_true (decide_eq_false (by show ¬ exp.value cfg < 3; omega))]
  simp only
  obtain ⟨w1, w2, w3⟩ := asWords_spec he
  generalize exp.asWords = ws at w1 w2 w3
  have hne : ws ≠ [] := by
    intro hc; rw [hc, val_nil] at w2; omega
  have hpos : 1 ≤ ws.length := List.length_pos_iff.mpr hne
  rw [ckSub_ok hpos]
  simp only
  rw [getR_ok (by omega)]
  simp only
  rw [← RingSmall.power_one h ha, RingSmall.powWord_spec hv.W1 h (w1 _ (List.getElem_mem _))]
  simp only
  rw [RingSmall.powLoop_spec h _ _ (fun x hx => w1 x (List.mem_of_mem_take (List.mem_reverse.mp hx)))]
  simp only
  have hval : ws[ws.length - 1] * base cfg.W ^ (ws.take (ws.length - 1)).reverse.length +
      val cfg.W (ws.take (ws.length - 1)).reverse.reverse = exp.value cfg := by
    have hs : ws = ws.take (ws.length - 1) ++ [ws[ws.length - 1]] := by
      conv_lhs => rw [← List.take_append_drop (ws.length - 1) ws]
      congr 1
      rw [List.drop_eq_getElem_cons (by omega), List.drop_eq_nil_of_le (by omega)]
    rw [← w2]
    conv_rhs => rw [hs]
    rw [val_append]
    simp only [List.reverse_reverse, List.length_reverse, val_cons, val_nil]
    ring
  rw [hval]
  exact ModSmall.new_ok h (Nat.mod_lt _ h.pos)

theorem ModSmall.pow_spec {cfg : Cfg} (hv : cfg.Valid) {addr : Nat} {r : RingSmall} {n a : Nat}
    (h : r.OK cfg.W n) (ha : a < n) {exp : UBig} (he : exp.WF cfg) :
    ModSmall.pow cfg ⟨addr, r, a * 2 ^ r.shift⟩ exp =
      .ok ⟨addr, r, a ^ exp.value cfg % n * 2 ^ r.shift⟩ := by
  have h16 := hv.W16
  have hb3 : 3 < base cfg.W := by
    have := Nat.pow_le_pow_right (n := 2) (by norm_num) h16
    rw [base_eq]; omega
  unfold ModSmall.pow
  split
  · rw [ModSmall.fromUBig_spec h (wf_small (by omega))]; simp [UBig.value]
  · simp [UBig.value, Nat.mod_eq_of_lt ha]
  · simp only [UBig.value]
    rw [RingSmall.mul_spec h ha ha, pow_two]
    simp only [bind, Except.bind]
    exact ModSmall.new_ok h (Nat.mod_lt _ h.pos)
  · rename_i e0 e1 e2
    refine ModSmall.powNontrivial_spec hv h ha he ?_
    cases exp with
    | small w =>
      have : w ≠ 0 := fun hc => e0 (by rw [hc])
      have : w ≠ 1 := fun hc => e1 (by rw [hc])
      have : w ≠ 2 := fun hc => e2 (by rw [hc])
      show 3 ≤ w
      omega
    | large b =>
      have := Buffer.WF.ge_base (cfg := cfg) (b := b) he
      show 3 ≤ val cfg.W b.words
      omega

/-! ### Window size -/

theorem powCost_spec {cfg : Cfg} {N w : Nat} (hN : N < 2 ^ cfg.U) (h1 : 1 ≤ w) (hw : w < cfg.U) :
    powCost cfg N w = .ok (2 ^ (w - 1) - 1 + N / (w + 1)) := by
  have hp := Nat.two_pow_pos (w - 1)
  have h2 : 2 ^ (w - 1) * 2 ≤ 2 ^ cfg.U := by
    rw [← pow_succ]; exact Nat.pow_le_pow_right (by norm_num) (by omega)
  have h3 : N / (w + 1) ≤ N / 2 := Nat.div_le_div_left (by omega) (by norm_num)
  unfold powCost
  rw [ckSub_ok h1]
  simp only [bind, Except.bind]
  rw [shlW_ok le_rfl (by omega), Nat.one_mul]
  simp only
  rw [ckSub_ok hp]
  simp only
  rw [ckAdd_ok (by omega)]

theorem powWindowLoop_spec {cfg : Cfg} {N : Nat} (hN : N < 2 ^ cfg.U) : ∀ fuel w,
    min cfg.W cfg.U ≤ fuel + w → 1 ≤ w → w < min cfg.W cfg.U → 2 ^ (w - 1) - 1 ≤ N →
    Returns (powWindowLoop cfg N fuel w (2 ^ (w - 1) - 1 + N / (w + 1))) fun wl =>
      1 ≤ wl ∧ wl < cfg.W ∧ wl < cfg.U ∧ 2 ^ (wl - 1) - 1 ≤ N := by
  intro fuel
  induction fuel with
  | zero => intro w h1 h2 h3; omega
  | succ fuel ih =>
    intro w h1 h2 h3 h4
    unfold powWindowLoop
    split
    · rename_i hlt
      rw [powCost_spec hN (by omega) (by omega)]
      simp only [bind, Except.bind, Nat.add_sub_cancel]
      split
      · exact returns_ok.mpr ⟨h2, by omega, by omega, h4⟩
      · rename_i hgt
        have h5 : N / (w + 1) ≤ N / 2 := Nat.div_le_div_left (by omega) (by norm_num)
        have e : 2 ^ w = 2 * 2 ^ (w - 1) := by rw [← Nat.pow_succ']; congr 1; omega
        have hp := Nat.two_pow_pos (w - 1)
        have h6 : 2 ^ w - 1 ≤ N := by
          generalize N / (w + 1 + 1) = g at hgt
          generalize N / (w + 1) = f at hgt h5
          omega
        have := ih (w + 1) (by omega) (by omega) (by omega) (by rw [Nat.add_sub_cancel]; exact h6)
        rw [Nat.add_sub_cancel] at this
        exact this
    · exact returns_ok.mpr ⟨h2, by omega, by omega, h4⟩

theorem choosePowWindowLen_spec {cfg : Cfg} (hv : cfg.Valid) {N : Nat} (hN : N < 2 ^ cfg.U) :
    Returns (choosePowWindowLen cfg N) fun wl =>
      1 ≤ wl ∧ wl < cfg.W ∧ wl < cfg.U ∧ 2 ^ (wl - 1) - 1 ≤ N := by
  have h1 : 16 ≤ cfg.U := by rcases hv.usize with h | h | h <;> omega
  have h2 := hv.W16
  unfold choosePowWindowLen
  rw [powCost_spec hN le_rfl (by omega)]
  exact powWindowLoop_spec hN _ 1 (by omega) le_rfl (by omega) (by simp)

/-! ### Windows of the exponent -/

theorem trailingZerosAux_spec : ∀ (W x : Nat), x ≠ 0 → x < 2 ^ W →
    2 ^ trailingZerosAux W x ∣ x ∧ x / 2 ^ trailingZerosAux W x % 2 = 1 := by
  intro W
  induction W with
  | zero => intro x h0 h; simp at h; omega
  | succ W ih =>
    intro x h0 h
    unfold trailingZerosAux
    split
    · rename_i h1; simp; omega
    · rename_i h1
      have h2 : x = 2 * (x / 2) := by omega
      obtain ⟨g1, g2⟩ := ih (x / 2) (by omega) (by rw [pow_succ] at h; omega)
      rw [pow_add, pow_one]
      refine ⟨?_, ?_⟩
      · conv_rhs => rw [h2]
        exact Nat.mul_dvd_mul_left 2 g1
      · rw [← Nat.div_div_eq_div_mul]; exact g2

theorem powWindow_spec {W wl next cur b : Nat} (hn : next < base W) (hwl1 : 1 ≤ wl)
    (hwl : wl < W) (hb : b < W) (hbit : cur.testBit b = true) :
    ∃ tz, tz < wl ∧
      powWindow W wl next cur b =
        .ok ((next + base W * cur) / 2 ^ (b + 1 + W - wl) % 2 ^ wl / 2 ^ tz, wl - tz) ∧
      2 ^ tz ∣ (next + base W * cur) / 2 ^ (b + 1 + W - wl) % 2 ^ wl ∧
      (next + base W * cur) / 2 ^ (b + 1 + W - wl) % 2 ^ wl / 2 ^ tz % 2 = 1 := by
  set D := next + base W * cur with hD
  set w := D / 2 ^ (b + 1 + W - wl) % 2 ^ wl with hw
  have hwlt : w < 2 ^ wl := Nat.mod_lt _ (Nat.two_pow_pos _)
  have hwtop : w.testBit (wl - 1) = true := by
    rw [hw, Nat.testBit_mod_two_pow, Nat.testBit_div_two_pow, hD, base_eq, Nat.add_comm,
      Nat.testBit_two_pow_mul_add _ (by rw [← base_eq]; exact hn)]
    rw [if_neg (by omega), decide_eq_true (by omega), Bool.true_and]
    rw [show wl - 1 + (b + 1 + W - wl) - W = b by omega]
    exact hbit
  have hw0 : w ≠ 0 := by intro hc; rw [hc] at hwtop; simp at hwtop
  have hbase : 2 ^ wl ≤ 2 ^ W := Nat.pow_le_pow_right (by norm_num) hwl.le
  obtain ⟨t1, t2⟩ := trailingZerosAux_spec W w hw0 (by omega)
  have htz : trailingZerosAux W w < wl := by
    by_contra hc
    have := Nat.le_of_dvd (Nat.pos_of_ne_zero hw0) t1
    have := Nat.pow_le_pow_right (n := 2) (by norm_num) (not_lt.mp hc)
    omega
  refine ⟨trailingZerosAux W w, htz, ?_, t1, t2⟩
  unfold powWindow
  rw [ckSub_ok (by omega)]
  simp only [bind, Except.bind, splitDoubleWord]
  rw [shrW_ok (by omega)]
  simp only
  rw [ones_spec hwl.le]
  simp only
  have e : doubleWord W next cur / 2 ^ (b + 1 + W - wl) % base W &&& 2 ^ wl - 1 = w := by
    rw [Nat.and_two_pow_sub_one_eq_mod, base_eq, Nat.mod_mod_of_dvd _ (pow_dvd_pow 2 hwl.le), hw, hD]
    rfl
  rw [e, ckSub_ok htz.le]
  simp only
  rw [ckSub_ok (by omega), show wl - (wl - trailingZerosAux W w) = trailingZerosAux W w by omega]
  simp only
  rw [shrW_ok (by omega)]

theorem powNextWord_spec {W : Nat} {ws : List Nat} {q : Nat} (hws : IsWords W ws) (hq : q < ws.length) :
    Returns (powNextWord ws q) fun x => x < base W ∧ x = if q = 0 then 0 else ws.getD (q - 1) 0 := by
  unfold powNextWord
  split
  · rename_i h; exact returns_ok.mpr ⟨base_pos _, by simp⟩
  · rename_i h
    rw [getR_ok (by omega)]
    refine returns_ok.mpr ⟨hws _ (List.getElem_mem _), ?_⟩
    rw [List.getD_eq_getElem?_getD, List.getElem?_eq_getElem (by omega)]
    rfl

/-- The window taken from two words is the window of the number. -/
theorem window_eq {W : Nat} (hW : 1 ≤ W) {ws : List Nat} (hws : IsWords W ws) {bit wl next : Nat}
    (hwl : wl < W) (hn : next < base W)
    (hnext : next = if bit / W = 0 then 0 else ws.getD (bit / W - 1) 0) :
    (next + base W * ws.getD (bit / W) 0) / 2 ^ (bit % W + 1 + W - wl) % 2 ^ wl =
      val W ws * 2 ^ wl / 2 ^ (bit + 1) % 2 ^ wl := by
  have hmod : bit % W < W := Nat.mod_lt _ hW
  have hdm := Nat.div_add_mod bit W
  refine Nat.eq_of_testBit_eq fun i => ?_
  rw [Nat.testBit_mod_two_pow, Nat.testBit_mod_two_pow]
  by_cases hi : i < wl
  swap
  · simp [hi]
  rw [decide_eq_true hi, Bool.true_and, Bool.true_and, Nat.testBit_div_two_pow, Nat.testBit_div_two_pow,
    base_eq, Nat.add_comm next, Nat.testBit_two_pow_mul_add _ (by rw [← base_eq]; exact hn),
    Nat.mul_comm, Nat.testBit_two_pow_mul]
  generalize hq : bit / W = q at *
  generalize hr : bit % W = r at *
  by_cases hlo : i + (r + 1 + W - wl) < W
  · rw [if_pos hlo, hnext]
    by_cases hq0 : q = 0
    · subst hq0
      rw [if_pos rfl]
      have : ¬ (i + (bit + 1) ≥ wl) := by
        simp only [Nat.mul_zero, Nat.zero_add] at hdm
        omega
      simp [this]
    · rw [if_neg hq0]
      have hWq : W * q = W * (q - 1) + W := by
        obtain ⟨p, rfl⟩ : ∃ p, q = p + 1 := ⟨q - 1, by omega⟩
        simp [Nat.mul_succ]
      have : i + (bit + 1) ≥ wl := by omega
      rw [decide_eq_true this, Bool.true_and, testBit_val hW hws]
      have e : i + (bit + 1) - wl = (i + (r + 1 + W - wl)) + W * (q - 1) := by omega
      rw [e, Nat.add_mul_mod_self_left, Nat.mod_eq_of_lt hlo, Nat.add_mul_div_left _ _ hW,
        Nat.div_eq_of_lt hlo, Nat.zero_add]
  · rw [if_neg hlo]
    have : i + (bit + 1) ≥ wl := by omega
    rw [decide_eq_true this, Bool.true_and, testBit_val hW hws]
    have hlt : i + (r + 1 + W - wl) - W < W := by omega
    have e : i + (bit + 1) - wl = (i + (r + 1 + W - wl) - W) + W * q := by omega
    rw [e, Nat.add_mul_mod_self_left, Nat.mod_eq_of_lt hlt, Nat.add_mul_div_left _ _ hW,
      Nat.div_eq_of_lt hlt, Nat.zero_add]

/-- An odd window ends at or above bit 0, and splits the exponent. -/
theorem window_split {E wl bit tz w : Nat} (htz : tz < wl)
    (hw : w = E * 2 ^ wl / 2 ^ (bit + 1) % 2 ^ wl) (hd : 2 ^ tz ∣ w) (ho : w / 2 ^ tz % 2 = 1) :
    wl - tz ≤ bit + 1 ∧
    E / 2 ^ (bit + 1 - (wl - tz)) = E / 2 ^ (bit + 1) * 2 ^ (wl - tz) + w / 2 ^ tz := by
  have h1 : E * 2 ^ wl / 2 ^ (bit + 1) = E / 2 ^ (bit + 1) * 2 ^ wl + w := by
    have h2 := Nat.div_add_mod (E * 2 ^ wl / 2 ^ (bit + 1)) (2 ^ wl)
    rw [← hw, Nat.div_div_eq_div_mul, Nat.mul_div_mul_right _ _ (Nat.two_pow_pos wl)] at h2
    rw [← h2]; ring
  obtain ⟨k, hk⟩ : ∃ k, wl = k + tz := ⟨wl - tz, by omega⟩
  have hk0 : 0 < k := by omega
  obtain ⟨w', hw'⟩ := hd
  have hp := Nat.two_pow_pos tz
  have hwt : w / 2 ^ tz = w' := by rw [hw', Nat.mul_div_cancel_left _ hp]
  rw [hwt] at ho ⊢
  rw [show wl - tz = k by omega]
  have h3 : E * 2 ^ k / 2 ^ (bit + 1) = E / 2 ^ (bit + 1) * 2 ^ k + w' := by
    have h4 : E * 2 ^ wl / 2 ^ (bit + 1) / 2 ^ tz = (E / 2 ^ (bit + 1) * 2 ^ wl + w) / 2 ^ tz := by rw [h1]
    rw [Nat.div_div_eq_div_mul, hk, pow_add, ← Nat.mul_assoc, Nat.mul_div_mul_right _ _ hp, hw',
      ← Nat.mul_assoc, Nat.mul_comm (2 ^ tz) w', ← Nat.add_mul, Nat.mul_div_cancel _ hp] at h4
    exact h4
  have h5 : k ≤ bit + 1 := by
    by_contra hc
    obtain ⟨d, hd⟩ : ∃ d, k = (bit + 1) + 1 + d := ⟨k - (bit + 2), by omega⟩
    have h6 : E * 2 ^ k / 2 ^ (bit + 1) = 2 * (E * 2 ^ d) := by
      rw [hd, pow_add, pow_succ 2 (bit + 1),
        show E * (2 ^ (bit + 1) * 2 * 2 ^ d) = 2 * (E * 2 ^ d) * 2 ^ (bit + 1) by ring,
        Nat.mul_div_cancel _ (Nat.two_pow_pos _)]
    have h7 : 2 ^ k = 2 * 2 ^ (k - 1) := by rw [← Nat.pow_succ']; congr 1; omega
    rw [h6, h7] at h3
    have h8 : E / 2 ^ (bit + 1) * (2 * 2 ^ (k - 1)) = 2 * (E / 2 ^ (bit + 1) * 2 ^ (k - 1)) := by ring
    rw [h8] at h3
    omega
  refine ⟨h5, ?_⟩
  have h9 : 2 ^ (bit + 1) = 2 ^ (bit + 1 - k) * 2 ^ k := by rw [← pow_add]; congr 1; omega
  have h10 : E * 2 ^ k / 2 ^ (bit + 1) = E / 2 ^ (bit + 1 - k) := by
    conv_lhs => rw [h9]
    rw [Nat.mul_div_mul_right _ _ (Nat.two_pow_pos k)]
  rw [← h10]
  exact h3

/-! ### Large moduli -/

/-- The first `m` entries of the flat table are the odd powers from the third on. -/
def PowTable (cfg : Cfg) (r : RingLarge) (n a m : Nat) (table : List Nat) : Prop :=
  ∀ j < m, r.Has cfg ((table.take ((j + 1) * r.modulus.length)).drop (j * r.modulus.length))
    (a ^ (1 + 2 * (j + 1)) % n)

/-- Writing the next entry. -/
theorem PowTable.write {cfg : Cfg} {r : RingLarge} {n a m : Nat} {table p : List Nat}
    (h : PowTable cfg r n a m table) (hlen : (m + 1) * r.modulus.length ≤ table.length)
    (hp : r.Has cfg p (a ^ (1 + 2 * (m + 1)) % n)) :
    PowTable cfg r n a (m + 1)
      (table.take (m * r.modulus.length) ++ p ++ table.drop ((m + 1) * r.modulus.length)) := by
  have e : (m + 1) * r.modulus.length = m * r.modulus.length + r.modulus.length := Nat.succ_mul _ _
  have l1 : (table.take (m * r.modulus.length)).length = m * r.modulus.length := by
    rw [List.length_take]; omega
  intro j hj
  rcases Nat.lt_or_ge j m with hjm | hjm
  · have h1 : (j + 1) * r.modulus.length ≤ m * r.modulus.length := Nat.mul_le_mul_right _ hjm
    have e2 : (table.take (m * r.modulus.length) ++ p ++
        table.drop ((m + 1) * r.modulus.length)).take ((j + 1) * r.modulus.length) =
        table.take ((j + 1) * r.modulus.length) := by
      rw [List.append_assoc, List.take_append_of_le_length (by omega), List.take_take, Nat.min_eq_left h1]
    rw [e2]
    exact h j hjm
  · obtain rfl : j = m := by omega
    have e2 : (table.take (j * r.modulus.length) ++ p ++
        table.drop ((j + 1) * r.modulus.length)).take ((j + 1) * r.modulus.length) =
        table.take (j * r.modulus.length) ++ p := by
      rw [List.take_append_of_le_length (by rw [List.length_append, l1, hp.len]; omega),
        List.take_of_length_le (by rw [List.length_append, l1, hp.len]; omega)]
    rw [e2, List.drop_append_of_le_length (by omega), List.drop_of_length_le (by omega), List.nil_append]
    exact hp

theorem powPrev_spec {cfg : Cfg} {r : RingLarge} {n a i : Nat} {base table : List Nat}
    (hb : r.Has cfg base (a % n)) (hi : 1 ≤ i) (hU : i * r.modulus.length < 2 ^ cfg.U)
    (hlen : i * r.modulus.length ≤ table.length) (ht : PowTable cfg r n a (i - 1) table) :
    Returns (powPrev cfg r.modulus.length i base table) fun p =>
      r.Has cfg p.1 (a ^ (1 + 2 * (i - 1)) % n) ∧ p.2 = (i - 1) * r.modulus.length := by
  unfold powPrev
  split
  · rename_i h1
    subst h1
    exact returns_ok.mpr ⟨by simpa using hb, by simp⟩
  · rename_i h1
    obtain ⟨m, rfl⟩ : ∃ m, i = m + 2 := ⟨i - 2, by omega⟩
    have e : (m + 2) * r.modulus.length = m * r.modulus.length + r.modulus.length + r.modulus.length := by ring
    have e' : (m + 1) * r.modulus.length = m * r.modulus.length + r.modulus.length := by ring
    rw [ckSub_ok (by omega)]
    simp only [bind, Except.bind, Nat.add_sub_cancel]
    rw [ckMul_ok (by omega)]
    simp only
    rw [ckMul_ok hU]
    simp only
    rw [sliceR_ok (by omega) hlen]
    simp only [splitR]
    rw [if_pos (by rw [List.length_drop, List.length_take]; omega)]
    simp only
    refine returns_ok.mpr ⟨?_, by rw [show m + 2 - 1 = m + 1 by omega, e']⟩
    have := ht m (by omega)
    simp only
    rw [show m + 2 - 1 = m + 1 by omega]
    have e2 : ((table.take ((m + 2) * r.modulus.length)).drop (m * r.modulus.length)).take r.modulus.length =
        (table.take ((m + 1) * r.modulus.length)).drop (m * r.modulus.length) := by
      rw [List.take_drop, List.take_take]
      congr 2
      omega
    rw [e2]
    exact this

theorem powTableLoop_spec {cfg : Cfg} (hv : cfg.Valid) {r : RingLarge} {n mem a : Nat} (h : r.OK cfg n)
    (hm : r.Mem mem) {base sq : List Nat} (hb : r.Has cfg base (a % n)) (hsq : r.Has cfg sq (a ^ 2 % n)) :
    ∀ k i table, 1 ≤ i → (i - 1 + k) * r.modulus.length = table.length → table.length < 2 ^ cfg.U →
    PowTable cfg r n a (i - 1) table →
    Returns (powTableLoop cfg r base sq mem k i table) fun t =>
      t.length = table.length ∧ PowTable cfg r n a (i - 1 + k) t := by
  intro k
  induction k with
  | zero => intro i table _ _ _ ht; exact returns_ok.mpr ⟨rfl, ht⟩
  | succ k ih =>
    intro i table hi hl hU ht
    obtain ⟨m, rfl⟩ : ∃ m, i = m + 1 := ⟨i - 1, by omega⟩
    rw [Nat.add_sub_cancel] at hl ht ⊢
    have hle : (m + 1) * r.modulus.length ≤ table.length := by
      rw [← hl]; exact Nat.mul_le_mul_right _ (by omega)
    have e : (m + 1) * r.modulus.length = m * r.modulus.length + r.modulus.length := Nat.succ_mul _ _
    unfold powTableLoop
    refine Returns.bind (powPrev_spec hb (Nat.le_add_left 1 m) (by omega) hle (by simpa using ht)) ?_
    rintro ⟨prev, start⟩ ⟨p1, p2⟩
    simp only [Nat.add_sub_cancel] at p1 p2 ⊢
    subst p2
    refine Returns.bind (RingLarge.mulNormalized_spec hv h hm p1 hsq) ?_
    intro cur hcur
    rw [pow_mod_mul, show 1 + 2 * m + 2 = 1 + 2 * (m + 1) by ring] at hcur
    unfold onSlice
    rw [sliceR_ok (by omega) (by omega)]
    simp only [bind, Except.bind]
    rw [assertR_true (by rw [List.length_drop, List.length_take, hcur.len]; omega)]
    simp only
    have hw := ht.write hle hcur
    rw [← e]
    have hl2 : (table.take (m * r.modulus.length) ++ cur ++ table.drop ((m + 1) * r.modulus.length)).length =
        table.length := by
      simp only [List.length_append, List.length_take, List.length_drop, hcur.len]
      omega
    refine (ih (m + 1 + 1) _ (by omega) ?_ (by rw [hl2]; exact hU) (by simpa using hw)).mono ?_
    · rw [hl2, ← hl, show m + 1 + 1 - 1 + k = m + (k + 1) by omega]
    · rintro t ⟨t1, t2⟩
      rw [hl2] at t1
      rw [show m + 1 + 1 - 1 + k = m + (k + 1) by omega] at t2
      exact ⟨t1, t2⟩

theorem powEntry_spec {cfg : Cfg} {r : RingLarge} {n a m w : Nat} {base table : List Nat}
    (hb : r.Has cfg base (a % n)) (hw : w % 2 = 1) (hm : w / 2 ≤ m) (hl : m * r.modulus.length = table.length)
    (hU : table.length < 2 ^ cfg.U) (ht : PowTable cfg r n a m table) :
    Returns (powEntry cfg r.modulus.length base table (w / 2)) fun u => r.Has cfg u (a ^ w % n) := by
  unfold powEntry
  split
  · have : w = 1 := by omega
    subst this
    rw [pow_one]
    exact returns_ok.mpr hb
  · rename_i h0
    obtain ⟨j, hj⟩ : ∃ j, w / 2 = j + 1 := ⟨w / 2 - 1, by omega⟩
    have h1 : (j + 1) * r.modulus.length ≤ table.length := by
      rw [← hl]; exact Nat.mul_le_mul_right _ (by omega)
    have h2 : j * r.modulus.length ≤ (j + 1) * r.modulus.length := Nat.mul_le_mul_right _ (by omega)
    rw [hj, ckSub_ok (by omega)]
    simp only [bind, Except.bind, Nat.add_sub_cancel]
    rw [ckMul_ok (by omega)]
    simp only
    rw [ckMul_ok (by omega)]
    simp only
    rw [sliceR_ok h2 h1]
    have := ht j (by omega)
    rw [show 1 + 2 * (j + 1) = w by omega] at this
    exact returns_ok.mpr this

/-- A `ModLarge` of the ring holding a given residue. -/
structure ModLarge.Is (cfg : Cfg) (addr : Nat) (r : RingLarge) (x : ModLarge) (k : Nat) : Prop where
  addr : x.addr = addr
  ring : x.ring = r
  has : r.Has cfg x.words k

theorem ModLarge.Is.mulBy {cfg : Cfg} (hv : cfg.Valid) {addr : Nat} {r : RingLarge} {n j k mem : Nat}
    (h : r.OK cfg n) (hm : r.Mem mem) {x : ModLarge} (hx : x.Is cfg addr r j) {b : List Nat}
    (hb : r.Has cfg b k) :
    Returns (x.mulBy cfg.W b mem) fun y => y.Is cfg addr r (j * k % n) := by
  obtain ⟨a', r', ws⟩ := x
  obtain ⟨h1, h2, h3⟩ := hx
  simp only at h1 h2 h3
  subst h1 h2
  exact (ModLarge.mulBy_spec hv h hm h3 hb).mono fun y hy => ⟨hy.1, hy.2.1, hy.2.2⟩

theorem ModLarge.squares_spec {cfg : Cfg} (hv : cfg.Valid) {addr : Nat} {r : RingLarge} {n mem a : Nat}
    (h : r.OK cfg n) (hm : r.Mem mem) : ∀ k e (x : ModLarge), x.Is cfg addr r (a ^ e % n) →
    Returns (ModLarge.squares cfg.W mem k x) fun y => y.Is cfg addr r (a ^ (e * 2 ^ k) % n) := by
  intro k
  induction k with
  | zero => intro e x hx; exact returns_ok.mpr (by simpa using hx)
  | succ k ih =>
    intro e x hx
    unfold ModLarge.squares
    refine Returns.bind (hx.mulBy hv h hm hx.has) ?_
    intro y hy
    rw [pow_mod_mul] at hy
    refine (ih (e + e) y hy).mono fun z hz => ?_
    rwa [show (e + e) * 2 ^ k = e * 2 ^ (k + 1) by rw [pow_succ]; ring] at hz

theorem powStep_spec {cfg : Cfg} (hv : cfg.Valid) {addr : Nat} {r : RingLarge} {n mem a wl : Nat}
    (h : r.OK cfg n) (hm : r.Mem mem) (ha : a < n) {x : ModLarge} (hx : x.Is cfg addr r a)
    (hwl1 : 1 ≤ wl) (hwl : wl < cfg.W) {table : List Nat}
    (htl : (2 ^ (wl - 1) - 1) * r.modulus.length = table.length) (htU : table.length < 2 ^ cfg.U)
    (htab : PowTable cfg r n a (2 ^ (wl - 1) - 1) table)
    {ws : List Nat} (hws : IsWords cfg.W ws) {bit : Nat} (hbit : bit / cfg.W < ws.length) {v : ModLarge}
    (hval : v.Is cfg addr r (a ^ (2 * (val cfg.W ws / 2 ^ (bit + 1))) % n)) :
    Returns (powStep cfg x table wl mem ws bit v) fun p => p.2 ≤ bit ∧
      p.1.Is cfg addr r (a ^ (val cfg.W ws / 2 ^ p.2) % n) := by
  have hW1 := hv.W1
  have hmod : bit % cfg.W < cfg.W := Nat.mod_lt _ hW1
  unfold powStep
  simp only
  rw [getR_ok hbit]
  simp only [bind, Except.bind]
  rw [shlW_ok le_rfl (by rw [Nat.one_mul]; exact Nat.pow_lt_pow_right (by norm_num) hmod), Nat.one_mul]
  simp only
  have hgetD : ws.getD (bit / cfg.W) 0 = ws[bit / cfg.W] := by
    rw [List.getD_eq_getElem?_getD, List.getElem?_eq_getElem hbit]; rfl
  have htb : ws[bit / cfg.W].testBit (bit % cfg.W) = (val cfg.W ws).testBit bit := by
    rw [testBit_val hW1 hws, hgetD]
  have hdd := div_two_pow_succ (val cfg.W ws) bit
  by_cases hb : ws[bit / cfg.W].testBit (bit % cfg.W) = true
  · rw [if_pos ((and_two_pow_ne_zero' _ _).mpr hb)]
    obtain ⟨next, e, n1, n2⟩ := powNextWord_spec hws hbit
    rw [e]
    simp only
    obtain ⟨tz, htz, e, t1, t2⟩ := powWindow_spec n1 hwl1 hwl hmod hb
    have hwe := window_eq hW1 hws hwl n1 n2
    rw [hgetD] at hwe
    rw [e]
    simp only
    rw [hwe] at t1 t2 ⊢
    obtain ⟨s1, s2⟩ := window_split htz rfl t1 t2
    set w' := val cfg.W ws * 2 ^ wl / 2 ^ (bit + 1) % 2 ^ wl / 2 ^ tz with hw'
    rw [ckSub_ok (by omega)]
    simp only
    obtain ⟨v', e, hv'⟩ := ModLarge.squares_spec hv h hm (wl - tz - 1) _ v hval
    rw [e]
    simp only
    rw [ckSub_ok (by omega)]
    simp only
    rw [assertR_true (by rw [Nat.and_one_is_mod]; exact t2)]
    simp only
    have hwlt : w' < 2 ^ wl :=
      lt_of_le_of_lt (Nat.div_le_self _ _) (Nat.mod_lt _ (Nat.two_pow_pos _))
    have hent : Returns (powEntry cfg x.ring.modulus.length x.words table (w' / 2)) fun u =>
        r.Has cfg u (a ^ w' % n) := by
      have e2 : 2 ^ wl = 2 * 2 ^ (wl - 1) := by rw [← Nat.pow_succ']; congr 1; omega
      rw [hx.ring]
      exact powEntry_spec (by rw [Nat.mod_eq_of_lt ha]; exact hx.has) t2 (by clear_value w'; omega) htl htU htab
    obtain ⟨u, e, hu⟩ := hent
    rw [e]
    simp only
    obtain ⟨v'', e, hv''⟩ := hv'.mulBy hv h hm hu
    rw [e]
    refine returns_ok.mpr ⟨Nat.sub_le _ _, ?_⟩
    simp only
    rw [pow_mod_mul] at hv''
    have e3 : bit - (wl - tz - 1) = bit + 1 - (wl - tz) := by omega
    rw [e3, s2]
    have e4 : 2 ^ (wl - tz) = 2 * 2 ^ (wl - tz - 1) := by rw [← Nat.pow_succ']; congr 1; omega
    rwa [e4, show val cfg.W ws / 2 ^ (bit + 1) * (2 * 2 ^ (wl - tz - 1)) =
      2 * (val cfg.W ws / 2 ^ (bit + 1)) * 2 ^ (wl - tz - 1) by ring]
  · rw [if_neg (fun hc => hb ((and_two_pow_ne_zero' _ _).mp hc))]
    refine returns_ok.mpr ⟨le_rfl, ?_⟩
    simp only
    rw [htb, Nat.testBit_eq_decide_div_mod_eq, decide_eq_true_iff] at hb
    rwa [show val cfg.W ws / 2 ^ bit = 2 * (val cfg.W ws / 2 ^ (bit + 1)) by
      rw [pow_succ, ← Nat.div_div_eq_div_mul]; omega]

theorem powLargeLoop_spec {cfg : Cfg} (hv : cfg.Valid) {addr : Nat} {r : RingLarge} {n mem a wl : Nat}
    (h : r.OK cfg n) (hm : r.Mem mem) (ha : a < n) {x : ModLarge} (hx : x.Is cfg addr r a)
    (hwl1 : 1 ≤ wl) (hwl : wl < cfg.W) {table : List Nat}
    (htl : (2 ^ (wl - 1) - 1) * r.modulus.length = table.length) (htU : table.length < 2 ^ cfg.U)
    (htab : PowTable cfg r n a (2 ^ (wl - 1) - 1) table)
    {ws : List Nat} (hws : IsWords cfg.W ws) : ∀ fuel bit (v : ModLarge), bit < fuel →
    bit / cfg.W < ws.length →
    v.Is cfg addr r (a ^ (2 * (val cfg.W ws / 2 ^ (bit + 1))) % n) →
    Returns (powLargeLoop cfg x table wl mem ws fuel bit v) fun y =>
      y.Is cfg addr r (a ^ val cfg.W ws % n) := by
  intro fuel
  induction fuel with
  | zero => intro bit v h1; omega
  | succ fuel ih =>
    intro bit v h1 h2 h3
    unfold powLargeLoop
    refine Returns.bind (powStep_spec hv h hm ha hx hwl1 hwl htl htU htab hws h2 h3) ?_
    rintro ⟨v', bit'⟩ ⟨g1, g2⟩
    simp only at g1 g2 ⊢
    split
    · rename_i h0
      rw [h0, pow_zero, Nat.div_one] at g2
      exact returns_ok.mpr g2
    · rename_i h0
      refine Returns.bind (g2.mulBy hv h hm g2.has) ?_
      intro v'' hv''
      rw [pow_mod_mul, ← Nat.two_mul] at hv''
      refine ih (bit' - 1) v'' (by omega) ?_ (by rwa [show bit' - 1 + 1 = bit' by omega])
      exact lt_of_le_of_lt (Nat.div_le_div_right (by omega)) h2

theorem powMemory_spec {cfg : Cfg} (hv : cfg.Valid) {r : RingLarge} {n wl N : Nat} (h : r.OK cfg n)
    (h1 : 1 ≤ wl) (hU : wl < cfg.U) (hN : 2 ^ (wl - 1) - 1 ≤ N) :
    RM (¬ Fits cfg (n ^ (N + 6))) (powMemory cfg r wl) fun p =>
      p.1 = 2 ^ (wl - 1) - 1 ∧ p.2.1.length = (2 ^ (wl - 1) - 1) * r.modulus.length ∧
        p.2.1.length < 2 ^ cfg.U ∧ r.Mem p.2.2 := by
  have hp := Nat.two_pow_pos (wl - 1)
  have h2 := h.two
  have hpow : 2 ^ (wl - 1) * 2 ≤ 2 ^ cfg.U := by
    rw [← pow_succ]; exact Nat.pow_le_pow_right (by norm_num) (by omega)
  obtain ⟨req, g1, g2, g3⟩ := RingLarge.mem_of hv h
  set t := 2 ^ (wl - 1) - 1 with ht
  have key : Fits cfg (n ^ (N + 6)) → t * r.modulus.length < 2 ^ cfg.U ∧
      (t * r.modulus.length + req) * (cfg.W / 8) ≤ 2 ^ (cfg.U - 1) - 1 := by
    intro hf
    have h3 : (r.modulus.length - 1) * (N + 6) < cfg.maxLen := by
      by_contra hc
      rw [fits_iff] at hf
      refine absurd hf (not_lt.mpr (le_trans ?_ (Nat.pow_le_pow_left h.ge (N + 6))))
      rw [← pow_mul]
      exact Nat.pow_le_pow_right (base_pos _) (by omega)
    have h4 : t * r.modulus.length + 6 * r.modulus.length ≤ 2 * ((r.modulus.length - 1) * (N + 6)) := by
      rw [← Nat.add_mul]
      calc (t + 6) * r.modulus.length ≤ (N + 6) * (2 * (r.modulus.length - 1)) :=
            Nat.mul_le_mul (by omega) (by omega)
        _ = _ := by ring
    have hlg := hv.large
    have hbits := hv.bits
    generalize t * r.modulus.length = tw at *
    generalize (r.modulus.length - 1) * (N + 6) = z at *
    generalize r.modulus.length = l at *
    clear_value t
    rcases hv.word with hw | hw | hw <;> rcases hv.usize with hu | hu | hu <;>
      rw [hw, hu] at hbits <;> rw [hu] at g2 <;> rw [hw, hu] <;> norm_num at hbits ⊢ <;> omega
  unfold powMemory
  rw [ckSub_ok h1]
  simp only [bind, Except.bind]
  rw [shlW_ok le_rfl (by omega), Nat.one_mul]
  simp only
  rw [ckSub_ok hp]
  simp only
  rw [← ht]
  split
  · rename_i hlt
    rw [g1]
    simp only
    unfold allocMemory
    by_cases hm : (t * r.modulus.length + req) * (cfg.W / 8) ≤ 2 ^ (cfg.U - 1) - 1
    · rw [if_pos hm]
      simp only [allocFill]
      have hr0 := (g3 req le_rfl).1
      rw [if_pos ⟨by omega, by have := h.two; omega⟩]
      exact Or.inl (returns_ok.mpr ⟨rfl, List.length_replicate, by rw [List.length_replicate]; exact hlt,
        g3 _ (by show req ≤ _ - _; omega)⟩)
    · rw [if_neg hm]
      exact Or.inr ⟨rfl, fun hf => hm (key hf).2⟩
  · rename_i hlt
    exact Or.inr ⟨rfl, fun hf => hlt (key hf).1⟩

/-- What the memory for an exponentiation gives. -/
def PowMem (r : RingLarge) (cfg : Cfg) (wl : Nat) (p : Nat × List Nat × Nat) : Prop :=
  p.1 = 2 ^ (wl - 1) - 1 ∧ p.2.1.length = (2 ^ (wl - 1) - 1) * r.modulus.length ∧ p.2.1.length < 2 ^ cfg.U ∧
    r.Mem p.2.2

theorem ModLarge.powNontrivial_of {cfg : Cfg} (hv : cfg.Valid) {addr : Nat} {r : RingLarge} {n a : Nat} {Q : Prop}
    (h : r.OK cfg n) (ha : a < n) {x : ModLarge} (hx : x.Is cfg addr r a) {exp : UBig} (he : exp.WF cfg)
    (h2 : 2 ≤ exp.value cfg)
    (hmem : ∀ wl, choosePowWindowLen cfg (Ibig.bitLen (exp.value cfg)) = .ok wl → 1 ≤ wl → wl < cfg.U →
      2 ^ (wl - 1) - 1 ≤ Ibig.bitLen (exp.value cfg) → RM Q (powMemory cfg r wl) (PowMem r cfg wl)) :
    RM Q (x.powNontrivial cfg exp) fun y => y.Is cfg addr r (a ^ exp.value cfg % n) := by
  have h16 := hv.W16
  have hb3 : 2 < base cfg.W := by
    have := Nat.pow_le_pow_right (n := 2) (by norm_num) h16
    rw [base_eq]; omega
  have hx' := hx
  obtain ⟨xa, xr, xw⟩ := x
  obtain ⟨i1, i2, i3⟩ := hx'
  simp only at i1 i2 i3
  subst i1 i2
  unfold ModLarge.powNontrivial
  rw [UBig.lt_spec hv he (wf_small hb3)]
  simp only [bind, Except.bind]
  rw [assertR_true (decide_eq_false (by show ¬ exp.value cfg < 2; omega))]
  simp only
  rw [UBig.bitLen_spec hv he]
  simp only
  obtain ⟨w1, w2, w3⟩ := asWords_spec he
  have hbl : Ibig.bitLen (exp.value cfg) ≤ exp.asWords.length * cfg.W := by
    rw [bitLen_le_iff, Nat.mul_comm, pow_mul, ← base_eq, ← w2]
    exact val_lt w1
  have hN : Ibig.bitLen (exp.value cfg) < 2 ^ cfg.U := by
    refine lt_of_le_of_lt ?_ hv.bits
    have hf := UBig.WF.fits hv he
    rw [fits_iff] at hf
    rw [bitLen_le_iff, Nat.mul_comm, pow_mul, ← base_eq]
    exact hf
  have hE0 : exp.value cfg ≠ 0 := by omega
  have hbl2 : 2 ≤ Ibig.bitLen (exp.value cfg) := by
    by_contra hc
    have := lt_two_pow_bitLen (exp.value cfg)
    have := Nat.pow_le_pow_right (n := 2) (by norm_num) (show Ibig.bitLen (exp.value cfg) ≤ 1 by omega)
    omega
  set N := Ibig.bitLen (exp.value cfg) with hNdef
  obtain ⟨wl, e, c1, c2, c3, c4⟩ := choosePowWindowLen_spec hv hN
  rw [e]
  simp only
  refine RM.bind (hmem wl e c1 c3 c4) ?_
  rintro ⟨entries, table0, mem⟩ ⟨m1, m3, m4, m2⟩
  simp only at m1 m2 m3 m4 ⊢
  refine Returns.rm ?_
  obtain ⟨v, e, hvv⟩ := hx.mulBy hv h m2 hx.has
  simp only at e
  rw [e]
  simp only
  have hsq : a * a % n = a ^ 2 % n := by rw [pow_two]
  rw [hsq] at hvv
  have h1 : xr.Has cfg xw (a % n) := by rw [Nat.mod_eq_of_lt ha]; exact i3
  obtain ⟨table, e, t1, t2⟩ := powTableLoop_spec hv h m2 h1 hvv.has entries 1 table0 le_rfl
    (by rw [m3, m1, Nat.sub_self, Nat.zero_add]) m4 (fun j hj => by omega)
  rw [Nat.sub_self, Nat.zero_add, m1] at t2
  rw [e]
  simp only
  rw [ckSub_ok hbl2]
  simp only
  have htop : exp.value cfg / 2 ^ (N - 1) = 1 := by
    have hP := Nat.two_pow_pos (N - 1)
    have e : 2 ^ N = 2 * 2 ^ (N - 1) := by rw [← Nat.pow_succ']; congr 1; omega
    have g1 := two_pow_le_of_bitLen hE0
    have g2 := lt_two_pow_bitLen (exp.value cfg)
    rw [← hNdef] at g1 g2
    rw [Nat.div_eq_iff hP]
    omega
  have hfin := powLargeLoop_spec hv h m2 ha hx c1 c2 (by rw [t1, m3]) (by rw [t1]; exact m4) t2 w1 (N - 2 + 1) (N - 2) v (by omega)
    (by
      rw [Nat.div_lt_iff_lt_mul hv.W1]
      omega)
    (by rw [w2, show N - 2 + 1 = N - 1 by omega, htop]; exact hvv)
  rw [w2] at hfin
  exact hfin

theorem ModLarge.pow_of {cfg : Cfg} (hv : cfg.Valid) {addr : Nat} {r : RingLarge} {n a : Nat} {Q : Prop}
    (h : r.OK cfg n) (ha : a < n) {x : ModLarge} (hx : x.Is cfg addr r a) {exp : UBig} (he : exp.WF cfg)
    (hmem : 2 ≤ exp.value cfg → ∀ wl, choosePowWindowLen cfg (Ibig.bitLen (exp.value cfg)) = .ok wl → 1 ≤ wl →
      wl < cfg.U → 2 ^ (wl - 1) - 1 ≤ Ibig.bitLen (exp.value cfg) → RM Q (powMemory cfg r wl) (PowMem r cfg wl)) :
    RM Q (x.pow cfg exp) fun y => y.Is cfg addr r (a ^ exp.value cfg % n) := by
  have h16 := hv.W16
  have hb3 : 2 < base cfg.W := by
    have := Nat.pow_le_pow_right (n := 2) (by norm_num) h16
    rw [base_eq]; omega
  unfold ModLarge.pow
  split
  · obtain ⟨xa, xr, xw⟩ := x
    obtain ⟨i1, i2, i3⟩ := hx
    simp only at i1 i2 i3
    subst i1 i2
    have hn : 1 < n := by
      refine lt_of_lt_of_le ?_ h.ge
      have := h.two
      exact lt_of_lt_of_le (show 1 < base cfg.W by omega) (Nat.le_self_pow (by omega) _)
    refine Returns.rm ((ModLarge.fromUBig_lt hv h (wf_small (by omega)) hn).mono ?_)
    rintro y ⟨g1, g2, g3⟩
    refine ⟨g1, g2, ?_⟩
    rw [show (UBig.small 0).value cfg = 0 from rfl, pow_zero, Nat.mod_eq_of_lt hn]
    exact g3
  · refine Returns.rm (returns_ok.mpr ?_)
    rw [show (UBig.small 1).value cfg = 1 from rfl, pow_one, Nat.mod_eq_of_lt ha]
    exact hx
  · rename_i e0 e1
    suffices h2 : 2 ≤ exp.value cfg from ModLarge.powNontrivial_of hv h ha hx he h2 (hmem h2)
    cases exp with
    | small w =>
      have : w ≠ 0 := fun hc => e0 (by rw [hc])
      have : w ≠ 1 := fun hc => e1 (by rw [hc])
      show 2 ≤ w
      omega
    | large b =>
      have := Buffer.WF.ge_base (cfg := cfg) (b := b) he
      show 2 ≤ val cfg.W b.words
      omega

theorem Modulo.pow_of {cfg : Cfg} (hv : cfg.Valid) {r : Ring} {n : Nat} {Q : Prop} (hr : r.OK cfg n)
    {x : Modulo} {k : Nat} (hx : Elem cfg r x k) {exp : UBig} (he : exp.WF cfg)
    (hmem : ∀ l, r.repr = .large l → l.OK cfg n → 2 ≤ exp.value cfg → ∀ wl,
      choosePowWindowLen cfg (Ibig.bitLen (exp.value cfg)) = .ok wl → 1 ≤ wl →
      wl < cfg.U → 2 ^ (wl - 1) - 1 ≤ Ibig.bitLen (exp.value cfg) → RM Q (powMemory cfg l wl) (PowMem l cfg wl)) :
    RM Q (x.pow cfg exp) fun m => Elem cfg r m (k ^ exp.value cfg % n) := by
  obtain ⟨hk, ⟨s, e1, e2, rfl⟩ | ⟨l, v, e1, e2, rfl, e3⟩⟩ := elem_cases hr hx
  · simp only [Modulo.pow]
    rw [ModSmall.pow_spec hv e2 hk he]
    exact Returns.rm (returns_ok.mpr (elem_small e1 e2 (Nat.mod_lt _ e2.pos)))
  · simp only [Modulo.pow]
    refine RM.bind (ModLarge.pow_of hv e2 hk (x := ⟨r.addr, l, v⟩) ⟨rfl, rfl, e3⟩ he (hmem l e1 e2)) ?_
    rintro ⟨a, l', ws⟩ ⟨h3, h4, h5⟩
    simp only at h3 h4 h5
    subst h3 h4
    exact Returns.rm (returns_ok.mpr (elem_large e1 e2 h5 (Nat.mod_lt _ e2.pos)))

theorem Modulo.pow_spec {cfg : Cfg} (hv : cfg.Valid) {r : Ring} {n : Nat} (hr : r.OK cfg n)
    {x : Modulo} {k : Nat} (hx : Elem cfg r x k) {exp : UBig} (he : exp.WF cfg) :
    RM (¬ Fits cfg (n ^ (Ibig.bitLen (exp.value cfg) + 6))) (x.pow cfg exp) fun m =>
      Elem cfg r m (k ^ exp.value cfg % n) :=
  Modulo.pow_of hv hr hx he fun _ _ h _ _ _ h1 hU hN => powMemory_spec hv h h1 hU hN

end Ibig
