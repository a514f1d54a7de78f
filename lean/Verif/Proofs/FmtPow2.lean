import Verif.Proofs.FmtDigits
import Verif.Proofs.BitCount
/-! Formatting in a power-of-two radix. -/
namespace Ibig

theorem ceilDiv_spec {a b : Nat} (hb : 0 < b) : a ≤ ceilDiv a b * b ∧ (ceilDiv a b - 1) * b < a ∨ a = 0 ∧ ceilDiv a b = 0 := by
  unfold ceilDiv
  split
  · right; simp_all
  · left
    have h1 := Nat.div_add_mod (a - 1) b
    have h2 := Nat.mod_lt (a - 1) hb
    rw [Nat.add_sub_cancel, Nat.add_mul, Nat.one_mul, Nat.mul_comm ((a - 1) / b) b]
    omega

/-- the number of digits of `n` in radix `2^g` -/
theorem pow2Width_count {n g : Nat} (hg : 1 ≤ g) : DigitCount (2 ^ g) n (max (ceilDiv (bitLen n) g) 1) := by
  rcases ceilDiv_spec (a := bitLen n) (b := g) (by omega) with ⟨h1, h2⟩ | ⟨h1, h2⟩
  · have hn : n ≠ 0 := by
      rintro rfl
      simp [bitLen] at h2
    have hb := bitLen_pos hn
    have hc : 1 ≤ ceilDiv (bitLen n) g := by
      by_contra hc
      have : ceilDiv (bitLen n) g = 0 := by omega
      rw [this] at h1; omega
    rw [max_eq_left hc]
    refine ⟨hc, ?_, Or.inr ?_⟩
    · rw [← pow_mul, Nat.mul_comm]
      exact lt_of_lt_of_le (lt_two_pow_bitLen n) (Nat.pow_le_pow_right (by norm_num) h1)
    · rw [← pow_mul, Nat.mul_comm]
      exact le_trans (Nat.pow_le_pow_right (by norm_num) (by omega)) (two_pow_le_of_bitLen hn)
  · rw [h2]
    have := lt_two_pow_bitLen n
    rw [h1] at this
    refine ⟨by simp, ?_, Or.inl (by simp)⟩
    have : n = 0 := by simpa using this
    rw [this]
    exact Nat.pow_pos (Nat.two_pow_pos g)

theorem shrW_ok {W x s : Nat} (h : s < W) : shrW W x s = .ok (x / 2 ^ s) := if_pos h

theorem two_pow_dvd_256 {g : Nat} (h : g ≤ 5) : 2 ^ g ∣ 256 := by
  rw [show (256 : Nat) = 2 ^ 8 by norm_num]; exact pow_dvd_pow 2 (by omega)

theorem pow2WordDigits_spec {W word g : Nat} (hg : g ≤ 5) (hW : W ≤ 64) :
    ∀ k, (k = 0 ∨ (k - 1) * g < W) →
      pow2WordDigits W word g (2 ^ g - 1) k = .ok (digitsPad (2 ^ g) k word) := by
  intro k
  induction k with
  | zero => intro _; rfl
  | succ k ih =>
    intro h
    rcases h with h | h
    · omega
    rw [Nat.add_sub_cancel] at h
    have hk : k = 0 ∨ (k - 1) * g < W := by
      rcases Nat.eq_zero_or_pos k with h0 | h0
      · exact Or.inl h0
      · exact Or.inr (lt_of_le_of_lt (Nat.mul_le_mul_right _ (Nat.sub_le _ _)) h)
    unfold pow2WordDigits
    rw [ckMul_ok (by omega)]
    simp only [bind, Except.bind]
    rw [shrW_ok h]
    simp only
    rw [ih hk]
    simp only
    rw [digitsPad_cons, Nat.and_two_pow_sub_one_eq_mod, Nat.mod_mod_of_dvd' (two_pow_dvd_256 hg),
      ← pow_mul, Nat.mul_comm g k]

theorem pow2WordWrite_spec {W word r : Nat} (h8 : W = W / 8 * 8) (hW16 : 16 ≤ W) (hW : W ≤ 64)
    (hr : r = 2 ^ logRadix r) (h1 : 1 ≤ logRadix r) (h5 : logRadix r ≤ 5) (hw : word < base W) :
    Writes W (pow2WordWrite W word (logRadix r) (pow2WordWidth word (logRadix r)))
      (digitsPad r (pow2WordWidth word (logRadix r)) word) := by
  generalize logRadix r = g at *
  subst hr
  have hbl : bitLen word ≤ W := bitLen_le_iff.mpr hw
  have hlt : (pow2WordWidth word g - 1) * g < W ∧ pow2WordWidth word g ≤ W := by
    unfold pow2WordWidth
    rcases ceilDiv_spec (a := bitLen word) (b := g) (by omega) with ⟨k1, k2⟩ | ⟨k1, k2⟩
    · rcases Nat.lt_or_ge (ceilDiv (bitLen word) g) 1 with hc | hc
      · rw [max_eq_right (by omega)]
        simp; omega
      · rw [max_eq_left hc]
        refine ⟨by omega, ?_⟩
        have : ceilDiv (bitLen word) g - 1 ≤ (ceilDiv (bitLen word) g - 1) * g := Nat.le_mul_of_pos_right _ (by omega)
        omega
    · rw [k2]; simp; omega
  intro dw hdw
  unfold pow2WordWrite
  rw [ones_spec (by omega)]
  simp only [bind, Except.bind]
  rw [assertR_true hlt.2]
  simp only
  rw [pow2WordDigits_spec h5 hW _ (Or.inr hlt.1)]
  simp only
  refine DigitWriter.write_spec h8 (by omega) ?_ dw hdw
  intro d hd
  have := digitsPad_lt (Nat.two_pow_pos g) _ _ d hd
  have : 2 ^ g ≤ 2 ^ 5 := Nat.pow_le_pow_right (by norm_num) h5
  omega

/-! ### Large numbers -/

theorem pow2LargeLoop'_spec {W g : Nat} (h8 : W = W / 8 * 8) (hW16 : 16 ≤ W) (h1 : 1 ≤ g) (h5 : g ≤ 5) :
    ∀ (fuel k word bits : Nat) (rest : List Nat), k < fuel → k * g = bits + W * rest.length → bits < W + g →
      IsWords W rest →
      Writes W (pow2LargeLoop' W g (2 ^ g - 1) fuel word bits rest)
        (digitsPad (2 ^ g) k (val W rest.reverse + base W ^ rest.length * word)) := by
  have h32 : 2 ^ g ≤ 2 ^ 5 := Nat.pow_le_pow_right (by norm_num) h5
  intro fuel
  induction fuel with
  | zero => intro k word bits rest hk; omega
  | succ fuel ih =>
    intro k word bits rest hk hT hbits hrest dw hdw
    simp only [pow2LargeLoop']
    unfold pow2LargeStep
    by_cases hlt : bits < g
    · rw [if_pos hlt]
      cases rest with
      | nil =>
        simp only [List.length_nil, Nat.mul_zero, Nat.add_zero] at hT
        have hk0 : k = 0 := by
          by_contra hc
          have := Nat.le_mul_of_pos_left g (Nat.pos_of_ne_zero hc)
          omega
        subst hk0
        rw [Nat.zero_mul] at hT
        simp only [assertR_true hT.symm, bind, Except.bind]
        exact Writes.nil W dw hdw
      | cons w rest =>
        rw [isWords_cons] at hrest
        simp only
        rw [ckSub_ok hlt.le]
        simp only [bind, Except.bind]
        rw [ckSub_ok (by omega)]
        simp only
        rw [show shlW W word (g - bits) = .ok (word * 2 ^ (g - bits) % base W) from if_pos (by omega)]
        simp only
        rw [shrW_ok (by omega)]
        simp only
        obtain ⟨k, rfl⟩ : ∃ j, k = j + 1 := ⟨k - 1, by
          have : k ≠ 0 := by
            rintro rfl
            simp only [List.length_cons, Nat.zero_mul] at hT
            rw [Nat.mul_add] at hT
            omega
          omega⟩
        rw [List.length_cons] at hT
        -- the digit
        set e := g - bits with he
        have hke : k * g = W * rest.length + (W - e) := by
          have := Nat.mul_add W rest.length 1
          rw [Nat.add_mul] at hT
          omega
        have hB : base W = 2 ^ (W - e) * 2 ^ e := by rw [base_eq, ← pow_add]; congr 1; omega
        have hpow : (2 ^ g) ^ k = base W ^ rest.length * 2 ^ (W - e) := by
          rw [← pow_mul, Nat.mul_comm g k, hke, pow_add, base_eq, ← pow_mul]
        have hv := val_lt (W := W) (l := rest.reverse) (fun x hx => hrest.2 x (List.mem_reverse.mp hx))
        rw [List.length_reverse] at hv
        have hy : w / 2 ^ (W - e) < 2 ^ e := by
          rw [Nat.div_lt_iff_lt_mul (Nat.two_pow_pos _), Nat.mul_comm, ← hB]; exact hrest.1
        have hd : ((word * 2 ^ e % base W ||| w / 2 ^ (W - e)) &&& (2 ^ g - 1)) % 256 =
            (val W (w :: rest).reverse + base W ^ (w :: rest).length * word) / (2 ^ g) ^ k % 2 ^ g := by
          rw [Nat.and_two_pow_sub_one_eq_mod, Nat.mod_mod_of_dvd' (two_pow_dvd_256 h5)]
          have e1 : word * 2 ^ e % base W = 2 ^ e * (word % 2 ^ (W - e)) := by
            rw [hB, Nat.mul_mod_mul_right, Nat.mul_comm]
          rw [e1, mul_pow_or hy]
          have e2 : (val W (w :: rest).reverse + base W ^ (w :: rest).length * word) / (2 ^ g) ^ k =
              w / 2 ^ (W - e) + 2 ^ e * word := by
            rw [hpow, ← Nat.div_div_eq_div_mul, List.reverse_cons, val_append, List.length_reverse, List.length_cons,
              pow_succ]
            rw [show val W rest.reverse + base W ^ rest.length * val W [w] + base W ^ rest.length * base W * word =
              val W rest.reverse + base W ^ rest.length * (w + base W * word) by simp [val]; ring,
              Nat.add_mul_div_left _ _ (Nat.pow_pos (base_pos W)), Nat.div_eq_of_lt hv, Nat.zero_add]
            conv_lhs => rw [hB]
            rw [Nat.mul_assoc, Nat.add_mul_div_left _ _ (Nat.two_pow_pos _)]
          rw [e2, Nat.add_comm (2 ^ e * _)]
          have e3 : w / 2 ^ (W - e) + 2 ^ e * word = w / 2 ^ (W - e) + 2 ^ e * (word % 2 ^ (W - e)) +
              2 ^ g * (2 ^ (W - g) * (word / 2 ^ (W - e))) := by
            have a1 := Nat.div_add_mod word (2 ^ (W - e))
            have a2 : 2 ^ g * (2 ^ (W - g) * (word / 2 ^ (W - e))) = 2 ^ e * (2 ^ (W - e) * (word / 2 ^ (W - e))) := by
              rw [← Nat.mul_assoc, ← Nat.mul_assoc, ← pow_add, ← pow_add]
              congr 2; omega
            rw [a2]
            conv_lhs => rw [← a1]
            ring
          rw [e3, Nat.add_mul_mod_self_left]
        -- the rest
        have htail : digitsPad (2 ^ g) k (val W (w :: rest).reverse + base W ^ (w :: rest).length * word) =
            digitsPad (2 ^ g) k (val W rest.reverse + base W ^ rest.length * w) := by
          apply digitsPad_congr
          rw [hpow, List.reverse_cons, val_append, List.length_reverse, List.length_cons, pow_succ]
          rw [show val W rest.reverse + base W ^ rest.length * val W [w] + base W ^ rest.length * base W * word =
              val W rest.reverse + base W ^ rest.length * w + base W ^ rest.length * 2 ^ (W - e) * (2 ^ e * word) by
            rw [show base W ^ rest.length * base W * word = base W ^ rest.length * (2 ^ (W - e) * 2 ^ e) * word by
              rw [← hB]]
            simp [val]; ring]
          rw [Nat.add_mul_mod_self_left]
        rw [digitsPad_cons, htail, ← hd]
        refine Writes.bind (a := [_]) (DigitWriter.write_spec h8 (by omega) ?_) (ih k w (W - e) rest (by omega)
          (by omega) (by omega) hrest.2) dw hdw
        intro d hd'
        rw [List.mem_singleton] at hd'
        rw [hd', hd]
        have := Nat.mod_lt ((val W (w :: rest).reverse + base W ^ (w :: rest).length * word) / (2 ^ g) ^ k) (Nat.two_pow_pos g)
        omega
    · rw [if_neg hlt, ckSub_ok (by omega)]
      simp only [bind, Except.bind]
      rw [shrW_ok (by omega)]
      simp only
      obtain ⟨k, rfl⟩ : ∃ j, k = j + 1 := ⟨k - 1, by
        have : k ≠ 0 := by
          rintro rfl
          omega
        omega⟩
      have hke : k * g = W * rest.length + (bits - g) := by
        rw [Nat.add_mul] at hT
        omega
      have hpow : (2 ^ g) ^ k = base W ^ rest.length * 2 ^ (bits - g) := by
        rw [← pow_mul, Nat.mul_comm g k, hke, pow_add, base_eq, ← pow_mul]
      have hv := val_lt (W := W) (l := rest.reverse) (fun x hx => hrest x (List.mem_reverse.mp hx))
      rw [List.length_reverse] at hv
      have hd : (word / 2 ^ (bits - g) &&& (2 ^ g - 1)) % 256 =
          (val W rest.reverse + base W ^ rest.length * word) / (2 ^ g) ^ k % 2 ^ g := by
        rw [Nat.and_two_pow_sub_one_eq_mod, Nat.mod_mod_of_dvd' (two_pow_dvd_256 h5), hpow,
          ← Nat.div_div_eq_div_mul, Nat.add_mul_div_left _ _ (Nat.pow_pos (base_pos W)), Nat.div_eq_of_lt hv,
          Nat.zero_add]
      rw [digitsPad_cons, ← hd]
      refine Writes.bind (a := [_]) (DigitWriter.write_spec h8 (by omega) ?_) (ih k word (bits - g) rest (by omega)
        (by omega) (by omega) hrest) dw hdw
      intro d hd'
      rw [List.mem_singleton] at hd'
      rw [hd', hd]
      have := Nat.mod_lt ((val W rest.reverse + base W ^ rest.length * word) / (2 ^ g) ^ k) (Nat.two_pow_pos g)
      omega

theorem pow2Large_spec {cfg : Cfg} (hv : cfg.Valid) {b : Buffer} (hb : b.WF cfg) {r : Nat}
    (hr : r = 2 ^ logRadix r) (h1 : 1 ≤ logRadix r) (h5 : logRadix r ≤ 5) :
    Returns (pow2LargeWidth cfg b.words (logRadix r)) fun k => DigitCount r (val cfg.W b.words) k ∧
      Writes cfg.W (pow2LargeWrite cfg b.words (logRadix r) k) (digitsPad r k (val cfg.W b.words)) := by
  generalize logRadix r = g at *
  subst hr
  have hW16 := hv.W16
  have hW64 := hv.W64
  have h8 : cfg.W = cfg.W / 8 * 8 := by have := hv.W8; omega
  have hmb := hv.maxBits_le
  have hlen := hb.ok.fits
  have hbl := hb.bitLen
  have hne := hb.ne_nil
  have hl1 : 1 ≤ b.words.length := List.length_pos_iff.mpr hne
  have hlast := hb.last_ne
  have htop : bitLen (b.words.getLast hne) ≤ cfg.W := bitLen_le_iff.mpr (hb.words _ (List.getLast_mem hne))
  have hmul : b.words.length * cfg.W < 2 ^ cfg.U := by
    have h := hb.len
    have : b.words.length * cfg.W ≤ cfg.maxLen * cfg.W := Nat.mul_le_mul_right _ (by omega)
    omega
  have hsub : b.words.length * cfg.W - leadingZeros cfg.W (b.words.getLast hne) = bitLen (val cfg.W b.words) ∧
      leadingZeros cfg.W (b.words.getLast hne) ≤ b.words.length * cfg.W := by
    unfold leadingZeros
    rw [hbl]
    obtain ⟨l, hl⟩ : ∃ l, b.words.length = l + 1 := ⟨b.words.length - 1, by omega⟩
    rw [hl, Nat.add_sub_cancel, Nat.add_mul]
    omega
  unfold pow2LargeWidth
  rw [ckMul_ok hmul, lastR_spec hne]
  simp only [bind, Except.bind]
  rw [ckSub_ok hsub.2, hsub.1]
  simp only
  rw [returns_ok]
  have hcount := pow2Width_count (n := val cfg.W b.words) h1
  refine ⟨hcount, ?_⟩
  have hk : max (ceilDiv (bitLen (val cfg.W b.words)) g) 1 * g < bitLen (val cfg.W b.words) + g ∧
      bitLen (val cfg.W b.words) ≤ max (ceilDiv (bitLen (val cfg.W b.words)) g) 1 * g := by
    have hb1 := bitLen_pos hlast
    rcases ceilDiv_spec (a := bitLen (val cfg.W b.words)) (b := g) (by omega) with ⟨k1, k2⟩ | ⟨k1, k2⟩
    · have hc : 1 ≤ ceilDiv (bitLen (val cfg.W b.words)) g := by
        by_contra hc
        have : ceilDiv (bitLen (val cfg.W b.words)) g = 0 := by omega
        rw [this] at k1; omega
      rw [max_eq_left hc]
      obtain ⟨l, hl⟩ := Nat.exists_eq_add_of_le' hc
      rw [hl, Nat.add_sub_cancel] at k2
      refine ⟨?_, k1⟩
      rw [hl, Nat.add_mul]; omega
    · omega
  generalize max (ceilDiv (bitLen (val cfg.W b.words)) g) 1 = k at *
  have hwl : b.words = b.words.dropLast ++ [b.words.getLast hne] := (List.dropLast_append_getLast hne).symm
  have hrev : b.words.reverse = b.words.getLast hne :: b.words.dropLast.reverse := by
    conv_lhs => rw [hwl]
    simp
  intro dw hdw
  unfold pow2LargeWrite
  rw [ones_spec (by omega), hrev]
  have hmw : (b.words.length - 1) * cfg.W + cfg.W ≤ cfg.maxLen * cfg.W := by
    have h := hb.len
    have : b.words.length * cfg.W ≤ cfg.maxLen * cfg.W := Nat.mul_le_mul_right _ (by omega)
    obtain ⟨l, hl⟩ : ∃ l, b.words.length = l + 1 := ⟨b.words.length - 1, by omega⟩
    rw [hl, Nat.add_mul] at this
    rw [hl, Nat.add_sub_cancel]
    omega
  simp only [bind, Except.bind]
  rw [ckMul_ok (by omega)]
  simp only
  rw [ckSub_ok (by omega)]
  simp only
  rw [ckMul_ok (by omega)]
  simp only
  rw [ckSub_ok (by omega)]
  simp only
  rw [Nat.mod_eq_of_lt (by omega)]
  have hval : val cfg.W b.words.dropLast.reverse.reverse + base cfg.W ^ b.words.dropLast.reverse.length *
      b.words.getLast hne = val cfg.W b.words := by
    conv_rhs => rw [hwl]
    rw [val_append, List.reverse_reverse, List.length_reverse]
    simp [val]
  have := pow2LargeLoop'_spec h8 hW16 h1 h5 (k + 1) k (b.words.getLast hne) (k * g - (b.words.length - 1) * cfg.W)
    b.words.dropLast.reverse (by omega) (by
      rw [List.length_reverse, List.length_dropLast, Nat.mul_comm cfg.W]; omega) (by omega)
    (fun x hx => hb.words x (List.mem_of_mem_dropLast (List.mem_reverse.mp hx))) dw hdw
  rw [hval] at this
  exact this

end Ibig
