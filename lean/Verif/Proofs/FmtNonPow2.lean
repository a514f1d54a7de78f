import Verif.Proofs.FmtDigits
import Verif.Proofs.Gcd
import Verif.Proofs.Pow
/-! Formatting in the other radixes. -/
namespace Ibig

/-! ### Words -/

theorem npDigitsLoop_spec {W r maxStart : Nat} {fd : FastDivideSmall} (hfd : fd.Valid W r) (hr : 2 ≤ r) (h36 : r ≤ 36) :
    ∀ (fuel word start : Nat) (digits : List Nat), start < fuel → word < base W → word < r ^ start →
      Returns (npDigitsLoop W fd maxStart fuel word start digits) fun ds => ∃ j, j ≤ start ∧
        ds = digitsPad r j word ++ digits ∧ word < r ^ j ∧ start - maxStart ≤ j ∧
        (j = start - maxStart ∨ 1 ≤ j ∧ r ^ (j - 1) ≤ word) := by
  intro fuel
  induction fuel with
  | zero => intro word start digits h; omega
  | succ fuel ih =>
    intro word start digits hf hw hs
    unfold npDigitsLoop
    by_cases hc : maxStart < start ∨ word ≠ 0
    · rw [if_pos hc, FastDivideSmall.divRem_spec hfd hw]
      simp only [bind, Except.bind]
      have hs1 : 1 ≤ start := by
        by_contra h0
        have : start = 0 := by omega
        subst this
        simp only [pow_zero] at hs
        omega
      rw [ckSub_ok hs1]
      simp only
      have hmod := Nat.mod_lt word (show 0 < r by omega)
      rw [Nat.mod_eq_of_lt (show word % r < 256 by omega)]
      have hdiv : word / r < r ^ (start - 1) := by
        rw [Nat.div_lt_iff_lt_mul (by omega), ← pow_succ, Nat.sub_add_cancel hs1]; exact hs
      refine (ih (word / r) (start - 1) (word % r :: digits) (by omega)
        (lt_of_le_of_lt (Nat.div_le_self _ _) hw) hdiv).mono ?_
      rintro ds ⟨j, h1, h2, h3, h4, h5⟩
      refine ⟨j + 1, by omega, ?_, ?_, by omega, ?_⟩
      · rw [h2, digitsPad]; simp
      · rw [pow_succ, ← Nat.div_lt_iff_lt_mul (by omega)]; exact h3
      · rw [Nat.add_sub_cancel]
        by_cases hms : maxStart < start
        · rcases h5 with h5 | ⟨h5, h6⟩
          · left; omega
          · right
            refine ⟨by omega, ?_⟩
            have : r ^ (j - 1) * r ≤ word := (Nat.le_div_iff_mul_le (by omega)).mp h6
            rwa [← pow_succ, Nat.sub_add_cancel h5] at this
        · have hw0 : word ≠ 0 := by tauto
          right
          refine ⟨by omega, ?_⟩
          rcases h5 with h5 | ⟨h5, h6⟩
          · have : j = 0 := by omega
            subst this; simp; omega
          · have : r ^ (j - 1) * r ≤ word := (Nat.le_div_iff_mul_le (by omega)).mp h6
            rwa [← pow_succ, Nat.sub_add_cancel h5] at this
    · rw [if_neg hc, returns_ok]
      have hw0 : word = 0 := by tauto
      refine ⟨0, by omega, by simp [digitsPad], by simp [hw0], by omega, Or.inl (by omega)⟩

/-- what is known about a radix that is not a power of two -/
structure NP (W r : Nat) (info : RadixInfo) : Prop where
  W16 : 16 ≤ W
  W8 : W = W / 8 * 8
  valid : isRadixValid r = true
  np : isRadixPow2 r = false
  lookup : radixInfo W r = .ok info
  tab : info.NonPow2 W r
  three : 3 ≤ r
  le : r ≤ 36

theorem exists_np {cfg : Cfg} (hv : cfg.Valid) {r : Nat} (hval : isRadixValid r = true)
    (h2 : isRadixPow2 r = false) : ∃ info, NP cfg.W r info := by
  obtain ⟨info, hi, hn⟩ := radixInfo_nonPow2 hv.W16 hval h2
  rcases radix_cases hval with h | h
  · rw [h.1] at h2; cases h2
  · exact ⟨info, hv.W16, by have := hv.W8; omega, hval, h2, hi, hn, h.2.1, h.2.2⟩

theorem NP.asserted {W r : Nat} {info : RadixInfo} (h : NP W r info) :
    isRadixValid r = true ∧ ¬isRadixPow2 r = true := ⟨h.valid, by rw [h.np]; simp⟩

theorem NP.r_pos {W r : Nat} {info : RadixInfo} (h : NP W r info) : 0 < r := by have := h.three; omega

theorem npWordNew_spec {W r : Nat} {info : RadixInfo} (h : NP W r info)
    {word m : Nat} (hm1 : 1 ≤ m) (hm : r ^ m < base W) (hw : word < base W) :
    Returns (npWordNew W word r m) fun ds => ∃ j, ds = digitsPad r j word ∧ word < r ^ j ∧ m ≤ j ∧
        (j = m ∨ r ^ (j - 1) ≤ word) := by
  have hr3 := h.three
  unfold npWordNew
  refine Returns.bind (returns_assertR h.asserted) ?_
  intro _ _
  rw [h.lookup]
  simp only [bind, Except.bind]
  obtain ⟨n, e, hmax⟩ := maxWordDigits_spec h.W16
  rw [e]
  simp only
  have hrn : base W ≤ r ^ n := le_trans hmax (Nat.pow_le_pow_left hr3 n)
  have hmn : m < n := (Nat.pow_lt_pow_iff_right (by omega : 1 < r)).mp (lt_of_lt_of_le hm hrn)
  rw [ckSub_ok hmn.le]
  simp only
  refine (npDigitsLoop_spec h.tab.fdr (by omega) h.le (n + 1) word n [] (by omega) hw (by omega)).mono ?_
  rintro ds ⟨j, h1, h2, h3, h4, h5⟩
  refine ⟨j, by simpa using h2, h3, by omega, ?_⟩
  rcases h5 with h5 | h5
  · left; omega
  · exact Or.inr h5.2

/-- a group of exactly `digits_per_word` digits -/
theorem npWordNew_group {W r : Nat} {info : RadixInfo} (h : NP W r info) {word : Nat}
    (hw : word < r ^ info.digitsPerWord) :
    npWordNew W word r info.digitsPerWord = .ok (digitsPad r info.digitsPerWord word) := by
  have hr3 := h.three
  obtain ⟨ds, e, j, h1, h2, h3, h4⟩ := npWordNew_spec h (word := word) h.tab.one h.tab.lt (hw.trans h.tab.lt)
  rw [e, h1]
  have : j = info.digitsPerWord := by
    rcases h4 with h4 | h4
    · exact h4
    · have := (Nat.pow_lt_pow_iff_right (by omega : 1 < r)).mp (lt_of_le_of_lt h4 hw)
      omega
  rw [this]

theorem NP.write {W r : Nat} {info : RadixInfo} (h : NP W r info) (k v : Nat) :
    Writes W (fun dw => dw.write W (digitsPad r k v)) (digitsPad r k v) := by
  have := h.W16
  refine DigitWriter.write_spec h.W8 (by omega) ?_
  intro d hd
  have := digitsPad_lt h.r_pos k v d hd
  have := h.le
  omega

theorem npWriteGroups_spec {W r : Nat} {info : RadixInfo} (h : NP W r info) :
    ∀ gs : List Nat, (∀ g ∈ gs, g < r ^ info.digitsPerWord) →
      Writes W (npWriteGroups W r info.digitsPerWord gs)
        (digitsPad r (gs.length * info.digitsPerWord) (digitsValue (r ^ info.digitsPerWord) gs)) := by
  intro gs
  induction gs with
  | nil => intro _; simp only [List.length_nil, Nat.zero_mul, digitsPad]; exact Writes.nil W
  | cons g gs ih =>
    intro hg
    simp only [List.mem_cons, forall_eq_or_imp] at hg
    have hlt := digitsValue_lt hg.2
    intro dw hdw
    unfold npWriteGroups
    rw [npWordNew_group h hg.1]
    have hj := digitsPad_join (r := r) (a := info.digitsPerWord) (b := gs.length * info.digitsPerWord) (x := g)
      (c := digitsValue (r ^ info.digitsPerWord) gs) h.r_pos (by
        rw [Nat.mul_comm, pow_mul]; exact hlt)
    have e : (r ^ info.digitsPerWord) ^ gs.length = r ^ (gs.length * info.digitsPerWord) := by
      rw [← pow_mul, Nat.mul_comm]
    rw [digitsValue_cons, List.length_cons, Nat.add_mul, Nat.one_mul, Nat.add_comm (gs.length * _), e, ← hj]
    exact Writes.bind (h.write _ _) (ih hg.2) dw hdw

/-! ### Medium numbers -/

theorem popZeros_spec {W : Nat} {l : List Nat} (h : IsWords W l) :
    IsWords W (popZeros l) ∧ val W (popZeros l) = val W l ∧ (popZeros l).getLast? ≠ some 0 := by
  obtain ⟨k, h1, h2⟩ := strip_zeros l
  unfold popZeros
  generalize (l.reverse.dropWhile (fun w => w == 0)).reverse = m at *
  refine ⟨?_, ?_, h2⟩
  · rw [h1, isWords_append] at h; exact h.1
  · rw [h1, val_append]; simp

theorem val_pos_of_top {W : Nat} {l : List Nat} (h : l.getLast? ≠ some 0) (h0 : l ≠ []) : 1 ≤ val W l :=
  le_trans (Nat.one_le_pow _ _ (base_pos W)) (val_top_ge h0 h)

theorem eq_nil_of_val {W : Nat} {l : List Nat} (h : l.getLast? ≠ some 0) (h0 : val W l = 0) : l = [] := by
  by_contra hc
  have := val_pos_of_top (W := W) h hc
  omega

theorem NP.div {W r : Nat} {info : RadixInfo} (h : NP W r info) {l : List Nat} (hl : IsWords W l) :
    Returns (fastDivByWord W l info.rangePerWord info.fastDivRange) fun p => IsWords W (popZeros p.1) ∧
      (popZeros p.1).getLast? ≠ some 0 ∧ p.2 < r ^ info.digitsPerWord ∧
      val W (popZeros p.1) * r ^ info.digitsPerWord + p.2 = val W l := by
  have hW := h.W16
  have hp : 0 < r ^ info.digitsPerWord := Nat.pow_pos h.r_pos
  refine (fastDivByWord_spec (by omega) (by rw [h.tab.range]; omega) (by rw [h.tab.range]; exact h.tab.lt)
    h.tab.fdRange hl).mono ?_
  rintro ⟨q, rem⟩ ⟨h1, h2, h3, h4⟩
  obtain ⟨k1, k2, k3⟩ := popZeros_spec h2
  simp only at *
  rw [h.tab.range] at h3 h4
  exact ⟨k1, k3, h3, by rw [k2]; exact h4⟩

theorem npMediumLoop_spec {W r : Nat} {info : RadixInfo} (h : NP W r info) :
    ∀ (fuel k : Nat) (buffer groups : List Nat), k < fuel → k + groups.length ≤ 16 → buffer ≠ [] → IsWords W buffer →
      buffer.getLast? ≠ some 0 → val W buffer < (r ^ info.digitsPerWord) ^ k →
      Returns (npMediumLoop W info fuel buffer groups) fun p => ∃ w gs, p = ([w], gs ++ groups) ∧ w ≠ 0 ∧
        w < base W ∧ (∀ g ∈ gs, g < r ^ info.digitsPerWord) ∧ gs.length ≤ k ∧
        digitsValue (r ^ info.digitsPerWord) (w :: gs) = val W buffer := by
  have hRB := h.tab.lt
  set R := r ^ info.digitsPerWord with hR
  have hR0 : 0 < R := Nat.pow_pos h.r_pos
  intro fuel
  induction fuel with
  | zero => intro k buffer groups hf; omega
  | succ fuel ih =>
    intro k buffer groups hf hg hne hw htop hlt
    unfold npMediumLoop
    by_cases hlen : 1 < buffer.length
    · rw [if_pos hlen]
      have hge : base W ≤ val W buffer := by
        refine le_trans ?_ (val_top_ge hne htop)
        calc base W = base W ^ 1 := by ring
          _ ≤ _ := Nat.pow_le_pow_right (base_pos W) (by omega)
      have hk : 1 ≤ k := by
        by_contra hc
        have : k = 0 := by omega
        subst this
        simp only [pow_zero] at hlt
        have := base_pos W
        omega
      refine Returns.bind (h.div hw) ?_
      rintro ⟨q, rem⟩ ⟨h1, h2, h3, h4⟩
      simp only at h1 h2 h3 h4 ⊢
      rw [← hR] at h3 h4
      rw [if_pos (show groups.length < fmtChunkLen by unfold fmtChunkLen; omega)]
      have hq : popZeros q ≠ [] := by
        intro hc
        rw [hc] at h4
        simp at h4
        omega
      rw [if_neg hq]
      refine (ih (k - 1) (popZeros q) (rem :: groups) (by omega) (by simp only [List.length_cons]; omega) hq h1 h2 ?_).mono ?_
      · obtain ⟨k, rfl⟩ := Nat.exists_eq_add_of_le' hk
        rw [Nat.add_sub_cancel]
        rw [pow_succ, ← h4] at hlt
        by_contra hc
        have := Nat.mul_le_mul_right R (Nat.le_of_not_lt hc)
        omega
      · rintro p ⟨w, gs, k1, k2, k3, k4, k5, k6⟩
        refine ⟨w, gs ++ [rem], by rw [k1]; simp, k2, k3, ?_, by simp only [List.length_append, List.length_singleton]; omega, ?_⟩
        · intro g hg'
          rcases List.mem_append.mp hg' with hg' | hg'
          · exact k4 g hg'
          · rw [List.mem_singleton] at hg'; rw [hg']; exact h3
        · rw [← List.cons_append, digitsValue_append, k6, List.length_singleton, pow_one, ← h4]
          simp [digitsValue]
    · rw [if_neg hlen, returns_ok]
      have : buffer.length = 1 := by
        have := List.length_pos_iff.mpr hne; omega
      obtain ⟨w, rfl⟩ := List.length_eq_one_iff.mp this
      have hw0 : w ≠ 0 := by
        rintro rfl; simp at htop
      refine ⟨w, [], by simp, hw0, hw w (by simp), by simp, by simp, ?_⟩
      simp [digitsValue, val]

/-- the words of a number in the form expected here -/
theorem asWords_spec {cfg : Cfg} {x : UBig} (hx : x.WF cfg) : IsWords cfg.W x.asWords ∧
    val cfg.W x.asWords = x.value cfg ∧ x.asWords.getLast? ≠ some 0 := by
  cases x with
  | small w =>
    have hw : w < base cfg.W := hx
    simp only [UBig.asWords, UBig.value]
    split
    · subst_vars; simp [IsWords]
    · rename_i h; exact ⟨by simpa [IsWords] using hw, by simp [val], by simpa using h⟩
  | large b => exact ⟨hx.words, rfl, hx.top⟩

theorem chunkBuffer_spec {cfg : Cfg} {r : Nat} {info : RadixInfo} (h : NP cfg.W r info) {x : UBig} (hx : x.WF cfg)
    (hlt : x.value cfg < (r ^ info.digitsPerWord) ^ 16) : chunkBuffer x = .ok x.asWords := by
  obtain ⟨h1, h2, h3⟩ := asWords_spec hx
  have hW := h.W16
  unfold chunkBuffer
  rw [assertR_true]
  · rfl
  · by_cases h0 : x.asWords = []
    · rw [h0]; simp
    · have := val_top_ge (W := cfg.W) h0 h3
      rw [h2] at this
      have h4 : (r ^ info.digitsPerWord) ^ 16 < base cfg.W ^ 16 := Nat.pow_lt_pow_left h.tab.lt (by norm_num)
      have h5 := (Nat.pow_lt_pow_iff_right (two_le_base (by omega : 1 ≤ cfg.W))).mp (lt_of_le_of_lt this (hlt.trans h4))
      unfold fmtChunkLen
      omega

/-- `p` holds the digits of `n` -/
structure MediumOK (W r n : Nat) (info : RadixInfo) (p : PreparedMedium) (k : Nat) : Prop where
  count : DigitCount r n k
  pos : 1 ≤ n
  low : p.low.length ≤ 16
  len : k = p.top.length + p.low.length * info.digitsPerWord
  writes : Writes W (npMediumWrite W p r) (digitsPad r k n)

theorem npMediumNew_spec {cfg : Cfg} (hv : cfg.Valid) {r : Nat} {info : RadixInfo} (h : NP cfg.W r info) {x : UBig}
    (hx : x.WF cfg) (hx1 : 1 ≤ x.value cfg) (hlt : x.value cfg < (r ^ info.digitsPerWord) ^ 16) :
    Returns (npMediumNew cfg.W x r) fun p => ∃ k, MediumOK cfg.W r (x.value cfg) info p k := by
  obtain ⟨h1, h2, h3⟩ := asWords_spec hx
  have hr3 := h.three
  have hne : x.asWords ≠ [] := by
    intro hc; rw [hc] at h2; simp at h2; omega
  unfold npMediumNew
  refine Returns.bind (returns_assertR h.asserted) ?_
  intro _ _
  rw [h.lookup, chunkBuffer_spec h hx hlt]
  simp only [bind, Except.bind]
  obtain ⟨p, e, w, gs, k1, k2, k3, k4, k5, k6⟩ := npMediumLoop_spec h (fmtChunkLen + 2) 16 x.asWords []
    (by unfold fmtChunkLen; omega) (by simp) hne h1 h3 (by rw [h2]; exact hlt)
  rw [e, k1]
  simp only
  have hr1 : r ^ 1 < base cfg.W := by rw [pow_one]; exact radix_lt_base h.W16 h.le
  obtain ⟨ds, e', j, j1, j2, j3, j4⟩ := npWordNew_spec h le_rfl hr1 k3
  rw [e']
  simp only
  rw [returns_ok, List.append_nil]
  have hgv := digitsValue_lt k4
  rw [h2, digitsValue_cons] at k6
  have hdl : ds.length = j := by rw [j1, digitsPad_length]
  have ee : (r ^ info.digitsPerWord) ^ gs.length = r ^ (gs.length * info.digitsPerWord) := by
    rw [← pow_mul, Nat.mul_comm]
  rw [ee] at k6 hgv
  have hwr : r ^ (j - 1) ≤ w := by
    rcases j4 with j4 | j4
    · rw [j4]; simp; omega
    · exact j4
  refine ⟨j + gs.length * info.digitsPerWord, ⟨by omega, ?_, Or.inr ?_⟩, hx1, k5, by simp only [hdl], ?_⟩
  · rw [← k6, pow_add]
    calc w * r ^ (gs.length * info.digitsPerWord) + digitsValue (r ^ info.digitsPerWord) gs
        < w * r ^ (gs.length * info.digitsPerWord) + r ^ (gs.length * info.digitsPerWord) := by omega
      _ = (w + 1) * r ^ (gs.length * info.digitsPerWord) := by ring
      _ ≤ _ := Nat.mul_le_mul_right _ j2
  · rw [← k6, show j + gs.length * info.digitsPerWord - 1 = (j - 1) + gs.length * info.digitsPerWord by omega, pow_add]
    exact le_trans (Nat.mul_le_mul_right _ hwr) (Nat.le_add_right _ _)
  · intro dw hdw
    unfold npMediumWrite
    rw [h.lookup]
    simp only [bind, Except.bind]
    rw [← k6, ← digitsPad_join h.r_pos hgv]
    refine Writes.bind (f := fun dw => dw.write cfg.W ds) (g := npWriteGroups cfg.W r info.digitsPerWord gs) ?_ (npWriteGroups_spec h gs k4) dw hdw
    rw [j1]
    exact h.write _ _

theorem npMediumWidth_spec {cfg : Cfg} (hv : cfg.Valid) {r n k : Nat} {info : RadixInfo} (h : NP cfg.W r info)
    {p : PreparedMedium} (hp : MediumOK cfg.W r n info p k) (hk : k < 2 ^ cfg.U) :
    npMediumWidth cfg p r = .ok k := by
  have hlen := hp.len
  unfold npMediumWidth
  rw [h.lookup]
  simp only [bind, Except.bind]
  rw [ckMul_ok (by omega)]
  simp only
  rw [ckAdd_ok (by omega), hlen]

/-! ### Chunks -/

theorem npChunkGroups_spec {W r : Nat} {info : RadixInfo} (h : NP W r info) :
    ∀ (n : Nat) (buffer groups : List Nat), IsWords W buffer →  buffer.getLast? ≠ some 0 →
      Returns (npChunkGroups W info n buffer groups) fun p => ∃ b gs, p = (b, gs ++ groups) ∧ b.getLast? ≠ some 0 ∧
        (∀ g ∈ gs, g < r ^ info.digitsPerWord) ∧ gs.length = n ∧
        val W b * (r ^ info.digitsPerWord) ^ n + digitsValue (r ^ info.digitsPerWord) gs = val W buffer := by
  intro n
  induction n with
  | zero =>
    intro buffer groups hw ht
    unfold npChunkGroups
    rw [returns_ok]
    exact ⟨buffer, [], by simp, ht, by simp, rfl, by simp [digitsValue]⟩
  | succ n ih =>
    intro buffer groups hw ht
    unfold npChunkGroups
    refine Returns.bind (h.div hw) ?_
    rintro ⟨q, rem⟩ ⟨h1, h2, h3, h4⟩
    simp only at h1 h2 h3 h4 ⊢
    refine (ih (popZeros q) (rem :: groups) h1 h2).mono ?_
    rintro p ⟨b, gs, k1, k2, k3, k4, k5⟩
    refine ⟨b, gs ++ [rem], by rw [k1]; simp, k2, ?_, by simp [k4], ?_⟩
    · intro g hg'
      rcases List.mem_append.mp hg' with hg' | hg'
      · exact k3 g hg'
      · rw [List.mem_singleton] at hg'; rw [hg']; exact h3
    · rw [digitsValue_append, List.length_singleton, pow_one, ← h4, ← k5, pow_succ]
      simp only [digitsValue, List.foldl_cons, List.foldl_nil]
      ring

theorem npWriteChunk_spec {cfg : Cfg} {r : Nat} {info : RadixInfo} (h : NP cfg.W r info) {x : UBig}
    (hx : x.WF cfg) (hlt : x.value cfg < r ^ (16 * info.digitsPerWord)) :
    Writes cfg.W (fun dw => npWriteChunk cfg.W r dw x) (digitsPad r (16 * info.digitsPerWord) (x.value cfg)) := by
  intro dw hdw
  obtain ⟨h1, h2, h3⟩ := asWords_spec hx
  have hlt' : x.value cfg < (r ^ info.digitsPerWord) ^ 16 := by rw [← pow_mul, Nat.mul_comm]; exact hlt
  unfold npWriteChunk
  rw [h.lookup, chunkBuffer_spec h hx hlt']
  simp only [bind, Except.bind]
  obtain ⟨p, e, b, gs, k1, k2, k3, k4, k5⟩ := npChunkGroups_spec h fmtChunkLen x.asWords [] h1 h3
  rw [e, k1]
  simp only
  have hb0 : val cfg.W b = 0 := by
    by_contra hc
    rw [h2] at k5
    have : 1 * (r ^ info.digitsPerWord) ^ fmtChunkLen ≤ val cfg.W b * (r ^ info.digitsPerWord) ^ fmtChunkLen :=
      Nat.mul_le_mul_right _ (by omega)
    unfold fmtChunkLen at *
    omega
  rw [assertR_true (eq_nil_of_val k2 hb0)]
  simp only
  rw [hb0, Nat.zero_mul, Nat.zero_add, h2] at k5
  rw [List.append_nil, ← k5]
  have := npWriteGroups_spec h gs k3 dw hdw
  rw [k4] at this
  exact this

theorem powersOK_get {cfg : Cfg} {r D : Nat} {l : List UBig} (h : PowersOK cfg r D l.reverse) {i : Nat} {p : UBig}
    (hp : l[i]? = some p) : p.WF cfg ∧ p.value cfg = r ^ (D * 2 ^ i) := by
  induction l using List.reverseRecOn with
  | nil => simp at hp
  | append_singleton l q ih =>
    rw [List.reverse_append, List.reverse_singleton, List.singleton_append] at h
    obtain ⟨a, b, c⟩ := h
    rw [List.length_reverse] at b
    rw [List.getElem?_append] at hp
    split at hp
    · exact ih c hp
    · rename_i hi
      have hi' : i - l.length = 0 := by
        by_contra hc
        rw [List.getElem?_eq_none (by simp only [List.length_singleton]; omega)] at hp
        cases hp
      rw [hi'] at hp
      simp only [List.getElem?_cons_zero, Option.some.injEq] at hp
      rw [← hp, show i = l.length by omega]
      exact ⟨a, b⟩

theorem npWriteBigChunk_spec {cfg : Cfg} (hv : cfg.Valid) {r : Nat} {info : RadixInfo} (h : NP cfg.W r info)
    {powers : List UBig} (hp : PowersOK cfg r (16 * info.digitsPerWord) powers.reverse) :
    ∀ (i : Nat) (x : UBig), i ≤ powers.length → x.WF cfg → x.value cfg < r ^ (16 * info.digitsPerWord * 2 ^ i) →
      Writes cfg.W (fun dw => npWriteBigChunk cfg r powers i dw x)
        (digitsPad r (16 * info.digitsPerWord * 2 ^ i) (x.value cfg)) := by
  intro i
  induction i with
  | zero =>
    intro x _ hx hlt
    rw [pow_zero, Nat.mul_one] at hlt ⊢
    simp only [npWriteBigChunk]
    exact npWriteChunk_spec h hx hlt
  | succ i ih =>
    intro x hi hx hlt dw hdw
    simp only [npWriteBigChunk]
    rw [List.getElem?_eq_getElem (by omega)]
    simp only
    obtain ⟨p1, p2⟩ := powersOK_get hp (List.getElem?_eq_getElem (show i < powers.length by omega))
    have hpos : 0 < r ^ (16 * info.digitsPerWord * 2 ^ i) := Nat.pow_pos h.r_pos
    have hdr := (UBig.divRem_spec hv .val .ref hx p1).1 (by rw [p2]; omega)
    obtain ⟨⟨q, rem⟩, e, d1, d2, d3, d4⟩ := hdr
    rw [e]
    simp only [bind, Except.bind] at d1 d2 d3 d4 ⊢
    rw [p2] at d3 d4
    have hrl : rem.value cfg < r ^ (16 * info.digitsPerWord * 2 ^ i) := by rw [d4]; exact Nat.mod_lt _ hpos
    have hdouble : 16 * info.digitsPerWord * 2 ^ (i + 1) =
        16 * info.digitsPerWord * 2 ^ i + 16 * info.digitsPerWord * 2 ^ i := by rw [pow_succ]; ring
    have hql : q.value cfg < r ^ (16 * info.digitsPerWord * 2 ^ i) := by
      rw [d3, Nat.div_lt_iff_lt_mul hpos, ← pow_add, ← hdouble]; exact hlt
    have hx' : x.value cfg = q.value cfg * r ^ (16 * info.digitsPerWord * 2 ^ i) + rem.value cfg := by
      rw [d3, d4, Nat.mul_comm]; exact (Nat.div_add_mod _ _).symm
    rw [hdouble, hx', ← digitsPad_join h.r_pos hrl]
    exact Writes.bind (ih q (by omega) d1 hql) (ih rem (by omega) d2 hrl) dw hdw

end Ibig
