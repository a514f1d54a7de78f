import Verif.Proofs.FmtLarge
import Verif.Proofs.FmtPow2
import Verif.Spec.Fmt
/-! Formatting: padding, sign and prefix; the entry points. -/
namespace Ibig

theorem signStr_eq (s : Sign) (f : FmtFlags) : signStr s f = signText (decide (s = .neg)) f.plus := by
  unfold signStr signText
  cases s <;> simp <;> rfl

theorem signStr_length (s : Sign) (f : FmtFlags) : (signStr s f).length ≤ 1 := by
  unfold signStr; split_ifs <;> simp

theorem formatPrepared_spec {cfg : Cfg} (hv : cfg.Valid) (be : Bool) (sign : Sign) {pre : List Nat} (hpre : pre.length ≤ 2)
    (c : DigitCase) (f : FmtFlags) {p : Prepared} {ds : List Nat} {k : Nat} (hw : p.width = .ok k) (hk : ds.length = k)
    (hU : k + 3 < 2 ^ cfg.U) (hp : Writes cfg.W p.write ds) :
    ∃ text, formatPrepared cfg be sign pre c f p = .ok text ∧
      Padded f (signText (decide (sign = .neg)) f.plus) pre (ds.map (asciiOf c)) text := by
  have h16 := hv.W16
  have h8 : cfg.W = cfg.W / 8 * 8 := by have := hv.W8; omega
  have hs := signStr_length sign f
  unfold formatPrepared
  rw [hw]
  simp only [bind, Except.bind]
  rw [ckAdd_ok (by omega)]
  simp only
  rw [writeDigits_spec h8 (by omega) be c hp]
  simp only
  rw [← signStr_eq]
  generalize signStr sign f = sg at *
  unfold Padded
  cases hwid : f.width with
  | none => exact ⟨_, rfl, rfl⟩
  | some w =>
    simp only
    have hlen : (sg ++ pre ++ ds.map (asciiOf c)).length = k + (sg.length + pre.length) := by
      simp only [List.length_append, List.length_map]; omega
    by_cases hle : w ≤ k + (sg.length + pre.length)
    · rw [if_pos hle]
      refine ⟨_, rfl, by rw [hlen]; omega, ?_⟩
      split
      · exact ⟨0, by simp⟩
      · refine ⟨0, 0, by simp, ?_⟩
        rcases f.align with _ | _ | _ | _ <;> simp [AlignOK]
    · rw [if_neg hle]
      by_cases hz : f.zero = true
      · rw [if_pos hz]
        refine ⟨_, rfl, ?_, ?_⟩
        · rw [List.length_append, List.length_append, List.length_replicate, hlen]
          simp only [List.length_append, List.length_map]
          omega
        · rw [if_pos hz]; exact ⟨_, rfl⟩
      · rw [if_neg hz]
        have hleft : leftFill f (w - (k + (sg.length + pre.length))) ≤ w - (k + (sg.length + pre.length)) := by
          unfold leftFill; split <;> omega
        refine ⟨_, rfl, ?_, ?_⟩
        · rw [hlen]
          simp only [List.length_append, List.length_map, List.length_replicate]
          omega
        · rw [if_neg hz]
          refine ⟨leftFill f (w - (k + (sg.length + pre.length))), w - (k + (sg.length + pre.length)) -
            leftFill f (w - (k + (sg.length + pre.length))), by simp only [List.append_assoc], ?_⟩
          generalize w - (k + (sg.length + pre.length)) = n at *
          unfold leftFill at *
          rcases f.align with _ | _ | _ | _ <;> simp only [AlignOK] at * <;> omega

/-- the width never overflows -/
theorem DigitCount.bound {cfg : Cfg} (hv : cfg.Valid) {r n k : Nat} (hr : 2 ≤ r) (h : DigitCount r n k) (hn : Fits cfg n) :
    k + 3 < 2 ^ cfg.U := by
  have hm := hv.maxBits_le
  have h16 := hv.W16
  have hl := hv.large
  have hml : 512 * 1 ≤ cfg.maxLen * cfg.W := Nat.mul_le_mul hl (by omega)
  rcases h.ge with h1 | h1
  · omega
  · rw [fits_iff, base_eq, ← pow_mul] at hn
    have h2 : 2 ^ (k - 1) ≤ r ^ (k - 1) := Nat.pow_le_pow_left hr _
    have := (Nat.pow_lt_pow_iff_right (by norm_num : 1 < 2)).mp (lt_of_le_of_lt (h2.trans h1) hn)
    rw [Nat.mul_comm] at this
    omega

theorem fmtFull_spec {cfg : Cfg} (hv : cfg.Valid) (be : Bool) (sign : Sign) {x : UBig} (hx : x.WF cfg) {r : Nat}
    (hval : isRadixValid r = true) {pre : List Nat} (hpre : pre.length ≤ 2) (c : DigitCase) (f : FmtFlags) :
    ∃ text k, fmtFull cfg be sign x r pre c f = .ok text ∧ DigitCount r (x.value cfg) k ∧
      Padded f (signText (decide (sign = .neg)) f.plus) pre ((digitsPad r k (x.value cfg)).map (asciiOf c)) text := by
  have hr := isRadixValid_iff.mp hval
  have h16 := hv.W16
  have h8 : cfg.W = cfg.W / 8 * 8 := by have := hv.W8; omega
  have hfit := UBig.WF.fits hv hx
  unfold fmtFull
  rcases radix_cases hval with ⟨h2, hr2, hl1, hl5⟩ | ⟨h2, hr3, hr36⟩
  · rw [if_pos h2]
    unfold fmtPow2
    rw [assertR_true ⟨hval, h2⟩]
    simp only [bind, Except.bind]
    cases x with
    | small w =>
      have hcount : DigitCount r w (pow2WordWidth w (logRadix r)) := by
        conv => rw [hr2]
        have := pow2Width_count (n := w) hl1
        rw [← hr2]
        conv at this => rw [← hr2]
        exact this
      obtain ⟨text, e, hp⟩ := formatPrepared_spec hv be sign hpre c f
        (p := ⟨.ok (pow2WordWidth w (logRadix r)), pow2WordWrite cfg.W w (logRadix r) (pow2WordWidth w (logRadix r))⟩)
        rfl (digitsPad_length r _ w) (hcount.bound hv hr.1 hfit) (pow2WordWrite_spec h8 h16 hv.W64 hr2 hl1 hl5 hx)
      exact ⟨text, _, e, hcount, hp⟩
    | large b =>
      obtain ⟨k, e, hcount, hw⟩ := pow2Large_spec hv hx hr2 hl1 hl5
      simp only
      rw [e]
      simp only
      obtain ⟨text, e, hp⟩ := formatPrepared_spec hv be sign hpre c f
        (p := ⟨.ok k, pow2LargeWrite cfg b.words (logRadix r) k⟩)
        rfl (digitsPad_length r k (val cfg.W b.words)) (hcount.bound hv hr.1 hfit) hw
      exact ⟨text, _, e, hcount, hp⟩
  · rw [if_neg (by rw [h2]; simp)]
    obtain ⟨info, h⟩ := exists_np hv hval h2
    unfold fmtNonPow2
    rw [assertR_true h.asserted]
    simp only [bind, Except.bind]
    cases x with
    | small w =>
      have hr1 : r ^ 1 < base cfg.W := by rw [pow_one]; exact radix_lt_base h.W16 h.le
      obtain ⟨ds, e', j, j1, j2, j3, j4⟩ := npWordNew_spec h le_rfl hr1 (show w < base cfg.W from hx)
      have hcount : DigitCount r w j := ⟨j3, j2, j4⟩
      simp only
      rw [e']
      simp only
      rw [j1]
      obtain ⟨text, e, hp⟩ := formatPrepared_spec hv be sign hpre c f
        (p := ⟨.ok (digitsPad r j w).length, fun dw => dw.write cfg.W (digitsPad r j w)⟩)
        (by rw [digitsPad_length]) (digitsPad_length r j w) (hcount.bound hv hr.1 hfit) (h.write j w)
      exact ⟨text, _, e, hcount, hp⟩
    | large b =>
      have hdw := digitsPerWord_le hr.1 h.tab
      have hlen : b.len ≤ cfg.maxLen := Buffer.WF.len hx
      have hmul : b.len * (info.digitsPerWord + 1) ≤ cfg.maxLen * cfg.W := Nat.mul_le_mul hlen (by omega)
      have hbits := hv.maxBits_le
      have hge : 1 ≤ (UBig.large b).value cfg := le_trans (base_pos _) (Buffer.WF.ge_base hx)
      simp only
      rw [h.lookup]
      simp only
      rw [ckMul_ok (by omega)]
      simp only
      by_cases hmed : b.len * (info.digitsPerWord + 1) ≤ fmtChunkLen * info.digitsPerWord
      · rw [if_pos hmed]
        have hlt : (UBig.large b).value cfg < (r ^ info.digitsPerWord) ^ 16 := by
          calc (UBig.large b).value cfg < base cfg.W ^ b.len := Buffer.WF.lt hx
            _ ≤ (r ^ (info.digitsPerWord + 1)) ^ b.len := Nat.pow_le_pow_left h.tab.ge _
            _ = r ^ (b.len * (info.digitsPerWord + 1)) := by rw [← pow_mul, Nat.mul_comm]
            _ ≤ r ^ (16 * info.digitsPerWord) := Nat.pow_le_pow_right (by omega) hmed
            _ = _ := by rw [← pow_mul, Nat.mul_comm]
        obtain ⟨p, e', k, hp⟩ := npMediumNew_spec hv h hx hge hlt
        rw [e']
        simp only
        have hk := hp.count.bound hv hr.1 hfit
        obtain ⟨text, e, hpp⟩ := formatPrepared_spec hv be sign hpre c f
          (p := ⟨npMediumWidth cfg p r, npMediumWrite cfg.W p r⟩)
          (npMediumWidth_spec hv h hp (by omega)) (digitsPad_length r k _) hk hp.writes
        exact ⟨text, k, e, hp.count, hpp⟩
      · rw [if_neg hmed]
        obtain ⟨q, e', y, k, hm, q1, q2, q3⟩ := npLargeNew_spec hv h hx hge
        rw [e']
        simp only
        obtain ⟨hcount, hwr⟩ := npWriteChunks_spec hv h q1 q.chunks y k _ q2 hm.pos hm.count hm.writes
        rw [q3] at hcount hwr
        have hk := hcount.bound hv hr.1 hfit
        obtain ⟨text, e, hpp⟩ := formatPrepared_spec hv be sign hpre c f
          (p := ⟨npLargeWidth cfg q r, npLargeWrite cfg q r⟩)
          (by
            simp only
            unfold npLargeWidth
            rw [npMediumWidth_spec hv h hm (by omega), h.lookup]
            simp only [bind, Except.bind]
            exact npChunksWidth_spec h.tab.one q.chunks k (by omega)) (digitsPad_length r _ _) hk hwr
        exact ⟨text, _, e, hcount, hpp⟩

theorem asciiOf_lower {d : Nat} (h : d < 36) : lowerDigits[d]? = some (asciiOf .lower d) := by
  have table : ∀ d < 36, lowerDigits[d]? = some (asciiOf .lower d) := by decide +kernel
  exact table d h

theorem asciiOf_upper {d : Nat} (h : d < 36) : upperDigits[d]? = some (asciiOf .upper d) := by
  have table : ∀ d < 36, upperDigits[d]? = some (asciiOf .upper d) := by decide +kernel
  exact table d h

theorem asciiOf_noLetters {d : Nat} (h : d < 10) (c : DigitCase) : asciiOf .noLetters d = asciiOf c d := by
  unfold asciiOf; rw [if_pos h, if_pos h]

/-- the digit case used by the code prints in the right case -/
theorem isPrinted {r : Nat} (hr : r ≤ 36) (upper : Bool) {c : DigitCase}
    (hc : c = (if upper then .upper else .lower) ∨ c = .noLetters ∧ r ≤ 10) {ds : List Nat} (hd : ∀ d ∈ ds, d < r) :
    IsPrinted upper (ds.map (asciiOf c)) ds := by
  unfold IsPrinted
  rw [List.forall₂_map_left_iff, List.forall₂_same]
  intro d hd'
  have h := hd d hd'
  have : asciiOf c d = asciiOf (if upper then .upper else .lower) d := by
    rcases hc with rfl | ⟨rfl, h10⟩
    · rfl
    · exact asciiOf_noLetters (by omega) _
  rw [this]
  cases upper
  · exact asciiOf_lower (by omega)
  · exact asciiOf_upper (by omega)

theorem fmtFull_prints {cfg : Cfg} (hv : cfg.Valid) (be : Bool) (sign : Sign) {x : UBig} (hx : x.WF cfg) {r : Nat}
    (hval : isRadixValid r = true) {pre : List Nat} (hpre : pre.length ≤ 2) {c : DigitCase} (f : FmtFlags) (upper : Bool)
    (hc : c = (if upper then .upper else .lower) ∨ c = .noLetters ∧ r ≤ 10) :
    Prints f r upper (decide (sign = .neg)) (x.value cfg) pre (fmtFull cfg be sign x r pre c f) := by
  have hr := isRadixValid_iff.mp hval
  obtain ⟨text, k, e, h1, h2⟩ := fmtFull_spec hv be sign hx hval hpre c f
  have hcan := h1.canonical hr.1
  exact ⟨text, _, e, ⟨_, hcan, isPrinted hr.2 upper hc hcan.digits⟩, h2⟩

end Ibig
