import Verif.Model.AddOps
import Verif.Proofs.Add
import Verif.Proofs.DivSimple
import Verif.Proofs.Number
/-! Addition and subtraction of `UBig` and `IBig` (/repo/src/add_ops.rs) are exact. -/
namespace Ibig

/-- A buffer followed by a carry. -/
theorem yields_carry {cfg : Cfg} (hv : cfg.Valid) {b : Buffer} (h : b.OK cfg)
    (hl : b.words.length < cfg.maxLen + 4) {c : Bool} {n : Nat}
    (hn : val cfg.W b.words + c.toNat * base cfg.W ^ b.words.length = n) :
    Yields cfg (if c = true then do
        let b ← b.pushMayReallocate cfg 1
        UBig.ofBuffer cfg b
      else UBig.ofBuffer cfg b) n := by
  have := two_le_base hv.W1
  cases c with
  | false =>
    rw [if_neg (by simp)]
    exact yields_ofBuffer hv h (by simpa using hn)
  | true =>
    rw [if_pos rfl]
    refine Yields.of_bind (Buffer.pushMayReallocate_spec h (by omega) hl) ?_
    rintro c ⟨h1, h2⟩
    refine yields_ofBuffer hv h1 ?_
    rw [h2, val_append, ← hn]
    simp

/-- natural-number form of `AddSpec` for additions -/
theorem AddSpec.nat {W : Nat} {c c' : List Nat} {k δ : Nat} (h : AddSpec W c c' k δ) :
    val W c' + k * base W ^ c.length = val W c + δ := by
  have := h.eq
  exact_mod_cast this

/-- natural-number form of `AddSpec` for subtractions -/
theorem AddSpec.nat_sub {W : Nat} {c c' : List Nat} {k δ : Nat}
    (h : AddSpec W c c' (-(k : Int)) (-(δ : Int))) :
    val W c' + δ = val W c + k * base W ^ c.length := by
  have := h.eq
  zify
  linarith

theorem ne_nil_of_two {l : List Nat} (h : 2 ≤ l.length) : l ≠ [] := by
  rintro rfl; simp at h

theorem UBig.addWord_spec {cfg : Cfg} (hv : cfg.Valid) {a b : Nat} (ha : a < base cfg.W)
    (hb : b < base cfg.W) : Yields cfg (UBig.addWord cfg a b) (a + b) := by
  obtain ⟨h1, h2⟩ := overflowingAdd_spec ha hb.le
  have hB := two_le_base hv.W1
  unfold UBig.addWord
  rcases hh : overflowingAdd cfg.W a b with ⟨res, overflow⟩
  rw [hh] at h1 h2
  simp only at h1 h2 ⊢
  cases overflow with
  | false =>
    rw [if_neg (by simp)]
    have : a + b = res := by simpa using h2.symm
    rw [this]; exact yields_small hv h1
  | true =>
    rw [if_pos rfl, Buffer.allocate_ok (by omega)]
    have hl := hv.large
    refine Yields.of_bind (P := fun s => s = _) (returns_ok.mpr rfl) ?_
    rintro _ rfl
    refine Yields.of_bind (Buffer.push_spec (w := res) ⟨by simp, by simp⟩ h1 (by
      have := min_le_allocCap cfg 2; simp only [List.length_nil]; omega)) ?_
    rintro c1 ⟨g1, g2, g3⟩
    refine Yields.of_bind (Buffer.push_spec (w := 1) g1 (by omega) (by
      rw [g2, g3]
      have := min_le_allocCap cfg 2
      simp only [List.nil_append, List.length_singleton]; omega)) ?_
    rintro c2 ⟨k1, k2, k3⟩
    refine yields_ofBuffer hv k1 ?_
    rw [k2, g2, ← h2]
    simp [base, Nat.mul_comm]

theorem UBig.addLargeWord_spec {cfg : Cfg} (hv : cfg.Valid) {b : Buffer} (h : b.WF cfg) {w : Nat}
    (hw : w < base cfg.W) :
    Yields cfg (UBig.addLargeWord cfg b w) (val cfg.W b.words + w) := by
  have hl := h.len
  unfold UBig.addLargeWord
  refine Yields.of_bind (returns_assertR (p := 2 ≤ b.len) h.two) ?_
  rintro _ -
  refine Yields.of_bind (Ibig.addWord_spec h.words (ne_nil_of_two h.two) hw) ?_
  rintro ⟨ws, o⟩ hs
  simp only at hs ⊢
  refine yields_carry hv (h.ok.setWords hs.words hs.len.le) (by simp only [hs.len]; omega) ?_
  simp only [hs.len]
  exact hs.nat

theorem appendRest_spec {cfg : Cfg} {b : Buffer} (h : b.OK cfg) {r1 r2 : List Nat}
    (hr : IsWords cfg.W (r1 ++ r2)) (hl : (r1 ++ r2).length ≤ cfg.maxLen) {n : Nat} (hn : r1.length = n)
    (hx : r2 ≠ [] → b.words.length = n) :
    Returns (appendRest cfg b (r1 ++ r2) n) fun c => c.OK cfg ∧ c.words = b.words ++ r2 := by
  unfold appendRest
  have hl' := hl
  simp only [List.length_append] at hl'
  split
  · rename_i h1
    have hne : r2 ≠ [] := by rintro rfl; simp at h1; omega
    refine Returns.bind (Buffer.ensureCapacity_spec h (n := (r1 ++ r2).length)
      (by simp only [List.length_append]; have := hx hne; omega) (by omega)) ?_
    rintro c ⟨g1, g2, g3⟩
    have e : ((r1 ++ r2).take (r1 ++ r2).length).drop n = r2 := by
      rw [List.take_length, ← hn, List.drop_left]
    rw [sliceR_ok (by omega) le_rfl, e]
    refine Returns.bind (returns_ok.mpr rfl) ?_
    rintro _ rfl
    refine (Buffer.extend_spec g1 (isWords_append.mp hr).2 ?_).mono ?_
    · rw [g2, hx hne]; simpa [hn] using g3
    · rintro c2 ⟨k1, k2, -⟩
      exact ⟨k1, by rw [k2, g2]⟩
  · rename_i h1
    have : r2 = [] := by
      simp only [List.length_append] at h1
      exact List.length_eq_zero_iff.mp (by omega)
    subst this
    exact returns_ok.mpr ⟨h, by simp⟩

/-- the two parts of a slice of words -/
theorem exists_split {l : List Nat} {n : Nat} (h : n ≤ l.length) :
    ∃ a b, l = a ++ b ∧ a.length = n := ⟨l.take n, l.drop n, by simp, by simp [h]⟩

theorem UBig.addLarge_spec {cfg : Cfg} (hv : cfg.Valid) {b : Buffer} (h : b.WF cfg) {r : List Nat}
    (hr : IsWords cfg.W r) (hl : r.length ≤ cfg.maxLen) :
    Yields cfg (UBig.addLarge cfg b r) (val cfg.W b.words + val cfg.W r) := by
  have hbl := h.len
  have hbok := h.ok
  have hbw := h.words
  unfold UBig.addLarge Buffer.len
  generalize hn : min b.words.length r.length = n
  obtain ⟨x1, x2, hx, hx1⟩ := exists_split (l := b.words) (n := n) (by omega)
  obtain ⟨r1, r2, rfl, hr1⟩ := exists_split (l := r) (n := n) (by omega)
  rw [hx] at hbw hbl hn ⊢
  simp only [List.length_append] at hbl hl hn
  rw [isWords_append] at hbw
  have hr' := isWords_append.mp hr
  have e : ((r1 ++ r2).take n).drop 0 = r1 := by rw [← hr1]; simp
  simp only
  rw [sliceR_ok (Nat.zero_le _) (by simp; omega), e]
  refine Yields.of_bind (P := fun s => s = r1) (returns_ok.mpr rfl) ?_
  intro _ hq
  rw [hq]
  refine Yields.of_bind (onSlice_append (f := fun s => addSameLen cfg.W s r1) (a := []) (s := x1)
    (b := x2) (i := 0) (j := n) rfl (by simp [hx1])
    (addSameLen_spec hbw.1 hr'.1 (by omega))) ?_
  rintro ⟨ws, o⟩ ⟨s', e1, hs⟩
  simp only [List.nil_append] at e1 hs ⊢
  subst e1
  have sl : s'.length = n := by rw [hs.len, hx1]
  have hok1 : ({ b with words := s' ++ x2 } : Buffer).OK cfg :=
    hbok.setWords (isWords_append.mpr ⟨hs.words, hbw.2⟩) (by simp [hx, sl, hx1])
  refine Yields.of_bind (appendRest_spec hok1 hr (by simpa using hl) hr1 ?_) ?_
  · intro hne
    have : r2.length ≠ 0 := fun e => hne (List.length_eq_zero_iff.mp e)
    simp only [List.length_append]; omega
  rintro c ⟨hc, hcw⟩
  simp only at hcw
  -- one of the tails is empty
  have htl : x2 = [] ∨ r2 = [] := by
    by_cases h0 : x2.length = 0
    · left; exact List.length_eq_zero_iff.mp h0
    · right; exact List.length_eq_zero_iff.mp (by omega)
  have hnat := hs.nat
  have htlv : val cfg.W (x2 ++ r2) = val cfg.W x2 + val cfg.W r2 := by
    rcases htl with h | h <;> simp [h]
  have hlen : (x2 ++ r2).length + n ≤ cfg.maxLen := by
    rcases htl with h | h <;> subst h <;> simp at * <;> omega
  have total : val cfg.W (x1 ++ x2) + val cfg.W (r1 ++ r2)
      = val cfg.W s' + o.toNat * base cfg.W ^ n + base cfg.W ^ n * val cfg.W (x2 ++ r2) := by
    rw [val_append, val_append, hx1, hr1, htlv]
    rw [hx1] at hnat
    linarith
  rw [total]
  cases o with
  | false =>
    rw [if_neg (by simp)]
    refine yields_ofBuffer hv hc ?_
    rw [hcw, List.append_assoc, val_append, sl]
    simp
  | true =>
    rw [if_pos rfl]
    have hcl : n + (x2 ++ r2).length = c.words.length := by
      rw [hcw]; simp [sl]
    have hcw2 := hc.words
    rw [hcw, List.append_assoc, isWords_append] at hcw2
    have hform : c.words = s' ++ (x2 ++ r2) ++ [] := by simp [hcw]
    have key := onSlice_append (f := fun s => .ok (addOne cfg.W s)) (a := s') (s := x2 ++ r2) (b := [])
      (i := n) (j := c.words.length) (P := fun p => AddSpec cfg.W (x2 ++ r2) p.1 p.2.toNat 1) sl hcl
      (returns_ok.mpr (addOne_spec hcw2.2))
    rw [← hform] at key
    refine Yields.of_bind key ?_
    rintro ⟨ws, o2⟩ ⟨t', e2, ht⟩
    simp only [List.append_nil] at e2 ht ⊢
    subst e2
    have htn := ht.nat
    refine yields_carry hv (hc.setWords (isWords_append.mpr ⟨hs.words, ht.words⟩) ?_) ?_ ?_
    · rw [hcw]; simp only [List.length_append, ht.len]; omega
    · simp only [List.length_append, ht.len] at hlen ⊢; omega
    · simp only [List.length_append, ht.len, sl] at htn ⊢
      rw [val_append, sl, pow_add]
      have : base cfg.W ^ n * (val cfg.W t' + o2.toNat * base cfg.W ^ (x2.length + r2.length))
        = base cfg.W ^ n * (val cfg.W (x2 ++ r2) + 1) := by rw [htn]
      simp only [Bool.toNat_true]
      linarith

theorem UBig.addVV_spec {cfg : Cfg} (hv : cfg.Valid) {a b : UBig} (ha : a.WF cfg) (hb : b.WF cfg) :
    Yields cfg (UBig.addVV cfg a b) (a.value cfg + b.value cfg) := by
  cases a with
  | small v => cases b with
    | small w => exact UBig.addWord_spec hv ha hb
    | large b => rw [Nat.add_comm]; exact UBig.addLargeWord_spec hv hb ha
  | large a => cases b with
    | small w => exact UBig.addLargeWord_spec hv ha hb
    | large b =>
      simp only [UBig.addVV]
      split
      · exact UBig.addLarge_spec hv ha (Buffer.WF.words hb) (Buffer.WF.len hb)
      · rw [Nat.add_comm]
        exact UBig.addLarge_spec hv hb (Buffer.WF.words ha) (Buffer.WF.len ha)

theorem UBig.addVR_spec {cfg : Cfg} (hv : cfg.Valid) {a b : UBig} (ha : a.WF cfg) (hb : b.WF cfg) :
    Yields cfg (UBig.addVR cfg a b) (a.value cfg + b.value cfg) := by
  cases a with
  | small v => cases b with
    | small w => exact UBig.addWord_spec hv ha hb
    | large b =>
      rw [Nat.add_comm]
      refine Yields.of_bind (Buffer.clone_spec hb) ?_
      rintro c ⟨h1, h2⟩
      simp only [UBig.value, ← h2]
      exact UBig.addLargeWord_spec hv h1 ha
  | large a => cases b with
    | small w => exact UBig.addLargeWord_spec hv ha hb
    | large b => exact UBig.addLarge_spec hv ha (Buffer.WF.words hb) (Buffer.WF.len hb)

theorem UBig.addRR_spec {cfg : Cfg} (hv : cfg.Valid) {a b : UBig} (ha : a.WF cfg) (hb : b.WF cfg) :
    Yields cfg (UBig.addRR cfg a b) (a.value cfg + b.value cfg) := by
  cases a with
  | small v => cases b with
    | small w => exact UBig.addWord_spec hv ha hb
    | large b =>
      rw [Nat.add_comm]
      refine Yields.of_bind (Buffer.clone_spec hb) ?_
      rintro c ⟨h1, h2⟩
      simp only [UBig.value, ← h2]
      exact UBig.addLargeWord_spec hv h1 ha
  | large a => cases b with
    | small w =>
      refine Yields.of_bind (Buffer.clone_spec ha) ?_
      rintro c ⟨h1, h2⟩
      simp only [UBig.value, ← h2]
      exact UBig.addLargeWord_spec hv h1 hb
    | large b =>
      simp only [UBig.addRR]
      split
      · refine Yields.of_bind (Buffer.clone_spec ha) ?_
        rintro c ⟨h1, h2⟩
        simp only [UBig.value, ← h2]
        exact UBig.addLarge_spec hv h1 (Buffer.WF.words hb) (Buffer.WF.len hb)
      · refine Yields.of_bind (Buffer.clone_spec hb) ?_
        rintro c ⟨h1, h2⟩
        rw [Nat.add_comm]
        simp only [UBig.value, ← h2]
        exact UBig.addLarge_spec hv h1 (Buffer.WF.words ha) (Buffer.WF.len ha)

theorem UBig.add_spec {cfg : Cfg} (hv : cfg.Valid) (o1 o2 : Own) {a b : UBig} (ha : a.WF cfg)
    (hb : b.WF cfg) : Yields cfg (UBig.add cfg o1 o2 a b) (a.value cfg + b.value cfg) := by
  cases o1 <;> cases o2
  · exact UBig.addVV_spec hv ha hb
  · exact UBig.addVR_spec hv ha hb
  · rw [Nat.add_comm]; exact UBig.addVR_spec hv hb ha
  · exact UBig.addRR_spec hv ha hb

/-! ### Subtraction -/

/-- `a - b`: the difference, or the documented panic. -/
def SubSpec (cfg : Cfg) (x : R UBig) (a b : Nat) : Prop :=
  (b ≤ a → Yields cfg x (a - b)) ∧ (a < b → x = .error .negativeUBig)

theorem UBig.subWord_spec {cfg : Cfg} (hv : cfg.Valid) {a b : Nat} (ha : a < base cfg.W) :
    SubSpec cfg (UBig.subWord a b) a b := by
  unfold UBig.subWord
  constructor
  · intro h; rw [if_pos h]; exact yields_small hv (by omega)
  · intro h; rw [if_neg (by omega)]

theorem UBig.subLargeWord_spec {cfg : Cfg} (hv : cfg.Valid) {b : Buffer} (h : b.WF cfg) {w : Nat}
    (hw : w < base cfg.W) :
    Yields cfg (UBig.subLargeWord cfg b w) (val cfg.W b.words - w) := by
  have hge := h.ge_base
  unfold UBig.subLargeWord
  refine Yields.of_bind (Ibig.subWord_spec h.words (ne_nil_of_two h.two) hw) ?_
  rintro ⟨ws, o⟩ hs
  simp only at hs ⊢
  have h0 := hs.carry_zero (by omega) (by
    have := h.lt
    have : (val cfg.W b.words : Int) < (base cfg.W : Int) ^ b.words.length := by exact_mod_cast this
    omega)
  have ho : o = false := by cases o <;> simp_all
  refine Yields.of_bind (returns_assertR ho) ?_
  rintro _ -
  refine yields_ofBuffer hv (h.ok.setWords hs.words hs.len.le) ?_
  have := hs.eq_of_carry_zero h0
  simp only
  omega

theorem UBig.subLarge_spec {cfg : Cfg} (hv : cfg.Valid) {b r : Buffer} (h : b.WF cfg) (hr : r.WF cfg) :
    SubSpec cfg (UBig.subLarge cfg b r.words) (val cfg.W b.words) (val cfg.W r.words) := by
  unfold UBig.subLarge Buffer.len
  by_cases hl : b.words.length < r.words.length
  · rw [if_pos hl]
    have : val cfg.W b.words < val cfg.W r.words :=
      lt_of_lt_of_le h.lt (le_trans (Nat.pow_le_pow_right (base_pos _) (by omega)) hr.ge)
    exact ⟨fun h => by omega, fun _ => rfl⟩
  · rw [if_neg hl]
    obtain ⟨⟨ws, o⟩, h1, hs⟩ := subInPlace_spec h.words hr.words (by omega)
    rw [h1]
    simp only at hs
    have hn := hs.nat_sub
    have hlt := val_lt hs.words
    rw [hs.len] at hlt
    have hb := h.lt
    simp only [bind, Except.bind]
    cases o with
    | false =>
      rw [if_neg (by simp)]
      simp only [Bool.toNat_false, Nat.zero_mul, Nat.add_zero] at hn
      exact ⟨fun _ => yields_ofBuffer hv (h.ok.setWords hs.words hs.len.le) (by simp only; omega),
        fun _ => by omega⟩
    | true =>
      rw [if_pos rfl]
      simp only [Bool.toNat_true, Nat.one_mul] at hn
      exact ⟨fun _ => by omega, fun _ => rfl⟩

theorem UBig.subLargeRefVal_spec {cfg : Cfg} (hv : cfg.Valid) {b r : Buffer} (h : b.WF cfg)
    (hr : r.WF cfg) :
    SubSpec cfg (UBig.subLargeRefVal cfg b.words r) (val cfg.W b.words) (val cfg.W r.words) := by
  have hbl := h.len
  unfold UBig.subLargeRefVal Buffer.len
  simp only
  by_cases hl : b.words.length < r.words.length
  · rw [if_pos hl]
    have : val cfg.W b.words < val cfg.W r.words :=
      lt_of_lt_of_le h.lt (le_trans (Nat.pow_le_pow_right (base_pos _) (by omega)) hr.ge)
    exact ⟨fun h => by omega, fun _ => rfl⟩
  · rw [if_neg hl]
    obtain ⟨x1, x2, hx, hx1⟩ := exists_split (l := b.words) (n := r.words.length) (by omega)
    have hbw := h.words
    rw [hx] at hbw hbl ⊢
    rw [isWords_append] at hbw
    have e1 : ((x1 ++ x2).take r.words.length).drop 0 = x1 := by rw [← hx1]; simp
    have e2 : ((x1 ++ x2).take (x1 ++ x2).length).drop r.words.length = x2 := by
      rw [← hx1, List.take_length, List.drop_left]
    rw [sliceR_ok (Nat.zero_le _) (by simp; omega), e1]
    obtain ⟨⟨ws, o⟩, h1, hs⟩ := subSameLenSwap_spec hbw.1 hr.words hx1
    simp only at hs
    have hws : ws.length = r.words.length := hs.len
    obtain ⟨c, h2, hc, hcw, hcc⟩ := Buffer.ensureCapacity_spec (n := (x1 ++ x2).length)
      (hr.ok.setWords hs.words hs.len.le) (by simp [hws, hx1]) (by omega)
    obtain ⟨d, h3, hd, hdw, -⟩ := Buffer.extend_spec hc hbw.2 (by
      rw [hcw]; simp only [hws]; simpa [hx1] using hcc)
    simp only [bind, Except.bind, h1, h2]
    rw [sliceR_ok (by simp; omega) le_rfl, e2]
    simp only [h3]
    simp only at hcw
    rw [hcw] at hdw
    have eqn : (val cfg.W ws : Int) + (val cfg.W r.words : Int)
        = val cfg.W x1 + o.toNat * (base cfg.W : Int) ^ r.words.length := by
      have := hs.eq; linarith
    have eqn' : val cfg.W ws + val cfg.W r.words
        = val cfg.W x1 + o.toNat * base cfg.W ^ r.words.length := by exact_mod_cast eqn
    have vx := val_append cfg.W x1 x2
    rw [hx1] at vx
    have vd : val cfg.W d.words = val cfg.W ws + base cfg.W ^ r.words.length * val cfg.W x2 := by
      rw [hdw, val_append, hws]
    have rlt := hr.lt
    cases o with
    | false =>
      rw [if_neg (by simp)]
      simp only [Bool.toNat_false, Nat.zero_mul, Nat.add_zero] at eqn'
      exact ⟨fun _ => yields_ofBuffer hv hd (by omega), fun _ => by omega⟩
    | true =>
      rw [if_pos rfl]
      simp only [Bool.toNat_true, Nat.one_mul] at eqn'
      have hform : d.words = ws ++ x2 ++ [] := by simp [hdw]
      have key := onSlice_append (f := fun s => .ok (subOne cfg.W s)) (a := ws) (s := x2)
        (b := []) (i := r.words.length) (j := d.words.length)
        (P := fun p => AddSpec cfg.W x2 p.1 (-(p.2.toNat : Int)) (-((1 : Nat) : Int))) hws
        (by rw [hdw]; simp [hws])
        (returns_ok.mpr (subOne_spec hbw.2))
      rw [← hform] at key
      obtain ⟨⟨ws2, o2⟩, k1, t', k2, ht⟩ := key
      simp only [k1]
      simp only [List.append_nil] at k2 ht
      subst k2
      have htn := ht.nat_sub
      have htl := val_lt ht.words
      rw [ht.len] at htl
      cases o2 with
      | false =>
        rw [if_neg (by simp)]
        simp only [Bool.toNat_false, Nat.zero_mul, Nat.add_zero] at htn
        have vt : val cfg.W (ws ++ t') = val cfg.W ws + base cfg.W ^ r.words.length * val cfg.W t' := by
          rw [val_append, hws]
        have : base cfg.W ^ r.words.length * val cfg.W x2
          = base cfg.W ^ r.words.length * val cfg.W t' + base cfg.W ^ r.words.length := by
          rw [← htn]; ring
        exact ⟨fun _ => yields_ofBuffer hv (hd.setWords (isWords_append.mpr ⟨hs.words, ht.words⟩)
          (by rw [hdw]; simp [ht.len])) (by simp only; omega), fun _ => by omega⟩
      | true =>
        rw [if_pos rfl]
        simp only [Bool.toNat_true, Nat.one_mul] at htn
        have : val cfg.W x2 = 0 := by omega
        rw [this] at vx vd
        have := val_lt hs.words
        rw [hws] at this
        exact ⟨fun _ => by omega, fun _ => rfl⟩

theorem SubSpec.of_bind {α : Type} {cfg : Cfg} {x : R α} {f : α → R UBig} {a b : Nat}
    {P : α → Prop} (hx : Returns x P) (hf : ∀ v, P v → SubSpec cfg (f v) a b) :
    SubSpec cfg (x >>= f) a b := by
  obtain ⟨v, rfl, hv⟩ := hx
  exact hf v hv

theorem SubSpec.of_yields {cfg : Cfg} {x : R UBig} {a b : Nat} (h : b ≤ a)
    (hx : Yields cfg x (a - b)) : SubSpec cfg x a b := ⟨fun _ => hx, fun _ => by omega⟩

theorem UBig.sub_spec {cfg : Cfg} (hv : cfg.Valid) (o1 o2 : Own) {a b : UBig} (ha : a.WF cfg)
    (hb : b.WF cfg) : SubSpec cfg (UBig.sub cfg o1 o2 a b) (a.value cfg) (b.value cfg) := by
  have e : UBig.sub cfg o1 o2 a b = match o1, o2 with
    | .val, _ => UBig.subV cfg a b
    | .ref, .val => UBig.subRV cfg a b
    | .ref, .ref => UBig.subRR cfg a b := by cases o1 <;> cases o2 <;> rfl
  rw [e]
  cases a with
  | small v => cases b with
    | small w =>
      have : SubSpec cfg (UBig.subWord v w) v w := UBig.subWord_spec hv ha
      cases o1 <;> cases o2 <;> exact this
    | large b =>
      have h1 := Buffer.WF.ge_base hb
      have h2 : v < base cfg.W := ha
      have h3 : SubSpec cfg (.error .negativeUBig) v (val cfg.W b.words) :=
        ⟨fun h => by omega, fun _ => rfl⟩
      cases o1 <;> cases o2 <;> exact h3
  | large a => cases b with
    | small w =>
      have h1 := Buffer.WF.ge_base ha
      have h2 : w < base cfg.W := hb
      have hle : w ≤ val cfg.W a.words := by omega
      have h3 : SubSpec cfg (UBig.subLargeWord cfg a w) (val cfg.W a.words) w :=
        SubSpec.of_yields hle (UBig.subLargeWord_spec hv ha hb)
      have h4 : SubSpec cfg (do let a ← a.clone cfg; UBig.subLargeWord cfg a w)
          (val cfg.W a.words) w := by
        refine SubSpec.of_bind (Buffer.clone_spec ha) ?_
        rintro c ⟨g1, g2⟩
        refine SubSpec.of_yields hle ?_
        rw [← g2]
        exact UBig.subLargeWord_spec hv g1 hb
      cases o1 <;> cases o2 <;> first | exact h3 | exact h4
    | large b =>
      cases o1 <;> cases o2
      · exact UBig.subLarge_spec hv ha hb
      · exact UBig.subLarge_spec hv ha hb
      · exact UBig.subLargeRefVal_spec hv ha hb
      · refine SubSpec.of_bind (Buffer.clone_spec ha) ?_
        rintro c ⟨g1, g2⟩
        simp only [UBig.value]
        rw [← g2]
        exact UBig.subLarge_spec hv g1 hb

/-! ### Signed addition and subtraction -/

theorem iyields_of_ok {cfg : Cfg} {x : R IBig} {z : Int} (h : Fits cfg z.natAbs)
    (hx : Returns x fun c => c.WF cfg ∧ c.value cfg = z) : IYields cfg x z :=
  ⟨fun _ => hx, fun h' => absurd h h'⟩

theorem negR_spec {cfg : Cfg} (hv : cfg.Valid) {x : R IBig} {z w : Int} (h : IYields cfg x z)
    (hw : w = -z) : IYields cfg (negR x) w := hw ▸ h.neg hv

theorem ofUBigR_spec {cfg : Cfg} (hv : cfg.Valid) {x : R UBig} {n : Nat} (h : Yields cfg x n)
    {w : Int} (hw : w = n) : IYields cfg (ofUBigR x) w := hw ▸ h.ofUBig hv

theorem IBig.subWordWord_spec {cfg : Cfg} (hv : cfg.Valid) {a b : Nat} (ha : a < base cfg.W)
    (hb : b < base cfg.W) : IYields cfg (.ok (IBig.subWordWord cfg.W a b)) ((a : Int) - b) := by
  obtain ⟨h1, h2⟩ := overflowingSub_spec ha hb.le
  unfold IBig.subWordWord
  rcases hh : overflowingSub cfg.W a b with ⟨v, o⟩
  rw [hh] at h1 h2
  simp only at h1 h2 ⊢
  have hf : Fits cfg ((a : Int) - b).natAbs := fits_word hv (by omega)
  refine iyields_of_ok hf (returns_ok.mpr ?_)
  cases o with
  | false =>
    rw [if_pos rfl]
    have := IBig.ofUBig_spec hv (wf_small h1)
    refine ⟨this.1, ?_⟩
    rw [this.2]
    simp only [UBig.value, Bool.toNat_false] at *
    omega
  | true =>
    rw [if_neg (by simp)]
    simp only [Bool.toNat_true] at h2
    have e : (base cfg.W - v) % base cfg.W = b - a := by
      have : base cfg.W - v = b - a := by omega
      rw [this, Nat.mod_eq_of_lt (by omega)]
    rw [e]
    have g := IBig.ofUBig_spec hv (wf_small (show b - a < base cfg.W by omega))
    have := IBig.neg_spec hv g.1
    refine ⟨this.1, ?_⟩
    rw [this.2, g.2]
    simp only [UBig.value]
    omega

theorem IBig.subLargeWord_spec {cfg : Cfg} (hv : cfg.Valid) {b : Buffer} (h : b.WF cfg) {w : Nat}
    (hw : w < base cfg.W) :
    IYields cfg (IBig.subLargeWord cfg b w) ((val cfg.W b.words : Int) - w) := by
  have := h.ge_base
  exact ofUBigR_spec hv (UBig.subLargeWord_spec hv h hw) (by omega)

theorem IBig.subLarge_spec {cfg : Cfg} (hv : cfg.Valid) {b r : Buffer} (h : b.WF cfg) (hr : r.WF cfg) :
    IYields cfg (IBig.subLarge cfg b r.words) ((val cfg.W b.words : Int) - val cfg.W r.words) := by
  unfold IBig.subLarge Buffer.len
  split
  · rename_i hl
    refine IYields.of_bind (subInPlaceWithSign_spec h.words hr.words hl) ?_
    rintro ⟨ws, s⟩ ⟨h1, h2, h3⟩
    simp only at h1 h2 h3 ⊢
    rw [← h3]
    exact (yields_ofBuffer hv (h.ok.setWords h2 h1.le) rfl).withSign hv s
  · rename_i hl
    have : val cfg.W b.words < val cfg.W r.words :=
      lt_of_lt_of_le h.lt (le_trans (Nat.pow_le_pow_right (base_pos _) (by omega)) hr.ge)
    have e : (val cfg.W b.words : Int) - val cfg.W r.words
        = Sign.neg.toInt * ((val cfg.W r.words - val cfg.W b.words : Nat) : Int) := by
      simp only [Sign.toInt]; omega
    rw [e]
    exact ((UBig.subLargeRefVal_spec hv hr h).1 this.le).withSign hv .neg

theorem IBig.subUBigVV_spec {cfg : Cfg} (hv : cfg.Valid) {a b : UBig} (ha : a.WF cfg) (hb : b.WF cfg) :
    IYields cfg (IBig.subUBigVV cfg a b) ((a.value cfg : Int) - b.value cfg) := by
  cases a with
  | small v => cases b with
    | small w => exact IBig.subWordWord_spec hv ha hb
    | large b => exact negR_spec hv (IBig.subLargeWord_spec hv hb ha) (by simp only [UBig.value]; ring)
  | large a => cases b with
    | small w => exact IBig.subLargeWord_spec hv ha hb
    | large b =>
      simp only [IBig.subUBigVV]
      split
      · exact IBig.subLarge_spec hv ha hb
      · exact negR_spec hv (IBig.subLarge_spec hv hb ha) (by simp only [UBig.value]; ring)

theorem IBig.subUBigVR_spec {cfg : Cfg} (hv : cfg.Valid) {a b : UBig} (ha : a.WF cfg) (hb : b.WF cfg) :
    IYields cfg (IBig.subUBigVR cfg a b) ((a.value cfg : Int) - b.value cfg) := by
  cases a with
  | small v => cases b with
    | small w => exact IBig.subWordWord_spec hv ha hb
    | large b =>
      refine IYields.of_bind (Buffer.clone_spec hb) ?_
      rintro c ⟨h1, h2⟩
      refine negR_spec hv (IBig.subLargeWord_spec hv h1 ha) ?_
      simp only [UBig.value, h2]; ring
  | large a => cases b with
    | small w => exact IBig.subLargeWord_spec hv ha hb
    | large b => exact IBig.subLarge_spec hv ha hb

theorem IBig.subUBigRR_spec {cfg : Cfg} (hv : cfg.Valid) {a b : UBig} (ha : a.WF cfg) (hb : b.WF cfg) :
    IYields cfg (IBig.subUBigRR cfg a b) ((a.value cfg : Int) - b.value cfg) := by
  cases a with
  | small v => cases b with
    | small w => exact IBig.subWordWord_spec hv ha hb
    | large b =>
      refine IYields.of_bind (Buffer.clone_spec hb) ?_
      rintro c ⟨h1, h2⟩
      refine negR_spec hv (IBig.subLargeWord_spec hv h1 ha) ?_
      simp only [UBig.value, h2]; ring
  | large a => cases b with
    | small w =>
      refine IYields.of_bind (Buffer.clone_spec ha) ?_
      rintro c ⟨h1, h2⟩
      simp only [UBig.value, ← h2]
      exact IBig.subLargeWord_spec hv h1 hb
    | large b =>
      simp only [IBig.subUBigRR]
      split
      · refine IYields.of_bind (Buffer.clone_spec ha) ?_
        rintro c ⟨h1, h2⟩
        simp only [UBig.value, ← h2]
        exact IBig.subLarge_spec hv h1 hb
      · refine IYields.of_bind (Buffer.clone_spec hb) ?_
        rintro c ⟨h1, h2⟩
        refine negR_spec hv (IBig.subLarge_spec hv h1 ha) ?_
        simp only [UBig.value, h2]; ring

theorem IBig.value_def (cfg : Cfg) (x : IBig) : x.value cfg = x.sign.toInt * x.mag.value cfg := rfl

theorem IBig.addVV_spec {cfg : Cfg} (hv : cfg.Valid) {x y : IBig} (hx : x.WF cfg) (hy : y.WF cfg) :
    IYields cfg (IBig.addVV cfg x y) (x.value cfg + y.value cfg) := by
  unfold IBig.addVV
  simp only [IBig.value_def]
  have hA := UBig.add_spec hv .val .val hx.mag hy.mag
  cases x.sign <;> cases y.sign <;> simp only [Sign.toInt]
  · exact ofUBigR_spec hv hA (by push_cast; ring)
  · have := IBig.subUBigVV_spec hv hx.mag hy.mag
    convert this using 1; ring
  · have := IBig.subUBigVV_spec hv hy.mag hx.mag
    convert this using 1; ring
  · exact negR_spec hv (ofUBigR_spec hv hA rfl) (by push_cast; ring)

theorem IBig.addVR_spec {cfg : Cfg} (hv : cfg.Valid) {x y : IBig} (hx : x.WF cfg) (hy : y.WF cfg) :
    IYields cfg (IBig.addVR cfg x y) (x.value cfg + y.value cfg) := by
  unfold IBig.addVR
  simp only [IBig.value_def]
  have hA := UBig.add_spec hv .val .ref hx.mag hy.mag
  have hS := IBig.subUBigVR_spec hv hx.mag hy.mag
  cases x.sign <;> cases y.sign <;> simp only [Sign.toInt]
  · exact ofUBigR_spec hv hA (by push_cast; ring)
  · convert hS using 1; ring
  · exact negR_spec hv hS (by ring)
  · exact negR_spec hv (ofUBigR_spec hv hA rfl) (by push_cast; ring)

theorem IBig.addRR_spec {cfg : Cfg} (hv : cfg.Valid) {x y : IBig} (hx : x.WF cfg) (hy : y.WF cfg) :
    IYields cfg (IBig.addRR cfg x y) (x.value cfg + y.value cfg) := by
  unfold IBig.addRR
  simp only [IBig.value_def]
  have hA := UBig.add_spec hv .ref .ref hx.mag hy.mag
  cases x.sign <;> cases y.sign <;> simp only [Sign.toInt]
  · exact ofUBigR_spec hv hA (by push_cast; ring)
  · have := IBig.subUBigRR_spec hv hx.mag hy.mag
    convert this using 1; ring
  · have := IBig.subUBigRR_spec hv hy.mag hx.mag
    convert this using 1; ring
  · exact negR_spec hv (ofUBigR_spec hv hA rfl) (by push_cast; ring)

theorem IBig.add_spec {cfg : Cfg} (hv : cfg.Valid) (o1 o2 : Own) {x y : IBig} (hx : x.WF cfg)
    (hy : y.WF cfg) : IYields cfg (IBig.add cfg o1 o2 x y) (x.value cfg + y.value cfg) := by
  cases o1 <;> cases o2
  · exact IBig.addVV_spec hv hx hy
  · exact IBig.addVR_spec hv hx hy
  · rw [Int.add_comm]; exact IBig.addVR_spec hv hy hx
  · exact IBig.addRR_spec hv hx hy

theorem IBig.subRR_spec {cfg : Cfg} (hv : cfg.Valid) {x y : IBig} (hx : x.WF cfg) (hy : y.WF cfg) :
    IYields cfg (IBig.subRR cfg x y) (x.value cfg - y.value cfg) := by
  unfold IBig.subRR
  simp only [IBig.value_def]
  have hA := UBig.add_spec hv .ref .ref hx.mag hy.mag
  cases x.sign <;> cases y.sign <;> simp only [Sign.toInt]
  · have := IBig.subUBigRR_spec hv hx.mag hy.mag
    convert this using 1; ring
  · exact ofUBigR_spec hv hA (by push_cast; ring)
  · exact negR_spec hv (ofUBigR_spec hv hA rfl) (by push_cast; ring)
  · have := IBig.subUBigRR_spec hv hy.mag hx.mag
    convert this using 1; ring

theorem IBig.sub_spec {cfg : Cfg} (hv : cfg.Valid) (o1 o2 : Own) {x y : IBig} (hx : x.WF cfg)
    (hy : y.WF cfg) : IYields cfg (IBig.sub cfg o1 o2 x y) (x.value cfg - y.value cfg) := by
  obtain ⟨nx, ex⟩ := IBig.neg_spec hv hx
  obtain ⟨ny, ey⟩ := IBig.neg_spec hv hy
  cases o1 <;> cases o2
  · have := IBig.add_spec hv .val .val hx ny
    rw [ey, ← sub_eq_add_neg] at this; exact this
  · have := IBig.add_spec hv .val .ref nx hy
    exact negR_spec hv this (by rw [ex]; ring)
  · have := IBig.add_spec hv .ref .val hx ny
    rw [ey, ← sub_eq_add_neg] at this; exact this
  · exact IBig.subRR_spec hv hx hy

end Ibig
