import Verif.Proofs.Modular
import Verif.Proofs.Convert
import Verif.Proofs.ExtGcd
/-! Modular rings: conversion into a ring, negation, addition, subtraction, comparison. -/
namespace Ibig

/-! ### Conversion -/

theorem RingSmall.OK.pow_lt {W : Nat} {r : RingSmall} {n : Nat} (h : r.OK W n) : 2 ^ r.shift < base W := by
  rw [base_eq]; exact Nat.pow_lt_pow_right (by norm_num) h.shift

theorem RingSmall.OK.pow_le {W : Nat} {r : RingSmall} {n : Nat} (h : r.OK W n) :
    2 ^ r.shift ≤ r.modulus := by
  rw [h.eq]; exact Nat.le_mul_of_pos_left _ h.pos

/-- A double word below `2^shift * base` or `modulus * 2^shift` reduced modulo the normalised modulus. -/
theorem RingSmall.divRem_shift {W : Nat} {r : RingSmall} {n a : Nat} (h : r.OK W n)
    (ha : a * 2 ^ r.shift < r.modulus * base W) :
    ∃ q, r.fd.divRem W (a * 2 ^ r.shift) = .ok (q, a % n * 2 ^ r.shift) := by
  refine ⟨a * 2 ^ r.shift / r.modulus, ?_⟩
  rw [FastDivideNormalized.divRem_spec h.valid ha]
  congr 2
  rw [h.eq, Nat.mul_mod_mul_right]

theorem RingSmall.fromWord_spec {W : Nat} {r : RingSmall} {n w : Nat} (h : r.OK W n) (hw : w < base W) :
    r.fromWord W w = .ok (w % n * 2 ^ r.shift) := by
  unfold RingSmall.fromWord
  split
  · rename_i h0
    have hm : r.modulus = n := by rw [h.eq, h0]; simp
    rw [FastDivideNormalized.divRemWord_spec h.valid hw, h0, hm]
    simp
  · have : w * 2 ^ r.shift < r.modulus * base W := by
      rw [Nat.mul_comm]
      exact Nat.mul_lt_mul_of_le_of_lt h.pow_le hw (lt_of_lt_of_le (Nat.two_pow_pos _) h.pow_le)
    obtain ⟨q, e⟩ := RingSmall.divRem_shift h this
    rw [e]
    rfl

theorem RingSmall.fromLarge_spec {W : Nat} {r : RingSmall} {n : Nat} (h : r.OK W n) {l : List Nat}
    (hl : IsWords W l) : r.fromLarge W l = .ok (val W l % n * 2 ^ r.shift) := by
  have hpos : 0 < r.modulus := lt_of_lt_of_le (Nat.two_pow_pos _) h.pow_le
  unfold RingSmall.fromLarge
  obtain ⟨p, e, rfl⟩ := fastRemByNormalizedWord_spec h.valid hl
  rw [e]
  simp only [bind, Except.bind]
  split
  · have hlt := Nat.mod_lt (val W l) hpos
    obtain ⟨q, e⟩ := RingSmall.divRem_shift h
      (Nat.mul_lt_mul_of_lt_of_le hlt h.pow_lt.le (Nat.two_pow_pos _) |>.trans_le le_rfl)
    rw [e]
    simp only
    rw [h.eq, Nat.mod_mul_right_mod]
  · rename_i h0
    have h0 : r.shift = 0 := by omega
    have hm : r.modulus = n := by rw [h.eq, h0]; simp
    rw [hm, h0]; simp

theorem ModSmall.fromUBig_spec {cfg : Cfg} {addr : Nat} {r : RingSmall} {n : Nat} (h : r.OK cfg.W n)
    {x : UBig} (hx : x.WF cfg) : ModSmall.fromUBig cfg addr r x =
      .ok ⟨addr, r, x.value cfg % n * 2 ^ r.shift⟩ := by
  have hlt := Nat.mod_lt (x.value cfg) h.pos
  have e : r.fromUBigRaw cfg x = .ok (x.value cfg % n * 2 ^ r.shift) := by
    cases x with
    | small w => exact RingSmall.fromWord_spec h hx
    | large b => exact RingSmall.fromLarge_spec h (Buffer.WF.words hx)
  unfold ModSmall.fromUBig
  rw [e]
  exact ModSmall.new_ok h hlt

theorem val_append_zeros (W : Nat) (l : List Nat) (k : Nat) :
    val W (l ++ List.replicate k 0) = val W l := by
  rw [val_append, val_replicate_zero]; simp

theorem RingLarge.reduce_spec {cfg : Cfg} (hv : cfg.Valid) {r : RingLarge} {n : Nat} (h : r.OK cfg n)
    {x : UBig} (hx : x.WF cfg) {a : Nat} (ha : x.value cfg = a * 2 ^ r.shift) :
    Returns (r.reduce cfg x) fun v => IsWords cfg.W v ∧ v.length ≤ r.modulus.length ∧
      val cfg.W v = a % n * 2 ^ r.shift := by
  have h2 := h.two
  obtain ⟨rl, v1, v0, hN⟩ := h.norm
  have key : ∀ {ws : List Nat}, IsWords cfg.W ws → val cfg.W ws = a * 2 ^ r.shift →
      ws.length < r.modulus.length → val cfg.W ws = a % n * 2 ^ r.shift := by
    intro ws h3 h4 h5
    have h6 : a * 2 ^ r.shift < n * 2 ^ r.shift := by
      rw [← h4, ← h.eq]
      have h7 := val_lt h3
      have h8 := hN.val_ge
      have h9 : base cfg.W ^ ws.length * base cfg.W ≤ base cfg.W ^ r.modulus.length := by
        rw [← pow_succ]; exact Nat.pow_le_pow_right (base_pos _) h5
      have h10 : 2 ≤ base cfg.W := by
        have := Nat.pow_le_pow_right (n := 2) (by norm_num) hv.W1
        rw [base_eq]; omega
      nlinarith
    rw [Nat.mod_eq_of_lt (Nat.lt_of_mul_lt_mul_right h6), h4]
  cases x with
  | small w =>
    have hw : IsWords cfg.W [w] := by intro y hy; simp only [List.mem_singleton] at hy; subst hy; exact hx
    have hval : val cfg.W [w] = a * 2 ^ r.shift := by
      rw [val_cons, val_nil]; simp only [mul_zero, add_zero]; exact ha
    exact returns_ok.mpr ⟨hw, by simp; omega, key hw hval (by simp; omega)⟩
  | large b =>
    have hb : b.WF cfg := hx
    have hval : val cfg.W b.words = a * 2 ^ r.shift := ha
    unfold RingLarge.reduce Buffer.len
    simp only
    split
    · rename_i hlt
      exact returns_ok.mpr ⟨hb.words, hlt.le, key hb.words hval hlt⟩
    · rename_i hge
      obtain ⟨k, e1, e2⟩ := divMem_spec hv (n := b.words.length) (m := r.modulus.length) (by omega) h2 h.len
      rw [e1]
      simp only [bind, Except.bind]
      rw [e2]
      simp only
      obtain ⟨⟨ws, o⟩, e3, rem, q, g1, g2, g3, g4, g5, g6, g7⟩ :=
        divRemInPlace_spec (mem := k) hv.W4 hb.words hN (by omega) (by
          intro k' hk'; rw [e1] at hk'; cases hk'; exact le_rfl)
      rw [e3]
      simp only at g1 g2 g3 g7 ⊢
      have hlen : ws.length = rem.length + q.length := by rw [g1]; simp
      rw [sliceR_ok (by omega) (by omega)]
      have hslice : (ws.take r.modulus.length).drop 0 = rem := by
        rw [List.drop_zero, g1, ← g2, List.take_left]
      refine returns_ok.mpr ?_
      rw [hslice]
      refine ⟨g4, by omega, ?_⟩
      rw [h.eq, hval] at g7
      exact (quotient_unique (Nat.two_pow_pos _) h.pos g7 (by rw [← h.eq]; exact g6)).2

theorem ModLarge.finish {cfg : Cfg} {addr : Nat} {r : RingLarge} {n k : Nat}
    (h : r.OK cfg n) (hk : k < n) {v : List Nat} (h1 : IsWords cfg.W v) (h2 : v.length ≤ r.modulus.length)
    (h3 : val cfg.W v = k * 2 ^ r.shift) :
    Returns (do let j ← ckSub r.modulus.length v.length
                ModLarge.new cfg.W addr r (v ++ List.replicate j 0)) fun x =>
      x.addr = addr ∧ x.ring = r ∧ r.Has cfg x.words k := by
  rw [ckSub_ok h2]
  simp only [bind, Except.bind]
  have h4 : IsWords cfg.W (v ++ List.replicate (r.modulus.length - v.length) 0) :=
    isWords_append.mpr ⟨h1, isWords_replicate_zero _ _⟩
  have h5 : (v ++ List.replicate (r.modulus.length - v.length) 0).length = r.modulus.length := by
    simp; omega
  rw [ModLarge.new_ok h h4 h5 (by rw [val_append_zeros]; exact h3) hk]
  exact returns_ok.mpr ⟨rfl, rfl, h4, h5, by simp only; rw [val_append_zeros]; exact h3⟩

theorem RingLarge.OK.shift_lt {cfg : Cfg} (hv : cfg.Valid) {r : RingLarge} {n : Nat} (h : r.OK cfg n) :
    r.shift < 2 ^ cfg.U := by
  have := h.shift
  have := hv.W64
  have := hv.two_pow_U
  omega

theorem ModLarge.fromUBig_spec {cfg : Cfg} (hv : cfg.Valid) {addr : Nat} {r : RingLarge} {n : Nat}
    (h : r.OK cfg n) {x : UBig} (hx : x.WF cfg) :
    RT (¬ Fits cfg (x.value cfg * 2 ^ r.shift)) (ModLarge.fromUBig cfg addr r x) fun m =>
      m.addr = addr ∧ m.ring = r ∧ r.Has cfg m.words (x.value cfg % n) := by
  unfold ModLarge.fromUBig
  refine RT.bind ((UBig.shl_spec hv .val hx (h.shift_lt hv)).rt le_rfl) ?_
  rintro y ⟨h1, h2⟩
  refine Returns.rt ?_
  refine Returns.bind (RingLarge.reduce_spec hv h h1 h2) ?_
  rintro v ⟨h3, h4, h5⟩
  exact ModLarge.finish h (Nat.mod_lt _ h.pos) h3 h4 h5

theorem ModLarge.fromUBig_lt {cfg : Cfg} (hv : cfg.Valid) {addr : Nat} {r : RingLarge} {n : Nat}
    (h : r.OK cfg n) {x : UBig} (hx : x.WF cfg) (hlt : x.value cfg < n) :
    Returns (ModLarge.fromUBig cfg addr r x) fun m =>
      m.addr = addr ∧ m.ring = r ∧ r.Has cfg m.words (x.value cfg) := by
  have hf : Fits cfg (x.value cfg * 2 ^ r.shift) := by
    rw [fits_iff]
    have h1 := val_lt h.words
    rw [h.eq] at h1
    have h2 : x.value cfg * 2 ^ r.shift < n * 2 ^ r.shift :=
      Nat.mul_lt_mul_of_pos_right hlt (Nat.two_pow_pos _)
    exact lt_of_lt_of_le (h2.trans h1) (Nat.pow_le_pow_right (base_pos _) h.len)
  rcases ModLarge.fromUBig_spec hv (addr := addr) h hx with h1 | ⟨-, h2⟩
  · rwa [Nat.mod_eq_of_lt hlt] at h1
  · exact absurd hf h2

theorem UBig.own_spec {cfg : Cfg} (o : Own) {x : UBig} (hx : x.WF cfg) :
    Returns (x.own cfg o) fun c => c.WF cfg ∧ c.value cfg = x.value cfg := by
  cases o
  · exact returns_ok.mpr ⟨hx, rfl⟩
  · exact UBig.clone_spec hx

theorem Ring.fromUBig_spec {cfg : Cfg} (hv : cfg.Valid) {r : Ring} {n : Nat} (hr : r.OK cfg n) (o : Own)
    {x : UBig} (hx : x.WF cfg) :
    RT (¬ Fits cfg (x.value cfg * base cfg.W)) (r.fromUBig cfg o x) fun m =>
      Elem cfg r m (x.value cfg % n) := by
  unfold Ring.OK at hr
  unfold Ring.fromUBig
  rcases hrr : r.repr with s | l
  · rw [hrr] at hr
    simp only at hr ⊢
    rw [ModSmall.fromUBig_spec hr hx]
    exact Returns.rt (returns_ok.mpr (elem_small hrr hr (Nat.mod_lt _ hr.pos)))
  · rw [hrr] at hr
    simp only at hr ⊢
    refine RT.bind (UBig.own_spec o hx).rt ?_
    rintro c ⟨h1, h2⟩
    refine RT.bind ((ModLarge.fromUBig_spec hv (addr := r.addr) hr h1).weaken ?_) ?_
    · intro hf hf'
      refine hf (hf'.mono ?_)
      rw [h2, base_eq]
      exact Nat.mul_le_mul_left _ (Nat.pow_le_pow_right (by norm_num) hr.shift.le)
    · rintro ⟨a, l', ws⟩ ⟨h3, h4, h5⟩
      simp only at h3 h4 h5
      subst h3 h4
      rw [h2] at h5
      exact Returns.rt (returns_ok.mpr (elem_large hrr hr h5 (Nat.mod_lt _ hr.pos)))

theorem RingLarge.OK.shift_eq {cfg : Cfg} {r : RingLarge} {n : Nat} (h : r.OK cfg n) :
    r.shift = spareBits cfg.W n := by
  obtain ⟨rl, v1, v0, hN⟩ := h.norm
  have h1 := hN.val_ge
  have h2 := val_lt h.words
  have hs := h.shift
  have h3 := h.two
  rw [h.eq, base_eq, ← pow_mul] at h1 h2
  have hpos := h.pos
  obtain ⟨k, hk⟩ : ∃ k, cfg.W * r.modulus.length = k + 1 + r.shift := by
    have : cfg.W * 2 ≤ cfg.W * r.modulus.length := Nat.mul_le_mul_left _ h3
    exact ⟨cfg.W * r.modulus.length - 1 - r.shift, by omega⟩
  rw [hk, pow_add] at h1 h2
  have h4 : n < 2 ^ (k + 1) := Nat.lt_of_mul_lt_mul_right h2
  have h5 : 2 ^ k ≤ n := by
    have : 2 ^ (k + 1) * 2 ^ r.shift ≤ (2 * n) * 2 ^ r.shift := by rw [Nat.mul_assoc]; exact h1
    have := Nat.le_of_mul_le_mul_right this (Nat.two_pow_pos _)
    rw [pow_succ] at this
    omega
  have h6 : n.size = k + 1 := le_antisymm (Nat.size_le.mpr h4) (Nat.lt_size.mpr h5)
  unfold spareBits
  rw [h6]
  have h7 : k + 1 = cfg.W * r.modulus.length - r.shift := by omega
  by_cases h0 : r.shift = 0
  · rw [h7, h0, Nat.sub_zero, Nat.mul_mod_right, Nat.sub_zero, Nat.mod_self]
  · obtain ⟨l, hl⟩ : ∃ l, r.modulus.length = l + 1 := ⟨r.modulus.length - 1, by omega⟩
    have h8 : k + 1 = cfg.W - r.shift + cfg.W * l := by rw [h7, hl, Nat.mul_add, Nat.mul_one]; omega
    rw [h8, Nat.add_mul_mod_self_left, Nat.mod_eq_of_lt (show cfg.W - r.shift < cfg.W by omega),
      Nat.mod_eq_of_lt (by omega)]
    omega

theorem Ring.fromUBig_exact {cfg : Cfg} (hv : cfg.Valid) {r : Ring} {n : Nat} (hr : r.OK cfg n) (o : Own)
    {x : UBig} (hx : x.WF cfg) :
    (Accepts cfg n (x.value cfg) →
      Returns (r.fromUBig cfg o x) fun m => Elem cfg r m (x.value cfg % n)) ∧
    (¬Accepts cfg n (x.value cfg) →
      r.fromUBig cfg o x = .error .tooLarge) := by
  unfold Ring.OK at hr
  unfold Ring.fromUBig Accepts
  rw [← base_eq]
  rcases hrr : r.repr with s | l
  · rw [hrr] at hr
    simp only at hr ⊢
    rw [ModSmall.fromUBig_spec hr hx]
    refine ⟨fun _ => returns_ok.mpr (elem_small hrr hr (Nat.mod_lt _ hr.pos)), fun h => absurd (Or.inl ?_) h⟩
    have h1 := hr.lt
    rw [hr.eq] at h1
    exact lt_of_le_of_lt (Nat.le_mul_of_pos_right _ (Nat.two_pow_pos _)) h1
  · rw [hrr] at hr
    simp only at hr ⊢
    have hbig : ¬n < base cfg.W := by
      have h1 := hr.ge
      have h2 : base cfg.W ^ 1 ≤ base cfg.W ^ (l.modulus.length - 1) :=
        Nat.pow_le_pow_right (base_pos _) (by have := hr.two; omega)
      rw [pow_one] at h2
      omega
    obtain ⟨c, e, h1, h2⟩ := UBig.own_spec o hx
    rw [e, ← hr.shift_eq]
    simp only [hbig, false_or, bind, Except.bind]
    unfold ModLarge.fromUBig
    have hy := UBig.shl_spec hv .val h1 (hr.shift_lt hv)
    rw [h2] at hy
    refine ⟨fun hf => ?_, fun hf => by rw [hy.2 hf]; rfl⟩
    obtain ⟨y, e, y1, y2⟩ := hy.1 hf
    rw [e]
    simp only [bind, Except.bind]
    obtain ⟨v, e, h3, h4, h5⟩ := RingLarge.reduce_spec hv hr y1 y2
    rw [e]
    obtain ⟨⟨a, l', ws⟩, e, h3, h4, h5⟩ := ModLarge.finish (addr := r.addr) hr (Nat.mod_lt _ hr.pos) h3 h4 h5
    simp only at h3 h4 h5
    subst h3 h4
    simp only [bind, Except.bind] at e ⊢
    rw [e]
    exact returns_ok.mpr (elem_large hrr hr h5 (Nat.mod_lt _ hr.pos))

/-! ### Negation, addition, subtraction -/

/-- `(k + i·n) % n` as a natural number -/
theorem toNat_emod_eq {n : Nat} {z i : Int} {k : Nat} (hk : k < n) (h : z = k + i * n) :
    (z % n).toNat = k := by
  rw [h, Int.add_mul_emod_self_right, Int.emod_eq_of_lt (by omega) (by omega)]
  simp

theorem RingSmall.raw_lt {W : Nat} {r : RingSmall} {n k : Nat} (h : r.OK W n) (hk : k < n) :
    k * 2 ^ r.shift < r.modulus := by
  rw [h.eq]; exact Nat.mul_lt_mul_of_pos_right hk (Nat.two_pow_pos _)

theorem RingSmall.negate_spec {W : Nat} {r : RingSmall} {n k : Nat} (h : r.OK W n) (hk : k < n) :
    ∃ j, j < n ∧ j = (-(k : Int) % n).toNat ∧
      r.negate W (k * 2 ^ r.shift) = .ok (j * 2 ^ r.shift) := by
  unfold RingSmall.negate
  rw [assertR_true (RingSmall.isValid_mul h hk)]
  simp only [bind, Except.bind]
  have hp := Nat.two_pow_pos r.shift
  by_cases h0 : k = 0
  · subst h0
    exact ⟨0, h.pos, by simp, by simp⟩
  · rw [if_neg (by rw [Nat.mul_eq_zero]; omega), ckSub_ok (RingSmall.raw_lt h hk).le, h.eq]
    refine ⟨n - k, by omega, (toNat_emod_eq (i := -1) (by omega) (by omega)).symm, ?_⟩
    rw [Nat.sub_mul]

theorem sub_mul_pow {a b s : Nat} : a * 2 ^ s - b * 2 ^ s = (a - b) * 2 ^ s := by rw [Nat.sub_mul]

theorem RingSmall.add_spec {W : Nat} {r : RingSmall} {n j k : Nat} (h : r.OK W n) (hj : j < n)
    (hk : k < n) : ∃ i, i < n ∧ i = ((j + k : Int) % n).toNat ∧
      r.add W (j * 2 ^ r.shift) (k * 2 ^ r.shift) = .ok (i * 2 ^ r.shift) := by
  unfold RingSmall.add
  rw [assertR_true ⟨RingSmall.isValid_mul h hj, RingSmall.isValid_mul h hk⟩]
  simp only [bind, Except.bind]
  have hp := Nat.two_pow_pos r.shift
  have h1 := RingSmall.raw_lt h hj
  have h2 := RingSmall.raw_lt h hk
  have h3 := h.lt
  have h4 := h.norm
  have hd := (Nat.add_mul j k (2 ^ r.shift)).symm
  have hm := h.eq
  obtain ⟨a1, a2⟩ := overflowingAdd_spec (a := j * 2 ^ r.shift) (b := k * 2 ^ r.shift) (h1.trans h3)
    (h2.trans h3).le
  generalize overflowingAdd W (j * 2 ^ r.shift) (k * 2 ^ r.shift) = p at a1 a2 ⊢
  obtain ⟨v, o⟩ := p
  simp only at a1 a2 ⊢
  obtain ⟨b1, b2⟩ := overflowingSub_spec (a := v) (b := r.modulus) a1 h3.le
  generalize overflowingSub W v r.modulus = p at b1 b2 ⊢
  obtain ⟨u, o2⟩ := p
  simp only at b1 b2 ⊢
  by_cases hge : n ≤ j + k
  · have hge' : r.modulus ≤ (j + k) * 2 ^ r.shift := by rw [hm]; exact Nat.mul_le_mul_right _ hge
    have hc : o = true ∨ r.modulus ≤ v := by
      cases o
      · right; simp at a2; omega
      · left; rfl
    rw [if_pos hc, assertR_true (show o = o2 by
      cases o <;> cases o2 <;> simp at a2 b2 ⊢ <;> omega)]
    simp only
    refine ⟨j + k - n, by omega, (toNat_emod_eq (i := 1) (by omega) (by omega)).symm, ?_⟩
    rw [Nat.sub_mul, ← hm]
    congr 1
    cases o <;> cases o2 <;> simp at a2 b2 <;> omega
  · have hlt' : (j + k) * 2 ^ r.shift < r.modulus := by
      rw [hm]; exact Nat.mul_lt_mul_of_pos_right (by omega) hp
    have ho : o = false := by
      cases o
      · rfl
      · simp at a2; omega
    subst ho
    simp at a2
    rw [if_neg (by simp; omega)]
    refine ⟨j + k, by omega, (toNat_emod_eq (i := 0) (by omega) (by omega)).symm, ?_⟩
    congr 1; omega

theorem RingSmall.sub_spec {W : Nat} {r : RingSmall} {n j k : Nat} (h : r.OK W n) (hj : j < n)
    (hk : k < n) : ∃ i, i < n ∧ i = ((j - k : Int) % n).toNat ∧
      r.sub W (j * 2 ^ r.shift) (k * 2 ^ r.shift) = .ok (i * 2 ^ r.shift) := by
  unfold RingSmall.sub
  rw [assertR_true ⟨RingSmall.isValid_mul h hj, RingSmall.isValid_mul h hk⟩]
  simp only [bind, Except.bind]
  have hp := Nat.two_pow_pos r.shift
  have h1 := RingSmall.raw_lt h hj
  have h2 := RingSmall.raw_lt h hk
  have h3 := h.lt
  have h4 := h.norm
  have hm := h.eq
  obtain ⟨a1, a2⟩ := overflowingSub_spec (a := j * 2 ^ r.shift) (b := k * 2 ^ r.shift) (h1.trans h3)
    (h2.trans h3).le
  generalize overflowingSub W (j * 2 ^ r.shift) (k * 2 ^ r.shift) = p at a1 a2 ⊢
  obtain ⟨v, o⟩ := p
  simp only at a1 a2 ⊢
  obtain ⟨b1, b2⟩ := overflowingAdd_spec (a := v) (b := r.modulus) a1 h3.le
  generalize overflowingAdd W v r.modulus = p at b1 b2 ⊢
  obtain ⟨u, o2⟩ := p
  simp only at b1 b2 ⊢
  by_cases hlt : j < k
  · have hd : (j + n - k) * 2 ^ r.shift = j * 2 ^ r.shift + n * 2 ^ r.shift - k * 2 ^ r.shift := by
      rw [Nat.sub_mul, Nat.add_mul]
    have hlt' : j * 2 ^ r.shift < k * 2 ^ r.shift := Nat.mul_lt_mul_of_pos_right hlt hp
    have ho : o = true := by
      cases o
      · simp at a2; omega
      · rfl
    subst ho
    have ho2 : o2 = true := by
      cases o2
      · simp at a2 b2; omega
      · rfl
    subst ho2
    rw [if_pos rfl, assertR_true rfl]
    simp only
    refine ⟨j + n - k, by omega, (toNat_emod_eq (i := -1) (by omega) (by omega)).symm, ?_⟩
    congr 1
    simp at a2 b2
    omega
  · have hge : k * 2 ^ r.shift ≤ j * 2 ^ r.shift := Nat.mul_le_mul_right _ (by omega)
    have ho : o = false := by
      cases o
      · rfl
      · simp at a2; omega
    subst ho
    rw [if_neg (by simp)]
    refine ⟨j - k, by omega, (toNat_emod_eq (i := 0) (by omega) (by omega)).symm, ?_⟩
    rw [Nat.sub_mul]
    simp at a2
    congr 1; omega

/-- Words of the same length with a given value. -/
theorem RingLarge.has_of {cfg : Cfg} {r : RingLarge} {v w : List Nat} {k δ : Int} {j i : Nat}
    (h : r.Has cfg v j) (hs : AddSpec cfg.W v w k δ)
    (he : (val cfg.W w : Int) = i * 2 ^ r.shift) : r.Has cfg w i := by
  refine ⟨hs.words, hs.len.trans h.len, ?_⟩
  exact_mod_cast he

theorem RingLarge.negate_spec {cfg : Cfg} {r : RingLarge} {n k : Nat} (h : r.OK cfg n) (hk : k < n)
    {v : List Nat} (hv : r.Has cfg v k) :
    Returns (r.negate cfg.W v) fun w => r.Has cfg w (-(k : Int) % n).toNat := by
  have hp := Nat.two_pow_pos r.shift
  unfold RingLarge.negate
  by_cases h0 : k = 0
  · subst h0
    have hz : val cfg.W v = 0 := by rw [hv.eq]; simp
    have hall : v.all (fun w => w == 0) = true := by
      have : v = List.replicate v.length 0 :=
        val_inj hv.words (isWords_replicate_zero _ _) (by simp) (by rw [hz, val_replicate_zero])
      rw [this]
      simp
    rw [if_pos hall]
    refine returns_ok.mpr ?_
    simpa using hv
  · have hall : ¬ v.all (fun w => w == 0) = true := by
      intro hc
      have : v = List.replicate v.length 0 := by
        rw [List.eq_replicate_iff]
        refine ⟨rfl, fun b hb => ?_⟩
        have := List.all_eq_true.mp hc b hb
        simpa using this
      have hz : val cfg.W v = 0 := by rw [this, val_replicate_zero]
      rw [hv.eq, Nat.mul_eq_zero] at hz
      omega
    rw [if_neg hall]
    refine Returns.bind (subSameLenSwap_spec h.words hv.words hv.len.symm) ?_
    rintro ⟨w, o⟩ hs
    simp only at hs ⊢
    have e := hs.eq
    have h2 := val_lt hs.words
    rw [hs.len, hv.len] at h2
    have h3 : val cfg.W v < val cfg.W r.modulus := by
      rw [hv.eq, h.eq]; exact Nat.mul_lt_mul_of_pos_right hk hp
    rw [hv.len] at e
    have ho : o = false := by
      cases o
      · rfl
      · simp only [Bool.toNat_true, Nat.cast_one] at e
        have h4 : (val cfg.W w : Int) < (base cfg.W : Int) ^ r.modulus.length := by exact_mod_cast h2
        have h5 : (val cfg.W v : Int) < val cfg.W r.modulus := by exact_mod_cast h3
        exfalso; nlinarith
    subst ho
    refine Returns.bind (returns_assertR rfl) ?_
    rintro _ -
    refine returns_ok.mpr ?_
    have hres : (-(k : Int) % n).toNat = n - k := toNat_emod_eq (i := -1) (by omega) (by omega)
    rw [hres]
    refine RingLarge.has_of hv hs ?_
    simp only [Bool.toNat_false, Nat.cast_zero, neg_zero, zero_mul, add_zero] at e
    rw [e, hv.eq, h.eq]
    push_cast [Nat.cast_sub hk.le]
    ring

theorem RingLarge.addFix_spec {cfg : Cfg} {r : RingLarge} {n i : Nat} (h : r.OK cfg n) {v : List Nat}
    (hv : IsWords cfg.W v) (hl : v.length = r.modulus.length) {o : Bool}
    (he : (val cfg.W v : Int) + o.toNat * (base cfg.W : Int) ^ r.modulus.length = (i + n : Nat) * 2 ^ r.shift)
    (hi : i < n) :
    Returns (r.addFix cfg.W v o) fun w => r.Has cfg w i := by
  have hp := Nat.two_pow_pos r.shift
  unfold RingLarge.addFix
  refine Returns.bind (subSameLen_spec hv h.words hl) ?_
  rintro ⟨w, o2⟩ hs
  simp only at hs ⊢
  have e := hs.eq
  have h2 := val_lt hs.words
  have h3 := val_lt hv
  rw [hs.len, hl] at h2
  rw [hl] at e h3
  have h4 : i * 2 ^ r.shift < n * 2 ^ r.shift := Nat.mul_lt_mul_of_pos_right hi hp
  have h5 := val_lt h.words
  rw [h.eq] at h5 e
  push_cast at he e
  have h4' : (i * 2 ^ r.shift : Int) < n * 2 ^ r.shift := by exact_mod_cast h4
  have h5' : (n * 2 ^ r.shift : Int) < (base cfg.W : Int) ^ r.modulus.length := by exact_mod_cast h5
  have h2' : (val cfg.W w : Int) < (base cfg.W : Int) ^ r.modulus.length := by exact_mod_cast h2
  have h6 : (0 : Int) ≤ i * 2 ^ r.shift := by positivity
  have h7 : (0 : Int) ≤ val cfg.W w := by positivity
  have ho : o = o2 := by
    cases o <;> cases o2 <;> simp at he e ⊢ <;> nlinarith
  subst ho
  refine Returns.bind (returns_assertR rfl) ?_
  rintro _ -
  refine returns_ok.mpr ⟨hs.words, hs.len.trans hl, ?_⟩
  have : (val cfg.W w : Int) = i * 2 ^ r.shift := by linear_combination e + he
  exact_mod_cast this

theorem RingLarge.add_spec {cfg : Cfg} {r : RingLarge} {n j k : Nat} (h : r.OK cfg n) (hj : j < n)
    (hk : k < n) {v u : List Nat} (hv : r.Has cfg v j) (hu : r.Has cfg u k) :
    Returns (r.add cfg.W v u) fun w => r.Has cfg w ((j + k : Int) % n).toNat := by
  have hp := Nat.two_pow_pos r.shift
  unfold RingLarge.add
  refine Returns.bind (addSameLen_spec hv.words hu.words (hv.len.trans hu.len.symm)) ?_
  rintro ⟨w, o⟩ hs
  simp only at hs ⊢
  have e := hs.eq
  rw [hv.len, hv.eq, hu.eq] at e
  have hwl : w.length = r.modulus.length := hs.len.trans hv.len
  push_cast at e
  by_cases hge : n ≤ j + k
  · have hres : ((j + k : Int) % n).toNat = j + k - n := toNat_emod_eq (i := 1) (by omega) (by omega)
    rw [hres]
    have hfix : Returns (r.addFix cfg.W w o) fun w => r.Has cfg w (j + k - n) := by
      refine RingLarge.addFix_spec h hs.words hwl ?_ (by omega)
      rw [e, Nat.sub_add_cancel hge]; push_cast; ring
    split
    · exact hfix
    · rename_i hno
      have ho : o = false := by simpa using hno
      subst ho
      rw [cmpSameLen_spec hs.words h.words hwl]
      simp only [bind, Except.bind]
      have : ¬ val cfg.W w < val cfg.W r.modulus := by
        rw [h.eq, not_lt]
        simp at e
        have e' : val cfg.W w = j * 2 ^ r.shift + k * 2 ^ r.shift := by exact_mod_cast e
        rw [e', ← Nat.add_mul]
        exact Nat.mul_le_mul_right _ hge
      rw [if_neg (by rw [Nat.compare_eq_lt]; exact this)]
      exact hfix
  · have hlt : (j + k) * 2 ^ r.shift < n * 2 ^ r.shift := Nat.mul_lt_mul_of_pos_right (by omega) hp
    have h5 := val_lt h.words
    rw [h.eq] at h5
    have ho : o = false := by
      cases o
      · rfl
      · exfalso
        simp at e
        have e' : val cfg.W w + base cfg.W ^ r.modulus.length = j * 2 ^ r.shift + k * 2 ^ r.shift := by
          exact_mod_cast e
        rw [Nat.add_mul] at hlt
        omega
    subst ho
    simp at e
    have e' : val cfg.W w = j * 2 ^ r.shift + k * 2 ^ r.shift := by exact_mod_cast e
    rw [if_neg (by simp), cmpSameLen_spec hs.words h.words hwl]
    simp only [bind, Except.bind]
    rw [if_pos (by rw [Nat.compare_eq_lt, e', h.eq, ← Nat.add_mul]; exact hlt)]
    refine returns_ok.mpr ⟨hs.words, hwl, ?_⟩
    have hres : ((j + k : Int) % n).toNat = j + k := toNat_emod_eq (i := 0) (by omega) (by omega)
    rw [hres, e', Nat.add_mul]

theorem RingLarge.subFix_spec {cfg : Cfg} {r : RingLarge} {n j k : Nat} (h : r.OK cfg n) (hj : j < n)
    (hk : k < n) {w : List Nat} {o : Bool} (hw : IsWords cfg.W w) (hl : w.length = r.modulus.length)
    (he : (val cfg.W w : Int) - o.toNat * (base cfg.W : Int) ^ r.modulus.length =
      j * 2 ^ r.shift - k * 2 ^ r.shift) :
    Returns (r.subFix cfg.W w o) fun w => r.Has cfg w ((j - k : Int) % n).toNat := by
  have hp := Nat.two_pow_pos r.shift
  have h0 := val_lt hw
  rw [hl] at h0
  have h0' : (val cfg.W w : Int) < (base cfg.W : Int) ^ r.modulus.length := by exact_mod_cast h0
  unfold RingLarge.subFix
  cases o
  · simp at he
    rw [if_neg (by simp)]
    have hge : k ≤ j := by
      by_contra hc
      have : j * 2 ^ r.shift < k * 2 ^ r.shift := Nat.mul_lt_mul_of_pos_right (by omega) hp
      have h1 : (j * 2 ^ r.shift : Int) < k * 2 ^ r.shift := by exact_mod_cast this
      have : (0 : Int) ≤ val cfg.W w := by positivity
      omega
    have hres : ((j - k : Int) % n).toNat = j - k := toNat_emod_eq (i := 0) (by omega) (by omega)
    rw [hres]
    refine returns_ok.mpr ⟨hw, hl, ?_⟩
    have : (val cfg.W w : Int) = (j - k : Nat) * 2 ^ r.shift := by
      rw [he]; push_cast [Nat.cast_sub hge]; ring
    exact_mod_cast this
  · simp at he
    rw [if_pos rfl]
    have hlt : j < k := by
      by_contra hc
      have : k * 2 ^ r.shift ≤ j * 2 ^ r.shift := Nat.mul_le_mul_right _ (by omega)
      have h1 : (k * 2 ^ r.shift : Int) ≤ j * 2 ^ r.shift := by exact_mod_cast this
      omega
    have hres : ((j - k : Int) % n).toNat = j + n - k := toNat_emod_eq (i := -1) (by omega) (by omega)
    rw [hres]
    refine Returns.bind (addSameLen_spec hw h.words hl) ?_
    rintro ⟨u, o2⟩ hs
    simp only at hs ⊢
    have e := hs.eq
    rw [hl, h.eq] at e
    push_cast at e
    have h2 := val_lt hs.words
    rw [hs.len, hl] at h2
    have h2' : (val cfg.W u : Int) < (base cfg.W : Int) ^ r.modulus.length := by exact_mod_cast h2
    have ho2 : o2 = true := by
      cases o2
      · exfalso
        simp at e
        have h3 : k * 2 ^ r.shift < n * 2 ^ r.shift := Nat.mul_lt_mul_of_pos_right hk hp
        have h3' : (k * 2 ^ r.shift : Int) < n * 2 ^ r.shift := by exact_mod_cast h3
        have : (0 : Int) ≤ j * 2 ^ r.shift := by positivity
        linarith
      · rfl
    subst ho2
    refine Returns.bind (returns_assertR rfl) ?_
    rintro _ -
    refine returns_ok.mpr ⟨hs.words, hs.len.trans hl, ?_⟩
    simp at e
    have : (val cfg.W u : Int) = (j + n - k : Nat) * 2 ^ r.shift := by
      push_cast [Nat.cast_sub (show k ≤ j + n by omega)]
      linear_combination e + he
    exact_mod_cast this

theorem RingLarge.sub_spec {cfg : Cfg} {r : RingLarge} {n j k : Nat} (h : r.OK cfg n) (hj : j < n)
    (hk : k < n) {v u : List Nat} (hv : r.Has cfg v j) (hu : r.Has cfg u k) :
    Returns (r.sub cfg.W v u) fun w => r.Has cfg w ((j - k : Int) % n).toNat := by
  unfold RingLarge.sub
  refine Returns.bind (subSameLen_spec hv.words hu.words (hv.len.trans hu.len.symm)) ?_
  rintro ⟨w, o⟩ hs
  simp only at hs ⊢
  have e := hs.eq
  rw [hv.len, hv.eq, hu.eq] at e
  push_cast at e
  exact RingLarge.subFix_spec h hj hk hs.words (hs.len.trans hv.len) (by linear_combination e)

theorem RingLarge.subSwap_spec {cfg : Cfg} {r : RingLarge} {n j k : Nat} (h : r.OK cfg n) (hj : j < n)
    (hk : k < n) {v u : List Nat} (hv : r.Has cfg v j) (hu : r.Has cfg u k) :
    Returns (r.subSwap cfg.W v u) fun w => r.Has cfg w ((j - k : Int) % n).toNat := by
  unfold RingLarge.subSwap
  refine Returns.bind (subSameLenSwap_spec hv.words hu.words (hv.len.trans hu.len.symm)) ?_
  rintro ⟨w, o⟩ hs
  simp only at hs ⊢
  have e := hs.eq
  rw [hu.len, hv.eq, hu.eq] at e
  push_cast at e
  exact RingLarge.subFix_spec h hj hk hs.words (hs.len.trans hu.len) (by linear_combination e)

theorem checkSameRing_self (a : Nat) : checkSameRing a a = .ok () := by simp [checkSameRing]

theorem toNat_emod_lt {n : Nat} (hn : 0 < n) (z : Int) : (z % n).toNat < n := by
  have := Int.emod_lt_of_pos z (b := n) (by omega)
  omega

theorem ModSmall.elem_of {cfg : Cfg} {r : Ring} {s : RingSmall} {n k : Nat} (hrr : r.repr = .small s)
    (hs : s.OK cfg.W n) (hk : k < n) :
    Returns (do let m ← ModSmall.new cfg.W r.addr s (k * 2 ^ s.shift); Except.ok (Modulo.small m)) fun m =>
      Elem cfg r m k := by
  rw [ModSmall.new_ok hs hk]
  exact returns_ok.mpr (elem_small hrr hs hk)

theorem ModLarge.elem_of {cfg : Cfg} {r : Ring} {l : RingLarge} {n k : Nat} {v : List Nat}
    (hrr : r.repr = .large l) (hl : l.OK cfg n) (h : l.Has cfg v k) (hk : k < n) :
    Returns (do let m ← ModLarge.new cfg.W r.addr l v; Except.ok (Modulo.large m)) fun m =>
      Elem cfg r m k := by
  rw [ModLarge.new_ok hl h.words h.len h.eq hk]
  exact returns_ok.mpr (elem_large hrr hl h hk)

theorem Modulo.neg_spec {cfg : Cfg} {r : Ring} {n : Nat} (hr : r.OK cfg n) {x : Modulo} {k : Nat}
    (hx : Elem cfg r x k) : Returns (x.neg cfg.W) fun m => Elem cfg r m (-(k : Int) % n).toNat := by
  obtain ⟨hk, ⟨s, e1, e2, rfl⟩ | ⟨l, v, e1, e2, rfl, e3⟩⟩ := elem_cases hr hx
  · obtain ⟨j, hj, e, h1⟩ := RingSmall.negate_spec e2 hk
    show Returns (do
      let v ← s.negate cfg.W (k * 2 ^ s.shift)
      let m ← ModSmall.new cfg.W r.addr s v
      Except.ok (Modulo.small m)) _
    rw [h1, ← e]
    exact ModSmall.elem_of e1 e2 hj
  · refine Returns.bind (RingLarge.negate_spec e2 hk e3) ?_
    intro w hw
    exact ModLarge.elem_of e1 e2 hw (toNat_emod_lt e2.pos _)

theorem Modulo.addAssign_spec {cfg : Cfg} {r : Ring} {n : Nat} (hr : r.OK cfg n) {x y : Modulo} {j k : Nat}
    (hx : Elem cfg r x j) (hy : Elem cfg r y k) :
    Returns (Modulo.addAssign cfg.W x y) fun m => Elem cfg r m ((j + k : Int) % n).toNat := by
  obtain ⟨hj, ⟨s, e1, e2, rfl⟩ | ⟨l, v, e1, e2, rfl, e3⟩⟩ := elem_cases hr hx <;>
    obtain ⟨hk, ⟨s', f1, f2, rfl⟩ | ⟨l', u, f1, f2, rfl, f3⟩⟩ := elem_cases hr hy
  · rw [e1] at f1; cases f1
    obtain ⟨i, hi, e, h1⟩ := RingSmall.add_spec e2 hj hk
    simp only [Modulo.addAssign, checkSameRing_self, h1, bind, Except.bind]
    rw [← e]
    exact ModSmall.elem_of e1 e2 hi
  · rw [e1] at f1; cases f1
  · rw [e1] at f1; cases f1
  · rw [e1] at f1; cases f1
    simp only [Modulo.addAssign, checkSameRing_self]
    refine Returns.bind (P := fun _ => True) (returns_ok.mpr trivial) ?_
    rintro _ -
    refine Returns.bind (RingLarge.add_spec e2 hj hk e3 f3) ?_
    intro w hw
    exact ModLarge.elem_of e1 e2 hw (toNat_emod_lt e2.pos _)

theorem Modulo.add_spec {cfg : Cfg} {r : Ring} {n : Nat} (hr : r.OK cfg n) (o1 o2 : Own) {x y : Modulo}
    {j k : Nat} (hx : Elem cfg r x j) (hy : Elem cfg r y k) :
    Returns (Modulo.add cfg.W o1 o2 x y) fun m => Elem cfg r m ((j + k : Int) % n).toNat := by
  unfold Modulo.add
  split
  · rw [add_comm]; exact Modulo.addAssign_spec hr hy hx
  · exact Modulo.addAssign_spec hr hx hy

theorem Modulo.sub_spec {cfg : Cfg} {r : Ring} {n : Nat} (hr : r.OK cfg n) (o1 o2 : Own) {x y : Modulo}
    {j k : Nat} (hx : Elem cfg r x j) (hy : Elem cfg r y k) :
    Returns (Modulo.sub cfg.W o1 o2 x y) fun m => Elem cfg r m ((j - k : Int) % n).toNat := by
  unfold Modulo.sub
  obtain ⟨hj, ⟨s, e1, e2, rfl⟩ | ⟨l, v, e1, e2, rfl, e3⟩⟩ := elem_cases hr hx <;>
    obtain ⟨hk, ⟨s', f1, f2, rfl⟩ | ⟨l', u, f1, f2, rfl, f3⟩⟩ := elem_cases hr hy
  · rw [e1] at f1; cases f1
    obtain ⟨i, hi, e, h1⟩ := RingSmall.sub_spec e2 hj hk
    split
    · simp only [Modulo.subSwap, checkSameRing_self, h1, bind, Except.bind]
      rw [← e]
      exact ModSmall.elem_of e1 e2 hi
    · simp only [Modulo.subAssign, checkSameRing_self, h1, bind, Except.bind]
      rw [← e]
      exact ModSmall.elem_of e1 e2 hi
  · rw [e1] at f1; cases f1
  · rw [e1] at f1; cases f1
  · rw [e1] at f1; cases f1
    split
    · simp only [Modulo.subSwap, checkSameRing_self]
      refine Returns.bind (P := fun _ => True) (returns_ok.mpr trivial) ?_
      rintro _ -
      refine Returns.bind (RingLarge.subSwap_spec e2 hj hk e3 f3) ?_
      intro w hw
      exact ModLarge.elem_of e1 e2 hw (toNat_emod_lt e2.pos _)
    · simp only [Modulo.subAssign, checkSameRing_self]
      refine Returns.bind (P := fun _ => True) (returns_ok.mpr trivial) ?_
      rintro _ -
      refine Returns.bind (RingLarge.sub_spec e2 hj hk e3 f3) ?_
      intro w hw
      exact ModLarge.elem_of e1 e2 hw (toNat_emod_lt e2.pos _)

theorem Modulo.eq_spec {cfg : Cfg} {r : Ring} {n : Nat} (hr : r.OK cfg n) {x y : Modulo}
    {j k : Nat} (hx : Elem cfg r x j) (hy : Elem cfg r y k) : Modulo.eq x y = .ok (decide (j = k)) := by
  obtain ⟨hj, ⟨s, e1, e2, rfl⟩ | ⟨l, v, e1, e2, rfl, e3⟩⟩ := elem_cases hr hx <;>
    obtain ⟨hk, ⟨s', f1, f2, rfl⟩ | ⟨l', u, f1, f2, rfl, f3⟩⟩ := elem_cases hr hy
  · rw [e1] at f1; cases f1
    simp only [Modulo.eq, checkSameRing_self, bind, Except.bind]
    congr 1
    rw [Bool.eq_iff_iff, beq_iff_eq, decide_eq_true_iff]
    exact ⟨fun h => Nat.eq_of_mul_eq_mul_right (Nat.two_pow_pos _) h, fun h => by rw [h]⟩
  · rw [e1] at f1; cases f1
  · rw [e1] at f1; cases f1
  · rw [e1] at f1; cases f1
    simp only [Modulo.eq, checkSameRing_self, bind, Except.bind]
    congr 1
    rw [Bool.eq_iff_iff, beq_iff_eq, decide_eq_true_iff]
    constructor
    · intro h
      have := e3.eq
      rw [h, f3.eq] at this
      exact (Nat.eq_of_mul_eq_mul_right (Nat.two_pow_pos _) this).symm
    · intro h
      subst h
      exact e3.unique f3

/-! ### Conversion of signed and primitive values -/

theorem Ring.fromIBig_spec {cfg : Cfg} (hv : cfg.Valid) {r : Ring} {n : Nat} (hr : r.OK cfg n) (o : Own)
    {x : IBig} (hx : x.WF cfg) :
    RT (¬ Fits cfg ((x.value cfg).natAbs * base cfg.W)) (r.fromIBig cfg o x) fun m =>
      Elem cfg r m (x.value cfg % n).toNat := by
  unfold Ring.fromIBig
  rw [IBig.natAbs_value]
  refine RT.bind (Ring.fromUBig_spec hv hr o hx.mag) ?_
  intro m hm
  refine Returns.rt ?_
  unfold Modulo.applySign IBig.value
  cases hs : x.sign with
  | pos =>
    refine returns_ok.mpr ?_
    simp only [Sign.toInt, one_mul]
    rw [← Int.natCast_mod, Int.toNat_natCast]
    exact hm
  | neg =>
    refine (Modulo.neg_spec hr hm).mono ?_
    intro m' hm'
    rw [Int.natCast_mod, show -((x.mag.value cfg : Int) % n) % n = -(x.mag.value cfg : Int) % n by
      rw [← Int.zero_sub, Int.sub_emod_emod, Int.zero_sub]] at hm'
    simpa [Sign.toInt] using hm'

theorem Ring.fromIBig_exact {cfg : Cfg} (hv : cfg.Valid) {r : Ring} {n : Nat} (hr : r.OK cfg n) (o : Own)
    {x : IBig} (hx : x.WF cfg) :
    (Accepts cfg n (x.value cfg).natAbs →
      Returns (r.fromIBig cfg o x) fun m => Elem cfg r m (x.value cfg % n).toNat) ∧
    (¬Accepts cfg n (x.value cfg).natAbs → r.fromIBig cfg o x = .error .tooLarge) := by
  rw [IBig.natAbs_value]
  refine ⟨fun h => ?_, fun h => ?_⟩
  · rcases Ring.fromIBig_spec hv hr o hx with h1 | ⟨h1, -⟩
    · exact h1
    · obtain ⟨m, e, hm⟩ := (Ring.fromUBig_exact hv hr o hx.mag).1 h
      unfold Ring.fromIBig at h1
      rw [e] at h1
      simp only [bind, Except.bind, Modulo.applySign] at h1
      cases hs : x.sign with
      | pos => rw [hs] at h1; cases h1
      | neg =>
        obtain ⟨m', e', -⟩ := Modulo.neg_spec hr hm
        rw [hs] at h1
        simp only [e'] at h1
        cases h1
  · unfold Ring.fromIBig
    rw [(Ring.fromUBig_exact hv hr o hx.mag).2 h]
    rfl

theorem accepts_of_fits {cfg : Cfg} (hv : cfg.Valid) {n x : Nat} (h : Fits cfg (x * 2 ^ cfg.W)) :
    Accepts cfg n x := by
  refine Or.inr (h.mono (Nat.mul_le_mul_left _ (Nat.pow_le_pow_right (by norm_num) ?_)))
  exact (Nat.mod_lt _ (by have := hv.W1; omega)).le

theorem fits_prim {cfg : Cfg} (hv : cfg.Valid) {x : Nat} (hx : x ≤ 2 ^ 128) :
    Fits cfg (x * base cfg.W) := by
  have h1 := hv.W16
  have h2 := hv.W64
  have h3 := hv.large
  rw [fits_iff, base_eq, ← pow_mul]
  calc x * 2 ^ cfg.W ≤ 2 ^ 128 * 2 ^ 64 :=
        Nat.mul_le_mul hx (Nat.pow_le_pow_right (by norm_num) h2)
    _ < 2 ^ (16 * 512) := by rw [← pow_add]; exact Nat.pow_lt_pow_right (by norm_num) (by norm_num)
    _ ≤ 2 ^ (cfg.W * cfg.maxLen) := Nat.pow_le_pow_right (by norm_num) (Nat.mul_le_mul h1 h3)

end Ibig
