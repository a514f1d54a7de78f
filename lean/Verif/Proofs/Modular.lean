import Verif.Proofs.FmtPow2
import Verif.Proofs.ShiftOps
import Verif.Proofs.DivOps
import Verif.Proofs.IBits
import Verif.Proofs.Number
import Verif.Spec.Modular
/-! Modular rings: construction, conversion, addition. -/
namespace Ibig

/-- Representation invariant of a small ring with modulus `n`. -/
structure RingSmall.OK (W : Nat) (r : RingSmall) (n : Nat) : Prop where
  pos : 0 < n
  shift : r.shift < W
  eq : r.modulus = n * 2 ^ r.shift
  lt : r.modulus < base W
  norm : base W ≤ 2 * r.modulus
  valid : r.fd.Valid W r.modulus

/-- Representation invariant of a large ring with modulus `n`. -/
structure RingLarge.OK (cfg : Cfg) (r : RingLarge) (n : Nat) : Prop where
  shift : r.shift < cfg.W
  words : IsWords cfg.W r.modulus
  two : 2 ≤ r.modulus.length
  len : r.modulus.length ≤ cfg.maxLen
  eq : val cfg.W r.modulus = n * 2 ^ r.shift
  norm : ∃ rl v1 v0, NormDiv cfg.W r.modulus r.fd rl v1 v0
  ge : base cfg.W ^ (r.modulus.length - 1) ≤ n

theorem RingLarge.OK.pos {cfg : Cfg} {r : RingLarge} {n : Nat} (h : r.OK cfg n) : 0 < n :=
  lt_of_lt_of_le (base_pow_pos _ _) h.ge

theorem RingLarge.OK.lt {cfg : Cfg} {r : RingLarge} {n : Nat} (h : r.OK cfg n) :
    n < base cfg.W ^ r.modulus.length := by
  have h1 := val_lt h.words
  rw [h.eq] at h1
  exact lt_of_le_of_lt (Nat.le_mul_of_pos_right _ (Nat.two_pow_pos _)) h1

theorem RingSmall.new_spec {W n : Nat} (hW : 1 ≤ W) (h0 : n ≠ 0) (hn : n < base W) :
    Returns (RingSmall.new W n) fun r => r.OK W n := by
  obtain ⟨h1, h2, h3⟩ := normalize_word hW h0 hn
  unfold RingSmall.new shlW
  rw [assertR_true h0]
  simp only [bind, Except.bind]
  rw [if_pos h1, Nat.mod_eq_of_lt h2]
  simp only
  obtain ⟨fd, e, hfd⟩ := FastDivideNormalized.new_spec hW h2 h3
  rw [e]
  exact returns_ok.mpr ⟨Nat.pos_of_ne_zero h0, h1, rfl, h2, h3, hfd⟩

theorem RingLarge.new_spec {cfg : Cfg} (hv : cfg.Valid) {b : Buffer} (hb : b.WF cfg) :
    Returns (RingLarge.new cfg.W b.words) fun r => r.OK cfg (val cfg.W b.words) := by
  unfold RingLarge.new
  refine Returns.bind (normalizeLarge_spec hv.W1 hb.words hb.two hb.top) ?_
  rintro ⟨ws, s, fd⟩ ⟨h1, h2, h3, h4, h5⟩
  simp only at h1 h2 h3 h4 h5 ⊢
  have := hb.ge
  exact returns_ok.mpr ⟨h3, h2, by simp only; rw [h1]; exact hb.two, by simp only; rw [h1]; exact hb.len,
    h4, h5, by simp only; rw [h1]; exact hb.ge⟩

/-- Representation invariant of a ring. -/
def Ring.OK (cfg : Cfg) (r : Ring) (n : Nat) : Prop :=
  match r.repr with
  | .small s => s.OK cfg.W n
  | .large l => l.OK cfg n

theorem Ring.new_spec {cfg : Cfg} (hv : cfg.Valid) (addr : Nat) {m : UBig} (hm : m.WF cfg)
    (h0 : m.value cfg ≠ 0) :
    Returns (Ring.new cfg addr m) fun r => r.addr = addr ∧ r.OK cfg (m.value cfg) := by
  cases m with
  | small w =>
    have hw : w < base cfg.W := hm
    have h0' : w ≠ 0 := h0
    obtain ⟨w', rfl⟩ := Nat.exists_eq_succ_of_ne_zero h0'
    obtain ⟨r, e, hr⟩ := RingSmall.new_spec hv.W1 h0' hw
    show Returns (do let r ← RingSmall.new cfg.W w'.succ; Except.ok (⟨addr, .small r⟩ : Ring)) _
    rw [e]
    exact returns_ok.mpr ⟨rfl, hr⟩
  | large b =>
    obtain ⟨r, e, hr⟩ := RingLarge.new_spec hv (b := b) hm
    show Returns (do let r ← RingLarge.new cfg.W b.words; Except.ok (⟨addr, .large r⟩ : Ring)) _
    rw [e]
    exact returns_ok.mpr ⟨rfl, hr⟩

theorem Ring.new_zero {cfg : Cfg} (addr : Nat) {m : UBig} (hm : m.WF cfg) (h0 : m.value cfg = 0) :
    Ring.new cfg addr m = .error .divideByZero := by
  cases m with
  | small w => have : w = 0 := h0; subst this; rfl
  | large b =>
    have hb : b.WF cfg := hm
    have := hb.ge
    have := base_pow_pos cfg.W (b.words.length - 1)
    have : val cfg.W b.words = 0 := h0
    omega

theorem IsRing.ok {cfg : Cfg} (hv : cfg.Valid) {r : Ring} {n : Nat} (h : IsRing cfg r n) : r.OK cfg n := by
  obtain ⟨m, h1, rfl, h3⟩ := h
  by_cases h0 : m.value cfg = 0
  · rw [Ring.new_zero _ h1 h0] at h3; cases h3
  · obtain ⟨r', e, -, h5⟩ := Ring.new_spec hv r.addr h1 h0
    rw [e] at h3
    cases h3
    exact h5

theorem Ring.OK.pos {cfg : Cfg} {r : Ring} {n : Nat} (h : r.OK cfg n) : 0 < n := by
  unfold Ring.OK at h
  split at h
  · exact h.pos
  · exact h.pos

/-! ### Validity checks -/

theorem and_ones_mul (k s : Nat) : (k * 2 ^ s) &&& (2 ^ s - 1) = 0 := by
  rw [Nat.and_two_pow_sub_one_eq_mod, Nat.mul_mod_left]

theorem RingSmall.isValid_mul {W : Nat} {r : RingSmall} {n k : Nat} (hr : r.OK W n) (hk : k < n) :
    r.isValid W (k * 2 ^ r.shift) = true := by
  unfold RingSmall.isValid
  rw [onesWord_eq hr.shift.le, and_ones_mul, hr.eq]
  simp only [Bool.and_eq_true, decide_eq_true_eq, and_true]
  exact Nat.mul_lt_mul_of_pos_right hk (Nat.two_pow_pos _)

theorem head_mod {W s : Nat} (hs : s ≤ W) {l : List Nat} {w : Nat} {k : Nat} (hl : l[0]? = some w)
    (h : val W l = k * 2 ^ s) : w % 2 ^ s = 0 := by
  cases l with
  | nil => simp at hl
  | cons x xs =>
    simp only [List.getElem?_cons_zero, Option.some.injEq] at hl
    subst hl
    rw [val_cons, base_split hs] at h
    have h1 : (x + 2 ^ s * 2 ^ (W - s) * val W xs) % 2 ^ s = x % 2 ^ s := by
      rw [Nat.mul_assoc, Nat.add_mul_mod_self_left]
    rw [← h1, h, Nat.mul_mod_left]

theorem RingLarge.isValid_mul {cfg : Cfg} {r : RingLarge} {n k : Nat} (hr : r.OK cfg n) {v : List Nat}
    (hw : IsWords cfg.W v) (hl : v.length = r.modulus.length) (hval : val cfg.W v = k * 2 ^ r.shift)
    (hk : k < n) : r.isValid cfg.W v = .ok true := by
  have h2 := hr.two
  have hs := hr.shift
  have hlt : val cfg.W v < val cfg.W r.modulus := by
    rw [hval, hr.eq]; exact Nat.mul_lt_mul_of_pos_right hk (Nat.two_pow_pos _)
  unfold RingLarge.isValid
  rw [if_pos hl, cmpSameLen_spec hw hr.words hl, Nat.compare_eq_lt.mpr hlt]
  simp only [bind, Except.bind, if_true]
  rw [getR_ok (show 0 < v.length by omega)]
  simp only
  have h0 := head_mod hs.le (List.getElem?_eq_getElem (show 0 < v.length by omega)) hval
  obtain ⟨m, e, rfl⟩ : ∃ m, ones cfg.W r.shift = .ok m ∧ m = 2 ^ r.shift - 1 :=
    ⟨_, ones_spec hs.le, rfl⟩
  rw [e]
  simp only
  rw [Nat.and_two_pow_sub_one_eq_mod, h0]
  simp

/-! ### Elements -/

theorem ModSmall.new_ok {W addr : Nat} {r : RingSmall} {n k : Nat} (hr : r.OK W n) (hk : k < n) :
    ModSmall.new W addr r (k * 2 ^ r.shift) = .ok ⟨addr, r, k * 2 ^ r.shift⟩ := by
  unfold ModSmall.new
  rw [assertR_true (RingSmall.isValid_mul hr hk)]
  rfl

theorem ModLarge.new_ok {cfg : Cfg} {addr : Nat} {r : RingLarge} {n k : Nat} (hr : r.OK cfg n)
    {v : List Nat} (hw : IsWords cfg.W v) (hl : v.length = r.modulus.length)
    (hval : val cfg.W v = k * 2 ^ r.shift) (hk : k < n) :
    ModLarge.new cfg.W addr r v = .ok ⟨addr, r, v⟩ := by
  unfold ModLarge.new
  rw [RingLarge.isValid_mul hr hw hl hval hk]
  simp only [bind, Except.bind]
  rw [assertR_true trivial]

/-- The words of an element of a large ring. -/
structure RingLarge.Has (cfg : Cfg) (r : RingLarge) (v : List Nat) (k : Nat) : Prop where
  words : IsWords cfg.W v
  len : v.length = r.modulus.length
  eq : val cfg.W v = k * 2 ^ r.shift

theorem RingLarge.Has.unique {cfg : Cfg} {r : RingLarge} {v w : List Nat} {k : Nat} (h1 : r.Has cfg v k)
    (h2 : r.Has cfg w k) : v = w :=
  val_inj h1.words h2.words (h1.len.trans h2.len.symm) (h1.eq.trans h2.eq.symm)

theorem elem_cases {cfg : Cfg} {r : Ring} {n : Nat} (hr : r.OK cfg n) {x : Modulo} {k : Nat}
    (h : Elem cfg r x k) : k < n ∧
    ((∃ s, r.repr = .small s ∧ s.OK cfg.W n ∧ x = .small ⟨r.addr, s, k * 2 ^ s.shift⟩) ∨
     (∃ l v, r.repr = .large l ∧ l.OK cfg n ∧ x = .large ⟨r.addr, l, v⟩ ∧ l.Has cfg v k)) := by
  unfold Elem at h
  unfold Ring.OK at hr
  rcases hrr : r.repr with s | l
  · rw [hrr] at h hr
    cases x with
    | small x =>
      obtain ⟨h1, h2, h3, h4⟩ := h
      simp only at hr
      refine ⟨?_, Or.inl ⟨s, rfl, hr, ?_⟩⟩
      · rw [h3, hr.eq] at h4
        exact Nat.lt_of_mul_lt_mul_right h4
      · subst h2; rw [← h1, ← h3]
    | large x => exact absurd h (by simp)
  · rw [hrr] at h hr
    cases x with
    | small x => exact absurd h (by simp)
    | large x =>
      obtain ⟨h1, h2, h3, h4, h5, h6⟩ := h
      simp only at hr
      refine ⟨?_, Or.inr ⟨l, x.words, rfl, hr, ?_, ⟨h3, h4, h5⟩⟩⟩
      · rw [h5, hr.eq] at h6
        exact Nat.lt_of_mul_lt_mul_right h6
      · rw [← h1, ← h2]

theorem elem_small {cfg : Cfg} {r : Ring} {s : RingSmall} {n k : Nat} (hrr : r.repr = .small s)
    (hs : s.OK cfg.W n) (hk : k < n) : Elem cfg r (.small ⟨r.addr, s, k * 2 ^ s.shift⟩) k := by
  unfold Elem
  rw [hrr]
  refine ⟨rfl, rfl, rfl, ?_⟩
  rw [hs.eq]
  exact Nat.mul_lt_mul_of_pos_right hk (Nat.two_pow_pos _)

theorem elem_large {cfg : Cfg} {r : Ring} {l : RingLarge} {n k : Nat} {v : List Nat}
    (hrr : r.repr = .large l) (hl : l.OK cfg n) (h : l.Has cfg v k) (hk : k < n) :
    Elem cfg r (.large ⟨r.addr, l, v⟩) k := by
  unfold Elem
  rw [hrr]
  refine ⟨rfl, rfl, h.words, h.len, h.eq, ?_⟩
  rw [h.eq, hl.eq]
  exact Nat.mul_lt_mul_of_pos_right hk (Nat.two_pow_pos _)

/-- An element of a ring stands for one residue. -/
theorem Elem.inj {cfg : Cfg} {r : Ring} {n : Nat} (hr : r.OK cfg n) {x : Modulo} {j k : Nat}
    (h1 : Elem cfg r x j) (h2 : Elem cfg r x k) : j = k := by
  obtain ⟨-, ⟨s, e1, -, e2⟩ | ⟨l, v, e1, -, e2, e3⟩⟩ := elem_cases hr h1 <;>
    obtain ⟨-, ⟨s', f1, -, f2⟩ | ⟨l', v', f1, -, f2, f3⟩⟩ := elem_cases hr h2
  · rw [e1] at f1; cases f1
    rw [e2] at f2
    simp only [Modulo.small.injEq, ModSmall.mk.injEq, true_and] at f2
    exact Nat.eq_of_mul_eq_mul_right (Nat.two_pow_pos _) f2
  · rw [e1] at f1; cases f1
  · rw [e1] at f1; cases f1
  · rw [e1] at f1; cases f1
    rw [e2] at f2
    simp only [Modulo.large.injEq, ModLarge.mk.injEq, true_and] at f2
    subst f2
    exact Nat.eq_of_mul_eq_mul_right (Nat.two_pow_pos _) (e3.eq.symm.trans f3.eq)

/-! ### Modulus and residue -/

theorem unshift_spec {cfg : Cfg} (hv : cfg.Valid) {ws : List Nat} {s k : Nat} (hw : IsWords cfg.W ws)
    (hl : ws.length ≤ cfg.maxLen) (hs : s < cfg.W) (h : val cfg.W ws = k * 2 ^ s) :
    Returns (unshift cfg ws s) fun c => c.WF cfg ∧ c.value cfg = k := by
  unfold unshift
  rw [Buffer.allocate_ok (by omega)]
  refine Returns.bind (P := fun b => b = ⟨[], allocCap cfg ws.length⟩)
    (returns_ok.mpr rfl) ?_
  rintro _ rfl
  refine Returns.bind (Buffer.extend_spec (cfg := cfg) (ws := ws) ⟨by simp, by simp⟩ hw
    (by simpa using le_allocCap (by omega))) ?_
  rintro b ⟨h1, h2, h3⟩
  simp only [List.nil_append] at h2
  rw [h2]
  refine Returns.bind (shrInPlace_spec hs hw) ?_
  rintro ⟨ws', low⟩ ⟨g1, g2, g3, g4⟩
  simp only at g1 g2 g3 g4 ⊢
  have hp := Nat.two_pow_pos s
  have hlow : low = 0 := by
    have := congrArg (· % 2 ^ s) (g4.trans h)
    simp only [Nat.mul_mod_left] at this
    rw [Nat.add_comm, Nat.add_mul_mod_self_right, Nat.mod_eq_of_lt g3] at this
    exact this
  have hk : val cfg.W ws' = k := by
    rw [hlow, Nat.add_zero, h] at g4
    exact Nat.eq_of_mul_eq_mul_right hp g4
  refine Returns.bind (returns_assertR hlow) ?_
  rintro _ -
  refine (yields_ofBuffer hv (h1.setWords g2 (by rw [g1, h2])) hk).returns ?_
  rw [fits_iff, ← hk]
  exact lt_of_lt_of_le (val_lt g2) (Nat.pow_le_pow_right (base_pos _) (by omega))

theorem Ring.modulus_spec {cfg : Cfg} (hv : cfg.Valid) {r : Ring} {n : Nat} (hr : r.OK cfg n) :
    Returns (r.modulus cfg) fun c => c.WF cfg ∧ c.value cfg = n := by
  unfold Ring.OK at hr
  unfold Ring.modulus
  rcases hrr : r.repr with s | l
  · rw [hrr] at hr
    simp only at hr ⊢
    unfold RingSmall.getModulus
    rw [shrW_ok hr.shift, hr.eq, Nat.mul_div_cancel _ (Nat.two_pow_pos _)]
    have := hr.lt
    rw [hr.eq] at this
    exact returns_ok.mpr ⟨lt_of_le_of_lt (Nat.le_mul_of_pos_right _ (Nat.two_pow_pos _)) this, rfl⟩
  · rw [hrr] at hr
    exact unshift_spec hv hr.words hr.len hr.shift hr.eq

theorem Modulo.residue_spec {cfg : Cfg} (hv : cfg.Valid) {r : Ring} {n : Nat} (hr : r.OK cfg n)
    {x : Modulo} {k : Nat} (hx : Elem cfg r x k) :
    Returns (x.residue cfg) fun c => c.WF cfg ∧ c.value cfg = k := by
  obtain ⟨hk, ⟨s, e1, e2, rfl⟩ | ⟨l, v, e1, e2, rfl, e3⟩⟩ := elem_cases hr hx
  · unfold Modulo.residue RingSmall.residue
    simp only
    rw [assertR_true (RingSmall.isValid_mul e2 hk)]
    simp only [bind, Except.bind]
    rw [shrW_ok e2.shift, Nat.mul_div_cancel _ (Nat.two_pow_pos _)]
    have h1 := e2.lt
    rw [e2.eq] at h1
    refine returns_ok.mpr ⟨?_, rfl⟩
    exact lt_of_le_of_lt (Nat.le_mul_of_pos_right _ (Nat.two_pow_pos s.shift))
      (lt_trans (Nat.mul_lt_mul_of_pos_right hk (Nat.two_pow_pos _)) h1)
  · exact unshift_spec hv e3.words (e3.len.trans_le e2.len) e2.shift e3.eq

end Ibig
