import Verif.Proofs.ModularMul
import Verif.Proofs.IDivOps
/-! Modular rings: inverse and division. -/
namespace Ibig

theorem Cfg.Valid.pbits {cfg : Cfg} (hv : cfg.Valid) : PBits cfg.W := by
  rcases hv.word with h | h | h <;> rw [h] <;> unfold PBits <;> omega

/-- The coefficient of Bézout's identity, reduced, is the inverse. -/
theorem bezout_inverse {k n i : Nat} {x y : Int} (h : x * k + y * n = (1 : Nat)) (hi : (i : Int) = x % n) :
    k * i % n = 1 % n := by
  have : ((k * i % n : Nat) : Int) = (1 % n : Nat) := by
    push_cast
    rw [hi, Int.mul_emod, Int.emod_emod, ← Int.mul_emod]
    have e : (k : Int) * x = 1 + -y * n := by push_cast at h; linear_combination h
    rw [e, Int.add_mul_emod_self_right]
  exact_mod_cast this

theorem UBig.beq_one {cfg : Cfg} (hv : cfg.Valid) {a : UBig} (ha : a.WF cfg) :
    a.beq (.small 1) = decide (a.value cfg = 1) := by
  have h1 : (UBig.small 1).WF cfg := wf_small (by
    rw [base_eq]; exact Nat.one_lt_two_pow (by have := hv.W1; omega))
  rw [Bool.eq_iff_iff, UBig.beq_iff hv ha h1, decide_eq_true_iff]
  rfl

theorem ModSmall.inverseOf_spec {cfg : Cfg} (hv : cfg.Valid) {addr : Nat} {r : RingSmall} {n k : Nat}
    (h : r.OK cfg.W n) {x : IBig} (hx : x.WF cfg) {y : Int} (hb : x.value cfg * k + y * n = (1 : Nat)) :
    ∃ i, i < n ∧ k * i % n = 1 % n ∧
      ModSmall.inverseOf cfg addr r n x = .ok ⟨addr, r, i * 2 ^ r.shift⟩ := by
  have hn : n < base cfg.W := by
    have := h.lt
    have h2 := Nat.le_mul_of_pos_right n (Nat.two_pow_pos r.shift)
    rw [← h.eq] at h2
    omega
  have hpos := h.pos
  unfold ModSmall.inverseOf
  obtain ⟨m, e, m1, m2⟩ := IBig.fromUnsigned_spec hv hv.pbits (x := n) (by rw [← base_eq]; exact hn)
  rw [e]
  simp only [bind, Except.bind]
  obtain ⟨c, e, c1, c2⟩ := (IBig.remEuclid_spec hv .val .val hx m1).1 (by rw [m2]; omega)
  rw [e]
  simp only
  rw [m2] at c2
  have hc0 : 0 ≤ c.value cfg := by rw [c2]; exact Int.emod_nonneg _ (by omega)
  have hclt : c.value cfg < n := by rw [c2]; exact Int.emod_lt_of_pos _ (by omega)
  have hsg := (IBig.value_nonneg_iff c1).mpr hc0
  have hna := IBig.natAbs_value (cfg := cfg) c
  have hlt : c.mag.value cfg < n := by omega
  unfold IBig.tryToUnsigned
  rw [hsg]
  simp only
  rw [UBig.tryToUnsigned_spec hv hv.pbits c1.mag, if_pos (by rw [← base_eq]; omega)]
  simp only [unwrapR]
  rw [RingSmall.fromWord_spec h (by omega), Nat.mod_eq_of_lt hlt]
  simp only
  exact ⟨_, hlt, bezout_inverse hb (by omega), ModSmall.new_ok h hlt⟩

theorem ModLarge.inverseOf_spec {cfg : Cfg} (hv : cfg.Valid) {addr : Nat} {r : RingLarge} {n k : Nat}
    (h : r.OK cfg n) {b : UBig} (hbw : b.WF cfg) (hbn : b.value cfg = n) {x : IBig} (hx : x.WF cfg) {y : Int}
    (hb : x.value cfg * k + y * n = (1 : Nat)) :
    ∃ i, i < n ∧ k * i % n = 1 % n ∧
      Returns (ModLarge.inverseOf cfg addr r b x) fun m =>
        m.addr = addr ∧ m.ring = r ∧ r.Has cfg m.words i := by
  have hpos := h.pos
  unfold ModLarge.inverseOf
  obtain ⟨m1, m2⟩ := IBig.ofUBig_spec hv hbw
  obtain ⟨c, e, c1, c2⟩ := (IBig.remEuclid_spec hv .val .val hx m1).1 (by rw [m2]; omega)
  rw [e]
  simp only [bind, Except.bind]
  rw [m2, hbn] at c2
  have hc0 : 0 ≤ c.value cfg := by rw [c2]; exact Int.emod_nonneg _ (by omega)
  have hclt : c.value cfg < n := by rw [c2]; exact Int.emod_lt_of_pos _ (by omega)
  obtain ⟨d, e, d1, d2⟩ := (UBig.tryFromIBig_spec .val c1).1 hc0
  rw [e]
  simp only [unwrapR]
  have hlt : d.value cfg < n := by omega
  exact ⟨_, hlt, bezout_inverse hb (by omega), ModLarge.fromUBig_lt hv h d1 hlt⟩

/-- The possible results of `inverse`. -/
def InverseSpec (cfg : Cfg) (r : Ring) (n k : Nat) (o : Option Modulo) : Prop :=
  (Nat.gcd k n = 1 ∧ ∃ m i, o = some m ∧ Elem cfg r m i ∧ k * i % n = 1 % n) ∨
  (Nat.gcd k n ≠ 1 ∧ o = none)

theorem Modulo.inverse_spec {cfg : Cfg} (hv : cfg.Valid) {r : Ring} {n : Nat} (hr : r.OK cfg n)
    {x : Modulo} {k : Nat} (hx : Elem cfg r x k) :
    RT (¬ Fits cfg (2 * n)) (x.inverse cfg) fun o => InverseSpec cfg r n k o := by
  obtain ⟨hk, ⟨s, e1, e2, rfl⟩ | ⟨l, v, e1, e2, rfl, e3⟩⟩ := elem_cases hr hx
  · have hpos := e2.pos
    have hn : n < base cfg.W := by
      have := e2.lt
      have h2 := Nat.le_mul_of_pos_right n (Nat.two_pow_pos s.shift)
      rw [← e2.eq] at h2
      omega
    simp only [Modulo.inverse]
    unfold ModSmall.inverse RingSmall.residue RingSmall.getModulus
    simp only
    rw [assertR_true (RingSmall.isValid_mul e2 hk), shrW_ok e2.shift, shrW_ok e2.shift,
      Nat.mul_div_cancel _ (Nat.two_pow_pos _), e2.eq, Nat.mul_div_cancel _ (Nat.two_pow_pos _)]
    simp only [bind, Except.bind]
    obtain ⟨ua, e, a1, a2⟩ := UBig.fromUnsigned_ok hv hv.pbits (x := k) (by rw [← base_eq]; omega)
    rw [e]
    simp only
    obtain ⟨ub, e, b1, b2⟩ := UBig.fromUnsigned_ok hv hv.pbits (x := n) (by rw [← base_eq]; omega)
    rw [e]
    simp only
    have hg := (UBig.extendedGcd_spec hv a1 b1).1 (Or.inr (by omega))
    rw [a2, b2, max_eq_right hk.le] at hg
    rcases hg with ⟨⟨g, x, y⟩, e, g1, g2, g3, g4⟩ | ⟨e, hq⟩
    · rw [e]
      simp only at g1 g2 g3 g4 ⊢
      refine Returns.rt ?_
      rw [UBig.beq_one hv g1]
      by_cases hg1 : g.value cfg = 1
      · have hb := g4.eq
        rw [hg1] at hb
        obtain ⟨i, i1, i2, i3⟩ := ModSmall.inverseOf_spec hv (addr := r.addr) e2 g2 hb
        rw [if_pos (by simp [hg1]), i3]
        exact returns_ok.mpr (Or.inl ⟨by rw [← g4.gcd, hg1], _, i, rfl, elem_small e1 e2 i1, i2⟩)
      · rw [if_neg (by simp [hg1])]
        exact returns_ok.mpr (Or.inr ⟨by rw [← g4.gcd]; exact hg1, rfl⟩)
    · rw [e]; exact Or.inr ⟨rfl, hq⟩
  · have hpos := e2.pos
    simp only [Modulo.inverse]
    unfold ModLarge.inverse ModLarge.residue RingLarge.getModulus
    simp only
    obtain ⟨ua, e, a1, a2⟩ := unshift_spec hv e3.words (e3.len.trans_le e2.len) e2.shift e3.eq
    rw [e]
    simp only [bind, Except.bind]
    obtain ⟨ub, e, b1, b2⟩ := unshift_spec hv e2.words e2.len e2.shift e2.eq
    rw [e]
    simp only
    have hg := (UBig.extendedGcd_spec hv a1 b1).1 (Or.inr (by omega))
    rw [a2, b2, max_eq_right hk.le] at hg
    rcases hg with ⟨⟨g, x, y⟩, e, g1, g2, g3, g4⟩ | ⟨e, hq⟩
    · rw [e]
      simp only at g1 g2 g3 g4 ⊢
      refine Returns.rt ?_
      rw [UBig.beq_one hv g1]
      by_cases hg1 : g.value cfg = 1
      · have hb := g4.eq
        rw [hg1] at hb
        obtain ⟨i, i1, i2, ⟨a, l', ws⟩, i3, h3, h4, h5⟩ :=
          ModLarge.inverseOf_spec hv (addr := r.addr) e2 b1 b2 g2 hb
        simp only at h3 h4 h5
        subst h3 h4
        rw [if_pos (by simp [hg1]), i3]
        exact returns_ok.mpr (Or.inl ⟨by rw [← g4.gcd, hg1], _, i, rfl, elem_large e1 e2 h5 i1, i2⟩)
      · rw [if_neg (by simp [hg1])]
        exact returns_ok.mpr (Or.inr ⟨by rw [← g4.gcd]; exact hg1, rfl⟩)
    · rw [e]; exact Or.inr ⟨rfl, hq⟩

/-- `c` is the quotient of `j` by an invertible `k`, and the only one. -/
theorem quotient_mul {n j k i : Nat} (hj : j < n) (hi : k * i % n = 1 % n) :
    (j * i % n) * k % n = j ∧ ∀ c, c < n → c * k % n = j → c = j * i % n := by
  have key : ∀ c, c < n → c * (k * i) % n = c := by
    intro c hc
    rw [Nat.mul_mod, hi, ← Nat.mul_mod, Nat.mul_one, Nat.mod_eq_of_lt hc]
  constructor
  · rw [Nat.mod_mul_mod, show j * i * k = j * (k * i) by ring, key j hj]
  · intro c hc h
    rw [← h, Nat.mod_mul_mod, show c * k * i = c * (k * i) by ring, key c hc]

theorem Modulo.div_spec {cfg : Cfg} (hv : cfg.Valid) {r : Ring} {n : Nat} (hr : r.OK cfg n)
    {x y : Modulo} {j k : Nat} (hx : Elem cfg r x j) (hy : Elem cfg r y k) :
    (Nat.gcd k n = 1 → (∃ m c, Modulo.div cfg x y = .ok m ∧ Elem cfg r m c ∧ c * k % n = j ∧
        ∀ d, d < n → d * k % n = j → d = c) ∨
      (Modulo.div cfg x y = .error .tooLarge ∧ ¬ Fits cfg (2 * n)) ∨
      (Modulo.div cfg x y = .error .outOfMemory ∧ ¬ Fits cfg (n * n))) ∧
    (Nat.gcd k n ≠ 1 → Modulo.div cfg x y = .error .notInvertible ∨
      (Modulo.div cfg x y = .error .tooLarge ∧ ¬ Fits cfg (2 * n))) := by
  have hj := (elem_cases hr hx).1
  unfold Modulo.div
  rcases Modulo.inverse_spec hv hr hy with ⟨o, e, ⟨hg, m, i, rfl, hm, hi⟩ | ⟨hg, rfl⟩⟩ | ⟨e, hq⟩
  · rw [e]
    simp only [bind, Except.bind]
    refine ⟨fun _ => ?_, fun h => absurd hg h⟩
    rcases Modulo.mul_spec hv hr .ref .val hx hm with ⟨z, e2, hz⟩ | ⟨e2, hq⟩
    · obtain ⟨q1, q2⟩ := quotient_mul hj hi
      exact Or.inl ⟨z, _, e2, hz, q1, q2⟩
    · exact Or.inr (Or.inr ⟨e2, hq⟩)
  · rw [e]
    exact ⟨fun h => absurd h hg, fun _ => Or.inl rfl⟩
  · rw [e]
    exact ⟨fun _ => Or.inr (Or.inl ⟨rfl, hq⟩), fun _ => Or.inr ⟨rfl, hq⟩⟩

end Ibig
