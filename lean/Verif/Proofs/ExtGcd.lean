import Verif.Proofs.Gcd
import Verif.Spec.Gcd
/-! Proofs for the extended greatest common divisor. -/
namespace Ibig

/-- `x` returns a value satisfying `P`, or it panics with "number too large", which needs `Q`. -/
def RT {α : Type} (Q : Prop) (x : R α) (P : α → Prop) : Prop := Returns x P ∨ (x = .error .tooLarge ∧ Q)

theorem Returns.rt {α : Type} {Q : Prop} {x : R α} {P : α → Prop} (h : Returns x P) : RT Q x P := Or.inl h

theorem RT.bind {α β : Type} {Q : Prop} {x : R α} {f : α → R β} {P : α → Prop} {P' : β → Prop}
    (hx : RT Q x P) (hf : ∀ a, P a → RT Q (f a) P') : RT Q (x >>= f) P' := by
  rcases hx with ⟨a, rfl, ha⟩ | ⟨rfl, hq⟩
  · exact hf a ha
  · exact Or.inr ⟨rfl, hq⟩

theorem RT.mono {α : Type} {Q : Prop} {x : R α} {P P' : α → Prop} (h : RT Q x P) (hp : ∀ a, P a → P' a) :
    RT Q x P' := by
  rcases h with h | h
  · exact Or.inl (h.mono hp)
  · exact Or.inr h

theorem RT.weaken {α : Type} {Q Q' : Prop} {x : R α} {P : α → Prop} (h : RT Q x P) (hq : Q → Q') :
    RT Q' x P := by
  rcases h with h | ⟨h, h'⟩
  · exact Or.inl h
  · exact Or.inr ⟨h, hq h'⟩

theorem rt_ok {α : Type} {Q : Prop} {a : α} {P : α → Prop} (h : P a) : RT Q (.ok a) P :=
  Or.inl (returns_ok.mpr h)

theorem Yields.rt {cfg : Cfg} {x : R UBig} {n B : Nat} (h : Yields cfg x n) (hB : n ≤ B) :
    RT (¬Fits cfg B) x fun c => c.WF cfg ∧ c.value cfg = n := by
  by_cases hf : Fits cfg n
  · exact Or.inl (h.1 hf)
  · exact Or.inr ⟨h.2 hf, fun hb => hf (hb.mono hB)⟩

/-- The invariant of each triple: `a = x*u - y*v`. -/
structure GInv (cfg : Cfg) (U V : Nat) (p : GcdTriple) : Prop where
  a : p.a.WF cfg
  x : p.x.WF cfg
  y : p.y.WF cfg
  eq : p.a.value cfg + p.y.value cfg * V = p.x.value cfg * U
  x_le : p.x.value cfg ≤ V
  y_le : p.y.value cfg ≤ U
  a_le : p.a.value cfg ≤ V

theorem parity_step {a x y U V : Nat} (h : a + y * V = x * U) (ha : a % 2 = 0)
    (hUV : ¬(U % 2 = 0 ∧ V % 2 = 0)) (hxy : ¬(x % 2 = 0 ∧ y % 2 = 0)) :
    (x + V) % 2 = 0 ∧ (y + U) % 2 = 0 := by
  have h1 : (a + y * V) % 2 = x * U % 2 := by rw [h]
  rw [Nat.add_mod, ha, Nat.mul_mod y, Nat.mul_mod x] at h1
  have hx := Nat.mod_two_eq_zero_or_one x
  have hy := Nat.mod_two_eq_zero_or_one y
  have hU := Nat.mod_two_eq_zero_or_one U
  have hV := Nat.mod_two_eq_zero_or_one V
  rcases hx with hx | hx <;> rcases hy with hy | hy <;> rcases hU with hU | hU <;>
    rcases hV with hV | hV <;> rw [hx, hy, hU, hV] at h1 <;> simp at h1 <;> omega

theorem GcdTriple.addUV_spec {cfg : Cfg} (hv : cfg.Valid) {u v : UBig} (hu : u.WF cfg) (hw : v.WF cfg)
    {p : GcdTriple} (hp : GInv cfg (u.value cfg) (v.value cfg) p) :
    RT (¬Fits cfg (2 * max (u.value cfg) (v.value cfg))) (p.addUV cfg u v) fun r =>
      r.a = p.a ∧ r.x.WF cfg ∧ r.y.WF cfg ∧ r.x.value cfg = p.x.value cfg + v.value cfg ∧
      r.y.value cfg = p.y.value cfg + u.value cfg := by
  have h1 := hp.x_le
  have h2 := hp.y_le
  unfold GcdTriple.addUV
  refine RT.bind ((UBig.add_spec hv .val .ref hp.x hw).rt (by omega)) ?_
  rintro x ⟨wx, vx⟩
  refine RT.bind ((UBig.add_spec hv .val .ref hp.y hu).rt (by omega)) ?_
  rintro y ⟨wy, vy⟩
  exact rt_ok ⟨rfl, wx, wy, vx, vy⟩

theorem GcdTriple.makeEven_spec {cfg : Cfg} (hv : cfg.Valid) {u v : UBig} (hu : u.WF cfg) (hw : v.WF cfg)
    (hUV : ¬(u.value cfg % 2 = 0 ∧ v.value cfg % 2 = 0)) {p : GcdTriple}
    (hp : GInv cfg (u.value cfg) (v.value cfg) p) (he : p.a.value cfg % 2 = 0) :
    RT (¬Fits cfg (2 * max (u.value cfg) (v.value cfg))) (p.makeEven cfg u v) fun r =>
      r.a = p.a ∧ r.x.WF cfg ∧ r.y.WF cfg ∧ r.x.value cfg % 2 = 0 ∧ r.y.value cfg % 2 = 0 ∧
      r.x.value cfg ≤ 2 * v.value cfg ∧ r.y.value cfg ≤ 2 * u.value cfg ∧
      r.a.value cfg + r.y.value cfg * v.value cfg = r.x.value cfg * u.value cfg := by
  have h1 := hp.x_le
  have h2 := hp.y_le
  unfold GcdTriple.makeEven
  rw [UBig.isEven_spec hv hp.x, UBig.isEven_spec hv hp.y]
  show RT _ (if (!decide (p.x.value cfg % 2 = 0) || !decide (p.y.value cfg % 2 = 0)) = true then _ else _) _
  split
  · rename_i hc
    have hc' : ¬(p.x.value cfg % 2 = 0 ∧ p.y.value cfg % 2 = 0) := by
      rw [← decide_not, ← decide_not, Bool.or_eq_true, decide_eq_true_iff, decide_eq_true_iff] at hc
      omega
    have hpar := parity_step hp.eq he hUV hc'
    refine (GcdTriple.addUV_spec hv hu hw hp).mono ?_
    rintro r ⟨ra, rx, ry, vx, vy⟩
    refine ⟨ra, rx, ry, by omega, by omega, by omega, by omega, ?_⟩
    rw [ra, vx, vy, Nat.add_mul, Nat.add_mul, Nat.mul_comm (v.value cfg) (u.value cfg)]
    have := hp.eq
    omega
  · rename_i hc
    have hc' : p.x.value cfg % 2 = 0 ∧ p.y.value cfg % 2 = 0 := by
      rw [← decide_not, ← decide_not, Bool.or_eq_true, decide_eq_true_iff, decide_eq_true_iff] at hc
      omega
    exact rt_ok ⟨rfl, hp.x, hp.y, hc'.1, hc'.2, by omega, by omega, hp.eq⟩

theorem halve_eq {a x y U V : Nat} (h : a + y * V = x * U) (ha : a % 2 = 0) (hx : x % 2 = 0)
    (hy : y % 2 = 0) : a / 2 + y / 2 * V = x / 2 * U := by
  obtain ⟨a, rfl⟩ : ∃ k, a = 2 * k := ⟨a / 2, by omega⟩
  obtain ⟨x, rfl⟩ : ∃ k, x = 2 * k := ⟨x / 2, by omega⟩
  obtain ⟨y, rfl⟩ : ∃ k, y = 2 * k := ⟨y / 2, by omega⟩
  rw [Nat.mul_div_cancel_left _ (by omega), Nat.mul_div_cancel_left _ (by omega),
    Nat.mul_div_cancel_left _ (by omega)]
  rw [Nat.mul_assoc, Nat.mul_assoc] at h
  omega

theorem GcdTriple.halve_spec {cfg : Cfg} (hv : cfg.Valid) {u v : UBig} (hu : u.WF cfg) (hw : v.WF cfg)
    (hUV : ¬(u.value cfg % 2 = 0 ∧ v.value cfg % 2 = 0)) : ∀ (n : Nat) {p : GcdTriple},
    GInv cfg (u.value cfg) (v.value cfg) p → p.a.value cfg ≠ 0 → p.a.value cfg < 2 ^ n →
    RT (¬Fits cfg (2 * max (u.value cfg) (v.value cfg))) (p.halve cfg u v (n + 1)) fun r =>
      GInv cfg (u.value cfg) (v.value cfg) r ∧ r.a.value cfg % 2 = 1 ∧
      ∃ z, p.a.value cfg = 2 ^ z * r.a.value cfg := by
  intro n
  induction n with
  | zero => intro p _ h0 h1; rw [Nat.pow_zero] at h1; omega
  | succ n ih =>
    intro p hp h0 hlt
    unfold GcdTriple.halve
    rw [UBig.isEven_spec hv hp.a]
    show RT _ (if decide (p.a.value cfg % 2 = 0) = true then _ else _) _
    split
    · rename_i hc
      have he := of_decide_eq_true hc
      refine RT.bind (GcdTriple.makeEven_spec hv hu hw hUV hp he) ?_
      rintro r ⟨ra, rx, ry, ex, ey, lx, ly, req⟩
      refine RT.bind (UBig.shr_spec hv .val (ra ▸ hp.a : r.a.WF cfg) 1).rt ?_
      rintro a ⟨wa, va⟩
      refine RT.bind (UBig.shr_spec hv .val rx 1).rt ?_
      rintro x ⟨wx, vx⟩
      refine RT.bind (UBig.shr_spec hv .val ry 1).rt ?_
      rintro y ⟨wy, vy⟩
      rw [pow_one] at va vx vy
      rw [ra] at va req
      rw [Nat.pow_succ] at hlt
      have hle := hp.a_le
      have hinv : GInv cfg (u.value cfg) (v.value cfg) ⟨a, x, y⟩ := by
        refine ⟨wa, wx, wy, ?_, ?_, ?_, ?_⟩
        · show a.value cfg + y.value cfg * _ = x.value cfg * _
          rw [va, vx, vy]; exact halve_eq req he ex ey
        · show x.value cfg ≤ _
          omega
        · show y.value cfg ≤ _
          omega
        · show a.value cfg ≤ _
          omega
      refine (ih hinv (by show a.value cfg ≠ 0; omega) (by show a.value cfg < _; omega)).mono ?_
      rintro t ⟨t1, t2, z, t3⟩
      refine ⟨t1, t2, z + 1, ?_⟩
      have t4 : a.value cfg = 2 ^ z * t.a.value cfg := t3
      rw [Nat.pow_succ, Nat.mul_comm (2 ^ z) 2, Nat.mul_assoc, ← t4]
      omega
    · rename_i hc
      have he : ¬p.a.value cfg % 2 = 0 := fun h => hc (decide_eq_true h)
      exact rt_ok ⟨hp, by omega, 0, by simp⟩

theorem GcdTriple.makeGe_spec {cfg : Cfg} (hv : cfg.Valid) {u v : UBig} (hu : u.WF cfg) (hw : v.WF cfg)
    {p q : GcdTriple} (hp : GInv cfg (u.value cfg) (v.value cfg) p)
    (hq : GInv cfg (u.value cfg) (v.value cfg) q) {a : UBig} :
    RT (¬Fits cfg (2 * max (u.value cfg) (v.value cfg))) (GcdTriple.makeGe cfg u v ⟨a, p.x, p.y⟩ q) fun r =>
      r.a = a ∧ r.x.WF cfg ∧ r.y.WF cfg ∧ q.x.value cfg ≤ r.x.value cfg ∧
      r.x.value cfg ≤ q.x.value cfg + v.value cfg ∧
      p.a.value cfg + r.y.value cfg * v.value cfg = r.x.value cfg * u.value cfg := by
  have h1 := hp.x_le
  have h2 := hp.y_le
  have h3 := hq.x_le
  unfold GcdTriple.makeGe
  simp only
  rw [UBig.lt_spec hv hp.x hq.x]
  show RT _ (if decide (p.x.value cfg < q.x.value cfg) = true then _ else _) _
  split
  · rename_i hc
    have hc' := of_decide_eq_true hc
    unfold GcdTriple.addUV
    simp only
    refine RT.bind ((UBig.add_spec hv .val .ref hp.x hw).rt (by omega)) ?_
    rintro x ⟨wx, vx⟩
    refine RT.bind ((UBig.add_spec hv .val .ref hp.y hu).rt (by omega)) ?_
    rintro y ⟨wy, vy⟩
    refine rt_ok ⟨rfl, wx, wy, ?_, ?_, ?_⟩
    · show _ ≤ x.value cfg
      omega
    · show x.value cfg ≤ _
      omega
    · show p.a.value cfg + y.value cfg * _ = x.value cfg * _
      rw [vx, vy, Nat.add_mul, Nat.add_mul, Nat.mul_comm (v.value cfg) (u.value cfg)]
      have := hp.eq
      omega
  · rename_i hc
    have hc' : ¬p.x.value cfg < q.x.value cfg := fun h => hc (decide_eq_true h)
    exact rt_ok ⟨rfl, hp.x, hp.y, by show _ ≤ p.x.value cfg; omega, by show p.x.value cfg ≤ _; omega, hp.eq⟩

theorem sub_step {A a X x Y y U V : Nat} (h1 : A + Y * V = X * U) (h2 : a + y * V = x * U) (hx : x ≤ X)
    (hxv : X ≤ x + V) (ha : a ≤ A) (hAV : A - a < V) :
    y ≤ Y ∧ (A - a) + (Y - y) * V = (X - x) * U ∧ Y - y ≤ U := by
  have hxU : x * U ≤ X * U := Nat.mul_le_mul_right _ hx
  have hy : y ≤ Y := by
    by_contra h
    have : (Y + 1) * V ≤ y * V := Nat.mul_le_mul_right _ (by omega)
    rw [Nat.add_mul, Nat.one_mul] at this
    omega
  have hyV : y * V ≤ Y * V := Nat.mul_le_mul_right _ hy
  have e : (A - a) + (Y - y) * V = (X - x) * U := by
    rw [Nat.sub_mul, Nat.sub_mul]; omega
  refine ⟨hy, e, ?_⟩
  have h3 : (X - x) * U ≤ V * U := Nat.mul_le_mul_right _ (by omega)
  have h4 : (Y - y) * V ≤ U * V := by rw [Nat.mul_comm U V]; omega
  exact Nat.le_of_mul_le_mul_right h4 (by omega)

theorem extGcdLoop_spec {cfg : Cfg} (hv : cfg.Valid) {u v : UBig} (hu : u.WF cfg) (hw : v.WF cfg)
    (hUV : ¬(u.value cfg % 2 = 0 ∧ v.value cfg % 2 = 0)) : ∀ (n : Nat) {p q : GcdTriple},
    GInv cfg (u.value cfg) (v.value cfg) p → GInv cfg (u.value cfg) (v.value cfg) q →
    q.a.value cfg % 2 = 1 → GcdBound (p.a.value cfg) (q.a.value cfg) n →
    RT (¬Fits cfg (2 * max (u.value cfg) (v.value cfg))) (extGcdLoop cfg u v (n + 1) p q) fun r =>
      GInv cfg (u.value cfg) (v.value cfg) r ∧
      r.a.value cfg = Nat.gcd (p.a.value cfg) (q.a.value cfg) := by
  intro n
  induction n with
  | zero =>
    intro p q hp hq hodd hn
    have h0 : p.a.value cfg = 0 := by
      by_contra h0
      obtain ⟨k, hk1, hk2⟩ := UBig.trailingZeros_spec hv hp.a
      cases k with
      | none => exact h0 hk2
      | some k =>
        simp only at hk2
        obtain ⟨h1, h2⟩ := odd_shift hk2.1 hk2.2.1 hk2.2.2
        have := hn h0 k _ h1 h2
        rw [Nat.pow_zero, Nat.lt_one_iff, Nat.mul_eq_zero] at this
        omega
    unfold extGcdLoop
    rw [if_pos ((UBig.beq_zero hv hp.a).mpr h0)]
    exact rt_ok ⟨hq, by rw [h0, Nat.gcd_zero_left]⟩
  | succ n ih =>
    intro p q hp hq hodd hn
    unfold extGcdLoop
    by_cases h0 : p.a.value cfg = 0
    · rw [if_pos ((UBig.beq_zero hv hp.a).mpr h0)]
      exact rt_ok ⟨hq, by rw [h0, Nat.gcd_zero_left]⟩
    rw [if_neg (fun h => h0 ((UBig.beq_zero hv hp.a).mp h))]
    refine RT.bind (GcdTriple.halve_spec hv hu hw hUV _ hp h0 (UBig.value_lt_len hp.a)) ?_
    rintro r ⟨hr, rodd, z, hz⟩
    rw [UBig.lt_spec hv hr.a hq.a]
    refine RT.bind (P := fun s => s = decide (r.a.value cfg < q.a.value cfg)) (rt_ok rfl) ?_
    intro s hs
    rw [hs]
    obtain ⟨hle, hps⟩ := swap_cases (v := fun t : GcdTriple => t.a.value cfg) (a := r) (b := q)
    generalize (if decide (r.a.value cfg < q.a.value cfg) = true then (q, r) else (r, q)) = s at *
    have w1 : GInv cfg (u.value cfg) (v.value cfg) s.1 := by
      rcases hps with ⟨e1, e2⟩ | ⟨e1, e2⟩ <;> rw [e1] <;> assumption
    have w2 : GInv cfg (u.value cfg) (v.value cfg) s.2 := by
      rcases hps with ⟨e1, e2⟩ | ⟨e1, e2⟩ <;> rw [e2] <;> assumption
    have o2 : s.2.a.value cfg % 2 = 1 := by
      rcases hps with ⟨e1, e2⟩ | ⟨e1, e2⟩ <;> rw [e2] <;> assumption
    have hg : Nat.gcd (s.1.a.value cfg) (s.2.a.value cfg) = Nat.gcd (p.a.value cfg) (q.a.value cfg) := by
      rw [hz, gcd_two_pow_mul hodd]
      rcases hps with ⟨e1, e2⟩ | ⟨e1, e2⟩ <;> rw [e1, e2]
      rw [Nat.gcd_comm]
    have hb : GcdBound (s.1.a.value cfg - s.2.a.value cfg) (s.2.a.value cfg) n := by
      refine hn.step (c := r.a.value cfg) (z := z) h0 hz rodd hodd ?_ hle
      rcases hps with ⟨e1, e2⟩ | ⟨e1, e2⟩ <;> rw [e1, e2] <;> simp
    refine RT.bind (((UBig.sub_spec hv .val .ref w1.a w2.a).1 hle).returns
      ((w1.a.fits hv).mono (Nat.sub_le _ _))).rt ?_
    rintro d ⟨hd, vd⟩
    refine RT.bind (GcdTriple.makeGe_spec hv hu hw w1 w2) ?_
    rintro t ⟨ta, tx, ty, t1, t2, t3⟩
    have hlt : s.1.a.value cfg - s.2.a.value cfg < v.value cfg := by
      have := w1.a_le
      omega
    obtain ⟨y1, y2, y3⟩ := sub_step t3 w2.eq t1 t2 hle hlt
    refine RT.bind (((UBig.sub_spec hv .val .ref tx w2.x).1 t1).returns
      ((tx.fits hv).mono (Nat.sub_le _ _))).rt ?_
    rintro x ⟨hx, vx⟩
    refine RT.bind (((UBig.sub_spec hv .val .ref ty w2.y).1 y1).returns
      ((ty.fits hv).mono (Nat.sub_le _ _))).rt ?_
    rintro y ⟨hy, vy⟩
    rw [ta]
    have hinv : GInv cfg (u.value cfg) (v.value cfg) ⟨d, x, y⟩ := by
      refine ⟨hd, hx, hy, ?_, ?_, ?_, ?_⟩
      · show d.value cfg + y.value cfg * _ = x.value cfg * _
        rw [vd, vx, vy]; exact y2
      · show x.value cfg ≤ _
        omega
      · show y.value cfg ≤ _
        omega
      · show d.value cfg ≤ _
        omega
    refine (ih hinv w2 o2 (by show GcdBound (d.value cfg) _ _; rw [vd]; exact hb)).mono ?_
    rintro g ⟨g1, g2⟩
    refine ⟨g1, ?_⟩
    rw [g2]
    show Nat.gcd (d.value cfg) _ = _
    rw [vd, Nat.gcd_sub_self_left hle, hg]

theorem extGcdStart_spec {cfg : Cfg} (hv : cfg.Valid) {u v : UBig} (hu : u.WF cfg) (hw : v.WF cfg)
    (u0 : u.value cfg ≠ 0) (v0 : v.value cfg ≠ 0) :
    Returns (extGcdStart cfg u v) fun s => GInv cfg (u.value cfg) (v.value cfg) s.1 ∧
      GInv cfg (u.value cfg) (v.value cfg) s.2 ∧
      Nat.gcd (s.1.a.value cfg) (s.2.a.value cfg) = Nat.gcd (u.value cfg) (v.value cfg) := by
  have hW := hv.W1
  have hb1 : 1 < base cfg.W := by rw [base_eq]; exact Nat.one_lt_two_pow (by omega)
  have one : (UBig.small 1).WF cfg := wf_small hb1
  have hu1 := ((UBig.sub_spec hv .ref .val hu one).1 (by show 1 ≤ _; omega)).returns
      ((hu.fits hv).mono (Nat.sub_le _ _))
  unfold extGcdStart
  rw [UBig.le_spec hv hu hw]
  show Returns (if decide (u.value cfg ≤ v.value cfg) = true then _ else _) _
  split
  · rename_i hc
    have hc' := of_decide_eq_true hc
    refine Returns.bind ((UBig.divRem_spec hv .ref .ref hw hu).1 u0) ?_
    rintro ⟨q, r⟩ ⟨wq, wr, vq, vr⟩
    simp only at wq wr vq vr ⊢
    refine Returns.bind (UBig.clone_spec hu) ?_
    rintro a ⟨wa, va⟩
    have hqv : q.value cfg ≤ v.value cfg := by rw [vq]; exact Nat.div_le_self _ _
    refine Returns.bind (((UBig.sub_spec hv .ref .val hw wq).1 hqv).returns
      ((hw.fits hv).mono (Nat.sub_le _ _))) ?_
    rintro bx ⟨wbx, vbx⟩
    refine Returns.bind hu1 ?_
    rintro by' ⟨wby, vby⟩
    have hrlt : r.value cfg < u.value cfg := by rw [vr]; exact Nat.mod_lt _ (by omega)
    have vby' : by'.value cfg = u.value cfg - 1 := vby
    refine returns_ok.mpr ⟨⟨wa, one, wf_zero cfg, ?_, ?_, ?_, ?_⟩, ⟨wr, wbx, wby, ?_, ?_, ?_, ?_⟩, ?_⟩
    · show a.value cfg + 0 * _ = 1 * _
      rw [va]; omega
    · show 1 ≤ _
      omega
    · show 0 ≤ _
      omega
    · show a.value cfg ≤ _
      omega
    · show r.value cfg + by'.value cfg * _ = bx.value cfg * _
      rw [vbx, vby', Nat.sub_mul, Nat.sub_mul, vr, vq, Nat.one_mul, Nat.mul_comm (v.value cfg) (u.value cfg)]
      have h5 := Nat.div_add_mod' (v.value cfg) (u.value cfg)
      have h6 : v.value cfg ≤ u.value cfg * v.value cfg := Nat.le_mul_of_pos_left _ (by omega)
      omega
    · show bx.value cfg ≤ _
      omega
    · show by'.value cfg ≤ _
      omega
    · show r.value cfg ≤ _
      omega
    · show Nat.gcd (a.value cfg) (r.value cfg) = _
      rw [va, vr, Nat.gcd_comm, ← Nat.gcd_rec]
  · rename_i hc
    have hc' : ¬u.value cfg ≤ v.value cfg := fun h => hc (decide_eq_true h)
    refine Returns.bind ((UBig.divRem_spec hv .ref .ref hu hw).1 v0) ?_
    rintro ⟨q, r⟩ ⟨wq, wr, vq, vr⟩
    simp only at wq wr vq vr ⊢
    refine Returns.bind (UBig.clone_spec hw) ?_
    rintro a ⟨wa, va⟩
    refine Returns.bind (UBig.clone_spec hw) ?_
    rintro ax ⟨wax, vax⟩
    refine Returns.bind hu1 ?_
    rintro ay ⟨way, vay⟩
    have vay' : ay.value cfg = u.value cfg - 1 := vay
    have hrlt : r.value cfg < v.value cfg := by rw [vr]; exact Nat.mod_lt _ (by omega)
    refine returns_ok.mpr ⟨⟨wa, wax, way, ?_, ?_, ?_, ?_⟩, ⟨wr, one, wq, ?_, ?_, ?_, ?_⟩, ?_⟩
    · show a.value cfg + ay.value cfg * _ = ax.value cfg * _
      rw [va, vay', vax, Nat.sub_mul, Nat.one_mul, Nat.mul_comm (v.value cfg) (u.value cfg)]
      have h6 : v.value cfg ≤ u.value cfg * v.value cfg := Nat.le_mul_of_pos_left _ (by omega)
      omega
    · show ax.value cfg ≤ _
      omega
    · show ay.value cfg ≤ _
      omega
    · show a.value cfg ≤ _
      omega
    · show r.value cfg + q.value cfg * _ = 1 * _
      rw [vr, vq, Nat.one_mul]
      have h5 := Nat.div_add_mod' (u.value cfg) (v.value cfg)
      omega
    · show 1 ≤ _
      omega
    · show q.value cfg ≤ _
      rw [vq]; exact Nat.div_le_self _ _
    · show r.value cfg ≤ _
      omega
    · show Nat.gcd (a.value cfg) (r.value cfg) = _
      rw [va, vr, Nat.gcd_comm, ← Nat.gcd_rec, Nat.gcd_comm]

/-- The intermediate values are at most twice the arguments, once the common factors of two are removed. -/
theorem UBig.extendedGcdNonzero_spec {cfg : Cfg} (hv : cfg.Valid) {a b : UBig} (ha : a.WF cfg)
    (hb : b.WF cfg) {i j : Nat}
    (hi : a.value cfg ≠ 0 ∧ 2 ^ i ∣ a.value cfg ∧ ¬2 ^ (i + 1) ∣ a.value cfg)
    (hj : b.value cfg ≠ 0 ∧ 2 ^ j ∣ b.value cfg ∧ ¬2 ^ (j + 1) ∣ b.value cfg) :
    RT (¬Fits cfg (2 * max (a.value cfg / 2 ^ min i j) (b.value cfg / 2 ^ min i j)))
      (UBig.extendedGcdNonzero cfg a b (min i j)) fun r =>
      r.1.WF cfg ∧ r.2.1.WF cfg ∧ r.2.2.WF cfg ∧
      Bezout (r.1.value cfg) (r.2.1.value cfg) (r.2.2.value cfg) (a.value cfg) (b.value cfg) := by
  have hzU : min i j < 2 ^ cfg.U := lt_of_le_of_lt (Nat.min_le_left _ _) (UBig.zeros_lt hv ha hi.1 hi.2.1)
  have da : 2 ^ min i j ∣ a.value cfg := dvd_trans (pow_dvd_pow 2 (Nat.min_le_left _ _)) hi.2.1
  have db : 2 ^ min i j ∣ b.value cfg := dvd_trans (pow_dvd_pow 2 (Nat.min_le_right _ _)) hj.2.1
  have hpar : ¬(a.value cfg / 2 ^ min i j % 2 = 0 ∧ b.value cfg / 2 ^ min i j % 2 = 0) := by
    rintro ⟨e1, e2⟩
    have d1 : 2 ^ (min i j + 1) ∣ a.value cfg := by
      rw [Nat.pow_succ]
      exact Nat.mul_dvd_of_dvd_div da (Nat.dvd_of_mod_eq_zero e1)
    have d2 : 2 ^ (min i j + 1) ∣ b.value cfg := by
      rw [Nat.pow_succ]
      exact Nat.mul_dvd_of_dvd_div db (Nat.dvd_of_mod_eq_zero e2)
    rcases Nat.le_total i j with h | h
    · rw [Nat.min_eq_left h] at d1; exact hi.2.2 d1
    · rw [Nat.min_eq_right h] at d2; exact hj.2.2 d2
  generalize min i j = z at *
  have hZ : 0 < 2 ^ z := Nat.two_pow_pos z
  unfold UBig.extendedGcdNonzero
  refine RT.bind (UBig.shr_spec hv .ref ha z).rt ?_
  rintro u ⟨hu, vu⟩
  refine RT.bind (UBig.shr_spec hv .ref hb z).rt ?_
  rintro v ⟨hw, vv⟩
  rw [← vu, ← vv] at hpar
  have eu : a.value cfg = 2 ^ z * u.value cfg := by rw [vu, Nat.mul_div_cancel' da]
  have ev : b.value cfg = 2 ^ z * v.value cfg := by rw [vv, Nat.mul_div_cancel' db]
  have u0 : u.value cfg ≠ 0 := fun h => hi.1 (by rw [eu, h, Nat.mul_zero])
  have v0 : v.value cfg ≠ 0 := fun h => hj.1 (by rw [ev, h, Nat.mul_zero])
  have ule : u.value cfg ≤ a.value cfg := by rw [vu]; exact Nat.div_le_self _ _
  have vle : v.value cfg ≤ b.value cfg := by rw [vv]; exact Nat.div_le_self _ _
  have hQ : ¬Fits cfg (2 * max (u.value cfg) (v.value cfg)) →
      ¬Fits cfg (2 * max (a.value cfg / 2 ^ z) (b.value cfg / 2 ^ z)) := by rw [vu, vv]; exact id
  refine RT.bind (extGcdStart_spec hv hu hw u0 v0).rt ?_
  rintro ⟨p, q⟩ ⟨hp, hq, hg⟩
  simp only at hp hq hg ⊢
  rw [UBig.isEven_spec hv hq.a]
  refine RT.bind (P := fun s => s = decide (q.a.value cfg % 2 = 0)) (rt_ok rfl) ?_
  intro e he
  subst he
  have hsw : ∃ s : GcdTriple × GcdTriple,
      (if decide (q.a.value cfg % 2 = 0) = true then (q, p) else (p, q)) = s ∧
      GInv cfg (u.value cfg) (v.value cfg) s.1 ∧ GInv cfg (u.value cfg) (v.value cfg) s.2 ∧
      s.2.a.value cfg % 2 = 1 ∧
      Nat.gcd (s.1.a.value cfg) (s.2.a.value cfg) = Nat.gcd (u.value cfg) (v.value cfg) := by
    by_cases h : q.a.value cfg % 2 = 0
    · refine ⟨(q, p), by rw [decide_eq_true h, if_pos rfl], hq, hp, ?_, by rw [Nat.gcd_comm]; exact hg⟩
      by_contra h'
      have h2 : p.a.value cfg % 2 = 0 := by simp only at h'; omega
      have h3 : 2 ∣ Nat.gcd (u.value cfg) (v.value cfg) := by
        rw [← hg]; exact Nat.dvd_gcd (Nat.dvd_of_mod_eq_zero h2) (Nat.dvd_of_mod_eq_zero h)
      exact hpar ⟨Nat.mod_eq_zero_of_dvd (dvd_trans h3 (Nat.gcd_dvd_left _ _)),
        Nat.mod_eq_zero_of_dvd (dvd_trans h3 (Nat.gcd_dvd_right _ _))⟩
    · exact ⟨(p, q), by rw [decide_eq_false h, if_neg (by simp)], hp, hq, by simp only; omega, hg⟩
  obtain ⟨s, hs, s1, s2, s3, s4⟩ := hsw
  rw [hs]
  have hloop := extGcdLoop_spec hv hu hw hpar _ s1 s2 s3 (gcdBound_start s1.a s2.a)
  refine RT.bind (hloop.weaken hQ) ?_
  rintro r ⟨hr, hrg⟩
  have hval : r.a.value cfg * 2 ^ z = Nat.gcd (a.value cfg) (b.value cfg) := by
    rw [hrg, s4, eu, ev, Nat.gcd_mul_left, Nat.mul_comm]
  have hsh := UBig.shl_spec hv .val hr.a hzU
  rw [hval] at hsh
  refine RT.bind (hsh.returns (gcd_fits hv ha hb)).rt ?_
  rintro g ⟨wg, vg⟩
  obtain ⟨x1, x2⟩ := IBig.ofUBig_spec hv hr.x
  obtain ⟨y1, y2⟩ := IBig.ofUBig_spec hv hr.y
  obtain ⟨z1, z2⟩ := IBig.neg_spec hv y1
  refine rt_ok ⟨wg, x1, z1, vg, ?_, ?_, ?_⟩
  · show (IBig.ofUBig r.x).value cfg * _ + (IBig.ofUBig r.y).neg.value cfg * _ = (g.value cfg : Int)
    rw [x2, z2, y2, vg, ← hval, eu, ev]
    have h5 : ((r.a.value cfg + r.y.value cfg * v.value cfg : Nat) : Int) =
      ((r.x.value cfg * u.value cfg : Nat) : Int) := by rw [hr.eq]
    push_cast at h5 ⊢
    linear_combination (-(2 : Int) ^ z) * h5
  · show ((IBig.ofUBig r.x).value cfg).natAbs ≤ _
    rw [x2, Int.natAbs_natCast]
    have := hr.x_le
    omega
  · show ((IBig.ofUBig r.y).neg.value cfg).natAbs ≤ _
    rw [z2, y2, Int.natAbs_neg, Int.natAbs_natCast]
    have := hr.y_le
    omega

theorem UBig.extendedGcd_parity {cfg : Cfg} (hv : cfg.Valid) {x y : UBig} (hx : x.WF cfg) (hy : y.WF cfg) :
    (x.value cfg ≠ 0 ∨ y.value cfg ≠ 0 →
      RT (¬Fits cfg (2 * max (x.value cfg) (y.value cfg)) ∧ ¬(2 ∣ x.value cfg ∧ 2 ∣ y.value cfg)) (UBig.extendedGcd cfg x y) fun r =>
        r.1.WF cfg ∧ r.2.1.WF cfg ∧ r.2.2.WF cfg ∧
        Bezout (r.1.value cfg) (r.2.1.value cfg) (r.2.2.value cfg) (x.value cfg) (y.value cfg)) ∧
    (x.value cfg = 0 → y.value cfg = 0 → UBig.extendedGcd cfg x y = .error .gcdZero) := by
  unfold UBig.extendedGcd
  obtain ⟨az, az1, az2⟩ := UBig.trailingZeros_spec hv hx
  obtain ⟨bz, bz1, bz2⟩ := UBig.trailingZeros_spec hv hy
  rw [az1]
  show (_ → RT _ (do let bz ← y.trailingZeros cfg; _) _) ∧ (_ → _ → (do let bz ← y.trailingZeros cfg; _) = _)
  rw [bz1]
  have c0 := IBig.fromUnsigned_spec hv (Or.inl rfl : PBits 8) (x := 0) (by norm_num)
  have c1 := IBig.fromUnsigned_spec hv (Or.inl rfl : PBits 8) (x := 1) (by norm_num)
  cases az with
  | none =>
    simp only at az2
    cases bz with
    | none => simp only at bz2; exact ⟨fun h => by omega, fun _ _ => rfl⟩
    | some j =>
      simp only at bz2
      refine ⟨fun _ => ?_, fun _ h => absurd h bz2.1⟩
      show RT _ (do let g ← y.clone cfg; _) _
      refine RT.bind (UBig.clone_spec hy).rt ?_
      rintro g ⟨wg, vg⟩
      refine RT.bind c0.rt ?_
      rintro d0 ⟨w0, v0⟩
      refine RT.bind c1.rt ?_
      rintro d1 ⟨w1, v1⟩
      refine rt_ok ⟨wg, w0, w1, ⟨?_, ?_, ?_, ?_⟩⟩
      · show g.value cfg = _
        rw [vg, az2, Nat.gcd_zero_left]
      · show d0.value cfg * _ + d1.value cfg * _ = (g.value cfg : Int)
        rw [v0, v1, vg]; simp
      · show (d0.value cfg).natAbs ≤ _
        rw [v0]; simp
      · show (d1.value cfg).natAbs ≤ _
        rw [v1]; simp
  | some i =>
    simp only at az2
    refine ⟨fun _ => ?_, fun h => absurd h az2.1⟩
    cases bz with
    | none =>
      simp only at bz2
      show RT _ (do let g ← x.clone cfg; _) _
      refine RT.bind (UBig.clone_spec hx).rt ?_
      rintro g ⟨wg, vg⟩
      refine RT.bind c1.rt ?_
      rintro d1 ⟨w1, v1⟩
      refine RT.bind c0.rt ?_
      rintro d0 ⟨w0, v0⟩
      refine rt_ok ⟨wg, w1, w0, ⟨?_, ?_, ?_, ?_⟩⟩
      · show g.value cfg = _
        rw [vg, bz2, Nat.gcd_zero_right]
      · show d1.value cfg * _ + d0.value cfg * _ = (g.value cfg : Int)
        rw [v0, v1, vg]; simp
      · show (d1.value cfg).natAbs ≤ _
        rw [v1]; simp
      · show (d0.value cfg).natAbs ≤ _
        rw [v0]; simp
    | some j =>
      simp only at bz2
      refine (UBig.extendedGcdNonzero_spec hv hx hy az2 bz2).weaken fun h => ⟨fun h' => h (h'.mono ?_), fun h' => ?_⟩
      · have := Nat.div_le_self (x.value cfg) (2 ^ min i j)
        have := Nat.div_le_self (y.value cfg) (2 ^ min i j)
        omega
      · have one : ∀ {n k : Nat}, 2 ∣ n → ¬2 ^ (k + 1) ∣ n → 1 ≤ k := by
          intro n k h1 h2
          rcases Nat.eq_zero_or_pos k with rfl | h3
          · exact absurd (by simpa using h1) h2
          · exact h3
        have hz : 2 ^ 1 ≤ 2 ^ min i j :=
          Nat.pow_le_pow_right (by norm_num) (le_min (one h'.1 az2.2.2) (one h'.2 bz2.2.2))
        have d1 : x.value cfg / 2 ^ min i j ≤ x.value cfg / 2 ^ 1 := Nat.div_le_div_left hz (by norm_num)
        have d2 : y.value cfg / 2 ^ min i j ≤ y.value cfg / 2 ^ 1 := Nat.div_le_div_left hz (by norm_num)
        rcases le_total (x.value cfg) (y.value cfg) with hl | hl
        · exact h ((hy.fits hv).mono (by omega))
        · exact h ((hx.fits hv).mono (by omega))

theorem UBig.extendedGcd_spec {cfg : Cfg} (hv : cfg.Valid) {x y : UBig} (hx : x.WF cfg) (hy : y.WF cfg) :
    (x.value cfg ≠ 0 ∨ y.value cfg ≠ 0 →
      RT (¬Fits cfg (2 * max (x.value cfg) (y.value cfg))) (UBig.extendedGcd cfg x y) fun r =>
        r.1.WF cfg ∧ r.2.1.WF cfg ∧ r.2.2.WF cfg ∧
        Bezout (r.1.value cfg) (r.2.1.value cfg) (r.2.2.value cfg) (x.value cfg) (y.value cfg)) ∧
    (x.value cfg = 0 → y.value cfg = 0 → UBig.extendedGcd cfg x y = .error .gcdZero) :=
  ⟨fun h => ((UBig.extendedGcd_parity hv hx hy).1 h).weaken And.left, (UBig.extendedGcd_parity hv hx hy).2⟩

end Ibig
