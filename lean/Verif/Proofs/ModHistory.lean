import Verif.Spec.ModHistory
import Verif.Proofs.History
import Verif.Props.ModularFmt
/-! Programs with rings refine the mathematical programs. -/
namespace Ibig

/-- `x` is the element `e`. -/
def GoodE (cfg : Cfg) (s : MState) (v : MathState) (x : Modulo) (e : MElem) : Prop :=
  v.ring e.ring = some e.n ∧ ∃ r, s.ring e.ring = some r ∧ Elem cfg r x e.k

def RefE (cfg : Cfg) (s : MState) (v : MathState) (x : R Modulo) (y : R MElem) : Prop :=
  match y with
  | .ok e => ∃ m, x = .ok m ∧ GoodE cfg s v m e
  | .error p => x = .error p

def RefM (cfg : Cfg) (addr : Nat → Nat) (x : R (MState × List Obs)) (y : R (MathState × List Obs)) : Prop :=
  match y with
  | .ok (v, o) => ∃ s, x = .ok (s, o) ∧ MState.Means cfg addr s v
  | .error p => x = .error p

variable {cfg : Cfg} {addr : Nat → Nat} {s : MState} {v : MathState}

theorem MState.Means.ring_none (h : MState.Means cfg addr s v) {k : Nat} (hk : v.ring k = none) : s.ring k = none := by
  have := h.ring k
  rw [hk] at this
  generalize s.ring k = a at this ⊢
  match a, this with
  | none, _ => rfl

theorem MState.Means.ring_some (h : MState.Means cfg addr s v) {k n : Nat} (hk : v.ring k = some n) :
    ∃ r, s.ring k = some r ∧ IsRing cfg r n ∧ r.addr = addr k := by
  have := h.ring k
  rw [hk] at this
  generalize s.ring k = a at this ⊢
  match a, this with
  | some r, h => exact ⟨r, rfl, h⟩

theorem MState.Means.elem_none (h : MState.Means cfg addr s v) {k : Nat} (hk : v.elem k = none) : s.elem k = none := by
  have := h.elem k
  rw [hk] at this
  generalize s.elem k = a at this ⊢
  match a, this with
  | none, _ => rfl

theorem MState.Means.elem_some (h : MState.Means cfg addr s v) {k : Nat} {e : MElem} (hk : v.elem k = some e) :
    ∃ x r, s.elem k = some x ∧ v.ring e.ring = some e.n ∧ s.ring e.ring = some r ∧ IsRing cfg r e.n ∧
      r.addr = addr e.ring ∧ Elem cfg r x e.k := by
  have h0 := h.elem k
  rw [hk] at h0
  generalize s.elem k = a at h0 ⊢
  match a, h0 with
  | some x, ⟨h1, r, h2, h3⟩ =>
    obtain ⟨r', g1, g2, g3⟩ := h.ring_some h1
    rw [h2] at g1
    cases g1
    exact ⟨x, r, rfl, h1, h2, g2, g3, h3⟩

theorem Elem.addr_eq {r : Ring} {x : Modulo} {k : Nat} (h : Elem cfg r x k) : x.addr = r.addr := by
  unfold Elem at h
  cases hr : r.repr <;> cases x <;> rw [hr] at h <;> first | exact h.1 | exact h.elim

theorem RefM.putE (h : MState.Means cfg addr s v) (d : Nat) {x : R Modulo} {y : R MElem}
    (hxy : RefE cfg s v x y) : RefM cfg addr (s.putE d x) (v.putE d y) := by
  match y, hxy with
  | .error p, hxy =>
    have hxy : x = .error p := hxy
    rw [hxy]; rfl
  | .ok e, ⟨m, e1, h1⟩ =>
    rw [e1]
    refine ⟨_, rfl, h.wf, h.values, h.ring, fun k => ?_⟩
    simp only
    by_cases hk : k = d
    · rw [if_pos hk, if_pos hk]; exact h1
    · rw [if_neg hk, if_neg hk]; exact h.elem k

theorem RefM.putU (h : MState.Means cfg addr s v) (d : Nat) {x : R UBig} {y : R Nat}
    (hxy : RefU cfg x y) : RefM cfg addr (s.putU d x) (v.putU d y) := by
  match y, hxy with
  | .error p, hxy =>
    have hxy : x = .error p := hxy
    rw [hxy]; rfl
  | .ok e, ⟨m, e1, h1, h2⟩ =>
    rw [e1]
    refine ⟨_, rfl, ?_, ?_, h.ring, h.elem⟩
    · exact (h.wf.setU d h1).1
    · show (s.n.setU d m).values cfg = v.n.setU d e
      rw [(h.wf.setU d h1).2, h.values, h2]

theorem RefM.see (h : MState.Means cfg addr s v) {x y : R Obs} (hxy : x = y) :
    RefM cfg addr (s.see x) (v.see y) := by
  subst hxy
  cases x with
  | error p => rfl
  | ok o => exact ⟨s, rfl, h⟩

theorem RefM.putN (h : MState.Means cfg addr s v) {x : R (Store UBig IBig × List Obs)}
    {y : R (Store Nat Int × List Obs)} (hxy : RefS cfg x y) : RefM cfg addr (s.putN x) (v.putN y) := by
  match y, hxy with
  | .error p, hxy =>
    have hxy : x = .error p := hxy
    rw [hxy]; rfl
  | .ok (w, o), ⟨t, e1, h1, h2⟩ =>
    rw [e1]
    exact ⟨_, rfl, h1, h2, h.ring, h.elem⟩

theorem RefM.putRing (ha : Function.Injective addr) (h : MState.Means cfg addr s v) (d : Nat) {r : Ring} {n : Nat}
    (hr : IsRing cfg r n) (hra : r.addr = addr d) :
    RefM cfg addr (s.putRing d (fun x => x.addr == addr d) (.ok r)) (v.putRing d (fun e => e.ring == d) (.ok n)) := by
  refine ⟨_, rfl, h.wf, h.values, fun k => ?_, fun k => ?_⟩
  · simp only
    by_cases hk : k = d
    · rw [if_pos hk, if_pos hk]; exact ⟨hr, by rw [hra, hk]⟩
    · rw [if_neg hk, if_neg hk]; exact h.ring k
  · simp only
    cases hv : v.elem k with
    | none => rw [h.elem_none hv]; trivial
    | some e =>
      obtain ⟨x, r', e1, e2, e3, h1, h2, h3⟩ := h.elem_some hv
      rw [e1]
      have hx := h3.addr_eq
      by_cases hk : e.ring = d
      · have : x.addr = addr d := by rw [hx, h2, hk]
        simp [Option.filter, hk, this]
      · have : x.addr ≠ addr d := by
          rw [hx, h2]; exact fun hh => hk (ha hh)
        simp only [Option.filter, beq_eq_false_iff_ne.mpr hk, beq_eq_false_iff_ne.mpr this, Bool.not_false, if_true,
          if_neg hk]
        exact ⟨e2, r', e3, h3⟩

/-! ### Residues -/

theorem val_eq_of_int {n k : Nat} (hn : n ≠ 0) {z : Int} (h : (k : Int) = z % n) : k = (z : ZMod n).val := by
  haveI : NeZero n := ⟨hn⟩
  have := ZMod.val_intCast (n := n) z
  rw [← this] at h
  exact_mod_cast h

theorem inv_val {n k i : Nat} (hn : n ≠ 0) (hg : Nat.gcd k n = 1) (hi : i < n) (h : k * i % n = 1 % n) :
    i = ((k : ZMod n)⁻¹).val := by
  haveI : NeZero n := ⟨hn⟩
  have h1 : (k : ZMod n) * (i : ZMod n) = 1 := by
    have : ((k * i : Nat) : ZMod n) = ((1 : Nat) : ZMod n) := (ZMod.natCast_eq_natCast_iff' _ _ _).mpr h
    push_cast at this
    exact this
  have h2 : (k : ZMod n) * (k : ZMod n)⁻¹ = 1 := ZMod.coe_mul_inv_eq_one k hg
  have h3 : (k : ZMod n)⁻¹ = i := by
    calc (k : ZMod n)⁻¹ = (k : ZMod n)⁻¹ * (k * i) := by rw [h1, mul_one]
      _ = (k * (k : ZMod n)⁻¹) * i := by ring
      _ = i := by rw [h2, one_mul]
  rw [h3, ZMod.val_natCast, Nat.mod_eq_of_lt hi]

theorem traitText_nat {t : FmtTrait} {f : FmtFlags} {n : Nat} {text : List Nat}
    (h : Prints f (traitRadix t) (decide (t = .upperHex)) false n
      (if f.alternate then (traitPrefix t).toList.map Char.toNat else []) (.ok text)) :
    text = traitText t f (n : Int) := by
  have h2 : 2 ≤ traitRadix t := by cases t <;> decide
  have h36 : traitRadix t ≤ 36 := by cases t <;> decide
  have := Prints.eq (z := (n : Int)) h2 h36 (by
    rw [Int.natAbs_natCast, decide_eq_false (by omega)]; exact h)
  exact Except.ok.inj this

/-- An error because of the limits of the build, which happens only if `Q`. -/
def Out {α : Type} (Q : Prop) (x : R α) : Prop := (x = .error .tooLarge ∨ x = .error .outOfMemory) ∧ Q

theorem Out.putE {Q : Prop} {x : R Modulo} (h : Out Q x) (d : Nat) : Out Q (s.putE d x) := by
  obtain ⟨h | h, q⟩ := h
  · exact ⟨Or.inl (by rw [h]; rfl), q⟩
  · exact ⟨Or.inr (by rw [h]; rfl), q⟩

theorem refM_putE {Q : Prop} (h : MState.Means cfg addr s v) (d : Nat) {x : R Modulo} {y : R MElem}
    (hxy : RefE cfg s v x y ∨ Out Q x) : RefM cfg addr (s.putE d x) (v.putE d y) ∨ Out Q (s.putE d x) :=
  hxy.imp (RefM.putE h d) (Out.putE · d)

theorem ref_ring1 {Q : Prop} (h : MState.Means cfg addr s v) (k : Nat) {f : Ring → R Modulo} {g : Nat → R MElem}
    (H : ∀ r n, v.ring k = some n → s.ring k = some r → IsRing cfg r n →
      RefE cfg s v (f r) (g n) ∨ Out Q (f r)) :
    RefE cfg s v (do f (← unwrapR (s.ring k))) (do g (← unwrapR (v.ring k))) ∨
      Out Q (do f (← unwrapR (s.ring k))) := by
  cases hk : v.ring k with
  | none => rw [h.ring_none hk]; exact Or.inl rfl
  | some n =>
    obtain ⟨r, e, h1, h2⟩ := h.ring_some hk
    have := H r n hk e h1
    rw [e]
    exact this

theorem ref_elem1 {Q : Prop} (h : MState.Means cfg addr s v) (k : Nat) {f : Modulo → R Modulo} {g : MElem → R MElem}
    (H : ∀ x e r, v.elem k = some e → v.ring e.ring = some e.n → s.ring e.ring = some r → IsRing cfg r e.n →
      r.addr = addr e.ring → Elem cfg r x e.k → RefE cfg s v (f x) (g e) ∨ Out Q (f x)) :
    RefE cfg s v (do f (← unwrapR (s.elem k))) (do g (← unwrapR (v.elem k))) ∨
      Out Q (do f (← unwrapR (s.elem k))) := by
  cases hk : v.elem k with
  | none => rw [h.elem_none hk]; exact Or.inl rfl
  | some n =>
    obtain ⟨x, r, e, h1, h2, h3, h4, h5⟩ := h.elem_some hk
    have := H x n r hk h1 h2 h3 h4 h5
    rw [e]
    exact this

theorem ref_elem2 {Q : Prop} (ha : Function.Injective addr) (h : MState.Means cfg addr s v) (j k : Nat)
    {f : Modulo → Modulo → R Modulo} {g : MElem → MElem → R MElem}
    (H : ∀ x e r y e' r', v.elem j = some e → v.elem k = some e' → v.ring e.ring = some e.n →
      s.ring e.ring = some r →
      IsRing cfg r e.n → Elem cfg r x e.k → IsRing cfg r' e'.n → Elem cfg r' y e'.k →
      ((e.ring = e'.ring ∧ r = r' ∧ e.n = e'.n) ∨ (e.ring ≠ e'.ring ∧ r.addr ≠ r'.addr)) →
      RefE cfg s v (f x y) (g e e') ∨ Out Q (f x y)) :
    RefE cfg s v (do f (← unwrapR (s.elem j)) (← unwrapR (s.elem k)))
      (do let x ← unwrapR (v.elem j); let y ← unwrapR (v.elem k); g x y) ∨
      Out Q (do f (← unwrapR (s.elem j)) (← unwrapR (s.elem k))) := by
  cases hj : v.elem j with
  | none => rw [h.elem_none hj]; exact Or.inl rfl
  | some e =>
    obtain ⟨x, r, e1, h1, h2, h3, h4, h5⟩ := h.elem_some hj
    rw [e1]
    cases hk : v.elem k with
    | none => rw [h.elem_none hk]; exact Or.inl rfl
    | some e' =>
      obtain ⟨y, r', e1', h1', h2', h3', h4', h5'⟩ := h.elem_some hk
      rw [e1']
      refine H x e r y e' r' hj hk h1 h2 h3 h5 h3' h5' ?_
      by_cases hh : e.ring = e'.ring
      · left
        rw [← hh] at h1' h2'
        rw [h1] at h1'
        rw [h2] at h2'
        exact ⟨hh, Option.some.inj h2', Option.some.inj h1'⟩
      · right
        rw [h4, h4']
        exact ⟨hh, fun x => hh (ha x)⟩

/-- One instruction. -/
theorem MInstr.ref (hv : cfg.Valid) (ha : Function.Injective addr) (be : Bool) (h : MState.Means cfg addr s v)
    {c : MInstr} (hc : c.OK cfg) :
    RefM cfg addr (c.exec cfg be addr s) (c.math cfg.bits v) ∨ Out (¬ c.Room cfg v) (c.exec cfg be addr s) := by
  have hu : ∀ k, (s.n.u k).value cfg = v.n.u k := fun k => by rw [← h.values]; rfl
  have hi : ∀ k, (s.n.i k).value cfg = v.n.i k := fun k => by rw [← h.values]; rfl
  cases c with
  | num c =>
    left
    have := Instr.ref hv be h.wf (c := c) hc
    rw [h.values] at this
    exact RefM.putN h this
  | ring d a =>
    left
    simp only [MInstr.exec, MInstr.math]
    obtain ⟨h1, h2⟩ := C27_new hv (addr d) (h.wf.1 a)
    rw [hu] at h1 h2
    unfold unlessZero
    by_cases h0 : v.n.u a = 0
    · rw [h2 h0, if_pos h0]; rfl
    · obtain ⟨r, e, e1, e2, -⟩ := h1 h0
      rw [e, if_neg h0]
      exact RefM.putRing ha h d e2 e1
  | ofU o d r a =>
    refine refM_putE h d (ref_ring1 h r fun r' n h1 h2 h3 => ?_)
    obtain ⟨g1, g2⟩ := C27_from_ubig hv h3 o (h.wf.1 a)
    rw [hu] at g1 g2
    by_cases hq : Accepts cfg n (v.n.u a)
    · obtain ⟨m, e, g⟩ := g1 hq
      refine Or.inl ⟨m, e, h1, r', h2, ?_⟩
      simp only [ZMod.val_natCast]
      exact g
    · exact Or.inr ⟨Or.inl (g2 hq), fun hr => hq (hr n h1)⟩
  | ofI o d r a =>
    refine refM_putE h d (ref_ring1 h r fun r' n h1 h2 h3 => ?_)
    have hn := (h3.ok hv).pos
    obtain ⟨g1, g2⟩ := C27_from_ibig hv h3 o (h.wf.2 a)
    rw [hi] at g1 g2
    by_cases hq : Accepts cfg n (v.n.i a).natAbs
    · obtain ⟨m, k, e, g, g'⟩ := g1 hq
      refine Or.inl ⟨m, e, h1, r', h2, ?_⟩
      simp only
      rw [← val_eq_of_int (by omega) g']
      exact g
    · exact Or.inr ⟨Or.inl (g2 hq), fun hr => hq (hr n h1)⟩
  | ofPrim d r t z =>
    refine refM_putE h d (ref_ring1 h r fun r' n h1 h2 h3 => ?_)
    have hn := (h3.ok hv).pos
    obtain ⟨⟨m, k, e, g, g'⟩, -⟩ := C27_from_primitive hv h3 hc.1 hc.2
    refine Or.inl ⟨m, e, h1, r', h2, ?_⟩
    simp only
    rw [← val_eq_of_int (by omega) g']
    exact g
  | ofBool d r b =>
    refine refM_putE h d (ref_ring1 h r fun r' n h1 h2 h3 => ?_)
    obtain ⟨-, g⟩ := C27_from_primitive hv h3 (t := .u 8) (Or.inl rfl) (z := 0) (by simp [PTy.InRange])
    obtain ⟨m, e, g⟩ := g b
    refine Or.inl ⟨m, e, h1, r', h2, ?_⟩
    simp only
    rw [← ZMod.val_natCast] at g
    cases b <;> simpa using g
  | neg d a =>
    refine refM_putE h d (ref_elem1 h a fun x e r h1 h2 h3 h4 h5 h6 => ?_)
    have hn := (h4.ok hv).pos
    obtain ⟨⟨m, i, e1, g, g'⟩, -⟩ := C27_add_sub_neg_eq hv h4 .val .val h6 h6
    refine Or.inl ⟨m, e1, h2, r, h3, ?_⟩
    have := val_eq_of_int (by omega) g'
    push_cast at this
    simp only [MElem.put]
    rw [← this]
    exact g
  | add o1 o2 d a b =>
    refine refM_putE h d (ref_elem2 ha h a b fun x e r y e' r' h1 h2 h3 h4 h5 h6 h7 h8 h9 => Or.inl ?_)
    have hn := (h5.ok hv).pos
    unfold sameRing
    rcases h9 with ⟨g1, rfl, g3⟩ | ⟨g1, g2⟩
    · rw [if_pos g1]
      obtain ⟨-, ⟨m, i, e1, g, g'⟩, -⟩ := C27_add_sub_neg_eq hv h5 o1 o2 h6 h8
      refine ⟨m, e1, h3, r, h4, ?_⟩
      have := val_eq_of_int (by omega) g'
      push_cast at this
      simp only [MElem.put]
      rw [← this]
      exact g
    · rw [if_neg g1]
      exact (C30_different_rings hv h5 h7 g2 h6 h8 o1 o2).1
  | sub o1 o2 d a b =>
    refine refM_putE h d (ref_elem2 ha h a b fun x e r y e' r' h1 h2 h3 h4 h5 h6 h7 h8 h9 => Or.inl ?_)
    have hn := (h5.ok hv).pos
    unfold sameRing
    rcases h9 with ⟨g1, rfl, g3⟩ | ⟨g1, g2⟩
    · rw [if_pos g1]
      obtain ⟨-, -, ⟨m, i, e1, g, g'⟩, -⟩ := C27_add_sub_neg_eq hv h5 o1 o2 h6 h8
      refine ⟨m, e1, h3, r, h4, ?_⟩
      have := val_eq_of_int (by omega) g'
      push_cast at this
      simp only [MElem.put]
      rw [← this]
      exact g
    · rw [if_neg g1]
      exact (C30_different_rings hv h5 h7 g2 h6 h8 o1 o2).2.1
  | mul o1 o2 d a b =>
    refine refM_putE h d (ref_elem2 ha h a b fun x e r y e' r' h1 h2 h3 h4 h5 h6 h7 h8 h9 => ?_)
    have hn := (h5.ok hv).pos
    unfold sameRing
    rcases h9 with ⟨g1, rfl, g3⟩ | ⟨g1, g2⟩
    · rw [if_pos g1]
      rcases C27_mul hv h5 o1 o2 h6 h8 with ⟨m, e1, g⟩ | ⟨e1, g⟩
      · refine Or.inl ⟨m, e1, h3, r, h4, ?_⟩
        rw [← ZMod.val_natCast] at g
        push_cast at g
        exact g
      · exact Or.inr ⟨Or.inr e1, fun hr => g (hr e h1)⟩
    · rw [if_neg g1]
      exact Or.inl (C30_different_rings hv h5 h7 g2 h6 h8 o1 o2).2.2.1
  | div d a b =>
    refine refM_putE h d (ref_elem2 ha h a b fun x e r y e' r' h1 h2 h3 h4 h5 h6 h7 h8 h9 => ?_)
    have hn := (h5.ok hv).pos
    unfold unlessUnit sameRing
    rcases h9 with ⟨g1, rfl, g3⟩ | ⟨g1, g2⟩
    · rw [if_pos g1]
      obtain ⟨k1, k2⟩ := C28_div hv h5 h6 h8
      rw [← g3]
      by_cases hg : Nat.gcd e'.k e.n = 1
      · rw [if_pos hg]
        rcases k1 hg with ⟨m, c, e1, k3, k4, -⟩ | ⟨e1, k3⟩ | ⟨e1, k3⟩
        · refine Or.inl ⟨m, e1, h3, r, h4, ?_⟩
          have hc := (elem_cases (h5.ok hv) k3).1
          have : c = ((e.k : ZMod e.n) * (e'.k : ZMod e.n)⁻¹).val := by
            have h2 : (e'.k : ZMod e.n) * (e'.k : ZMod e.n)⁻¹ = 1 := ZMod.coe_mul_inv_eq_one _ hg
            have h1 : (e.k : ZMod e.n) = c * e'.k := by
              rw [← k4]; push_cast; simp
            rw [h1, mul_assoc, h2, mul_one, ZMod.val_natCast, Nat.mod_eq_of_lt hc]
          simp only [MElem.put]
          rw [← this]
          exact k3
        · exact Or.inr ⟨Or.inl e1, fun hr => k3 (g3 ▸ hr.2 e' h2)⟩
        · exact Or.inr ⟨Or.inr e1, fun hr => k3 (hr.1 e h1)⟩
      · rw [if_neg hg]
        rcases k2 hg with e1 | ⟨e1, k3⟩
        · exact Or.inl e1
        · exact Or.inr ⟨Or.inl e1, fun hr => k3 (g3 ▸ hr.2 e' h2)⟩
    · rw [if_neg g1]
      rcases C28_inverse hv h7 h8 with ⟨hg, m, i, e1, hm, -⟩ | ⟨hg, e1⟩ | ⟨e1, k3⟩
      · rw [if_pos hg]
        left
        show Modulo.div cfg x y = _
        unfold Modulo.div
        rw [e1]
        exact (C30_different_rings hv h5 h7 g2 h6 hm .ref .val).2.2.1
      · rw [if_neg hg]
        left
        show Modulo.div cfg x y = _
        unfold Modulo.div
        rw [e1]
        rfl
      · right
        refine ⟨Or.inl ?_, fun hr => k3 (hr.2 e' h2)⟩
        unfold Modulo.div
        rw [e1]
        rfl
  | inverse d a =>
    simp only [MInstr.exec, MInstr.math]
    cases hk : v.elem a with
    | none => rw [h.elem_none hk]; exact Or.inl rfl
    | some e =>
      obtain ⟨x, r, e1, h1, h2, h3, h4, h5⟩ := h.elem_some hk
      have hn := (h3.ok hv).pos
      rw [e1]
      rcases C28_inverse hv h3 h5 with ⟨hg, m, i, e2, k1, k2⟩ | ⟨hg, e2⟩ | ⟨e2, hg⟩
      · left
        have hi := (elem_cases (h3.ok hv) k1).1
        have := inv_val (by omega) hg hi k2
        have := RefM.putE h d (x := .ok m) (y := .ok (e.put (e.k : ZMod e.n)⁻¹))
          ⟨m, rfl, h1, r, h2, by simp only [MElem.put]; rw [← this]; exact k1⟩
        obtain ⟨t, j1, j2⟩ := this
        cases j1
        simp only [unwrapR, bind, Except.bind, e2, pure, Except.pure, if_pos hg, MStore.putOptE]
        exact ⟨_, rfl, j2⟩
      · left
        simp only [unwrapR, bind, Except.bind, e2, pure, Except.pure, if_neg hg, MStore.putOptE]
        exact ⟨_, rfl, h⟩
      · right
        simp only [unwrapR, bind, Except.bind, e2, MStore.putOptE]
        exact ⟨Or.inl rfl, fun hr => hg (hr e hk)⟩
  | pow d a e =>
    refine refM_putE h d (ref_elem1 h a fun x el r h1 h2 h3 h4 h5 h6 => ?_)
    rcases C29_pow hv h4 h6 (h.wf.1 e) with ⟨m, e1, g⟩ | ⟨e1, g⟩
    · refine Or.inl ⟨m, e1, h2, r, h3, ?_⟩
      rw [hu, ← ZMod.val_natCast] at g
      push_cast at g
      exact g
    · refine Or.inr ⟨Or.inr e1, fun hr => g ?_⟩
      rw [hu, ← size_eq_bitLen]
      exact hr el h1
  | powSigned d a e =>
    refine refM_putE h d (ref_elem1 h a fun x el r h1 h2 h3 h4 h5 h6 => ?_)
    have hn := (h4.ok hv).pos
    obtain ⟨k1, k2, k3⟩ := C29_pow_signed hv h4 h6 (h.wf.2 e)
    rw [hi] at k1 k2 k3
    by_cases h0 : 0 ≤ v.n.i e
    · rw [if_pos h0]
      rcases k1 h0 with ⟨m, e1, g⟩ | ⟨e1, g⟩
      · refine Or.inl ⟨m, e1, h2, r, h3, ?_⟩
        rw [← ZMod.val_natCast, show (v.n.i e).toNat = (v.n.i e).natAbs by omega] at g
        push_cast at g
        exact g
      · refine Or.inr ⟨Or.inr e1, fun hr => g ?_⟩
        rw [← size_eq_bitLen]
        exact (hr el h1).2
    · rw [if_neg h0]
      unfold unlessUnit
      by_cases hg : Nat.gcd el.k el.n = 1
      · rw [if_pos hg]
        rcases k2 (by omega) hg with ⟨m, c, e1, g1, g2⟩ | ⟨e1, g⟩ | ⟨e1, g⟩
        · refine Or.inl ⟨m, e1, h2, r, h3, ?_⟩
          have hc := (elem_cases (h4.ok hv) g1).1
          have hg' : Nat.gcd (el.k ^ (v.n.i e).natAbs) el.n = 1 := Nat.Coprime.pow_left _ hg
          have h7 := inv_val (by omega) hg' hc (by rw [Nat.mul_comm]; exact g2)
          have h8 : (((el.k ^ (v.n.i e).natAbs : Nat) : ZMod el.n))⁻¹ = (el.k : ZMod el.n)⁻¹ ^ (v.n.i e).natAbs := by
            have a1 : (((el.k ^ (v.n.i e).natAbs : Nat) : ZMod el.n)) * (((el.k ^ (v.n.i e).natAbs : Nat) : ZMod el.n))⁻¹ = 1 :=
              ZMod.coe_mul_inv_eq_one _ hg'
            have a2 : (el.k : ZMod el.n) * (el.k : ZMod el.n)⁻¹ = 1 := ZMod.coe_mul_inv_eq_one _ hg
            generalize (((el.k ^ (v.n.i e).natAbs : Nat) : ZMod el.n))⁻¹ = z at a1 ⊢
            push_cast at a1
            calc z = z * ((el.k : ZMod el.n) * (el.k : ZMod el.n)⁻¹) ^ (v.n.i e).natAbs := by rw [a2]; simp
              _ = ((el.k : ZMod el.n) ^ (v.n.i e).natAbs * z) * (el.k : ZMod el.n)⁻¹ ^ (v.n.i e).natAbs := by
                rw [mul_pow]; ring
              _ = _ := by rw [a1, one_mul]
          rw [h8] at h7
          simp only [MElem.put]
          rw [← h7]
          exact g1
        · exact Or.inr ⟨Or.inl e1, fun hr => g (hr el h1).1⟩
        · refine Or.inr ⟨Or.inr e1, fun hr => g ?_⟩
          rw [← size_eq_bitLen]
          exact (hr el h1).2
      · rw [if_neg hg]
        rcases k3 (by omega) hg with e1 | ⟨e1, g⟩
        · exact Or.inl e1
        · exact Or.inr ⟨Or.inl e1, fun hr => g (hr el h1).1⟩
  | clone d a =>
    have := ref_elem1 (Q := False) h a (f := fun x => pure x.clone) (g := fun e => .ok e)
      fun x e r h1 h2 h3 h4 h5 h6 => Or.inl ⟨x.clone, rfl, h2, r, h3, (C35_modulo_clone h6).1⟩
    rcases this with g | ⟨-, g⟩
    · left
      have e : (do let e ← unwrapR (v.elem a); .ok e) = unwrapR (v.elem a) := by
        cases v.elem a <;> rfl
      rw [e] at g
      exact RefM.putE h d g
    · exact g.elim
  | cloneFrom d a =>
    simp only [MInstr.exec, MInstr.math]
    left
    refine RefM.putE h d ?_
    cases hd : v.elem d with
    | none => rw [h.elem_none hd]; rfl
    | some e =>
      obtain ⟨x, r, e1, -⟩ := h.elem_some hd
      rw [e1]
      cases hk : v.elem a with
      | none => rw [h.elem_none hk]; rfl
      | some e' =>
        obtain ⟨y, r', e1', h1, h2, h3, h4, h5⟩ := h.elem_some hk
        rw [e1']
        obtain ⟨m, e2, k⟩ := (C35_modulo_clone h5).2 x
        exact ⟨m, e2, h1, r', h2, k⟩
  | residue d a =>
    left
    refine RefM.putU h d ?_
    cases hk : v.elem a with
    | none => rw [h.elem_none hk]; rfl
    | some e =>
      obtain ⟨x, r, e1, h1, h2, h3, h4, h5⟩ := h.elem_some hk
      rw [e1]
      obtain ⟨-, c, e2, k⟩ := C27_residue hv h3 h5
      exact ⟨c, e2, k⟩
  | modulus d r =>
    left
    refine RefM.putU h d ?_
    cases hk : v.ring r with
    | none => rw [h.ring_none hk]; rfl
    | some n =>
      obtain ⟨r', e1, h1, h2⟩ := h.ring_some hk
      rw [e1]
      exact Ring.modulus_spec hv (h1.ok hv)
  | eq a b =>
    left
    refine RefM.see h ?_
    cases hj : v.elem a with
    | none => rw [h.elem_none hj]; rfl
    | some e =>
      obtain ⟨x, r, e1, h1, h2, h3, h4, h5⟩ := h.elem_some hj
      rw [e1]
      cases hk : v.elem b with
      | none => rw [h.elem_none hk]; rfl
      | some e' =>
        obtain ⟨y, r', e1', h1', h2', h3', h4', h5'⟩ := h.elem_some hk
        rw [e1']
        simp only [unwrapR, bind, Except.bind]
        unfold sameRing
        by_cases hh : e.ring = e'.ring
        · rw [← hh] at h1' h2'
          rw [h2] at h2'
          cases h2'
          rw [if_pos hh, Modulo.eq_spec (h3.ok hv) h5 h5']
          rfl
        · rw [if_neg hh, (C30_different_rings hv h3 h3' (by rw [h4, h4']; exact fun x => hh (ha x)) h5 h5' .val .val).2.2.2.1]
  | ringEq r r' =>
    left
    refine RefM.see h ?_
    cases hj : v.ring r with
    | none => rw [h.ring_none hj]; rfl
    | some n =>
      obtain ⟨x, e1, h1, h2⟩ := h.ring_some hj
      rw [e1]
      cases hk : v.ring r' with
      | none => rw [h.ring_none hk]; rfl
      | some n' =>
        obtain ⟨x', e1', h1', h2'⟩ := h.ring_some hk
        rw [e1']
        simp only [unwrapR, bind, Except.bind, Ring.eq, pure, Except.pure, h2, h2']
        by_cases hh : r = r'
        · rw [hh]; simp
        · have : addr r ≠ addr r' := fun x => hh (ha x)
          simp [hh, this]
  | fmt t f a =>
    left
    refine RefM.see h ?_
    cases hk : v.elem a with
    | none => rw [h.elem_none hk]; rfl
    | some e =>
      obtain ⟨x, r, e1, h1, h2, h3, h4, h5⟩ := h.elem_some hk
      rw [e1]
      obtain ⟨t1, t2, e2, k1, k2⟩ := C45_modulo hv be t f h3 h5
      simp only [unwrapR, bind, Except.bind, e2, pure, Except.pure]
      rw [traitText_nat k1, traitText_nat k2]
      simp [elemText, ringText]
  | ringFmt t f r =>
    left
    refine RefM.see h ?_
    cases hk : v.ring r with
    | none => rw [h.ring_none hk]; rfl
    | some n =>
      obtain ⟨r', e1, h1, h2⟩ := h.ring_some hk
      rw [e1]
      obtain ⟨t1, e2, k1⟩ := C45_ring hv be t f h1
      simp only [unwrapR, bind, Except.bind, e2, pure, Except.pure]
      rw [traitText_nat k1]
      rfl

/-- A program. -/
theorem runModular_ref (hv : cfg.Valid) (ha : Function.Injective addr) (be : Bool) (p : List MInstr)
    (hp : ∀ c ∈ p, c.OK cfg) (h : MState.Means cfg addr s v) :
    RefM cfg addr (runModular cfg be addr p s) (mathModular cfg.bits p v) ∨
    Out (∃ q c q' w seen, p = q ++ c :: q' ∧ mathModular cfg.bits q v = .ok (w, seen) ∧ ¬ c.Room cfg w)
      (runModular cfg be addr p s) := by
  induction p generalizing s v with
  | nil => exact Or.inl ⟨s, rfl, h⟩
  | cons c p ih =>
    have h1 := MInstr.ref hv ha be h (hp c (List.mem_cons_self ..))
    rcases h1 with h1 | ⟨h1, h2⟩
    · unfold runModular
      rw [mathModular]
      generalize hy : c.math cfg.bits v = y at h1 ⊢
      match y, h1 with
      | .error e, h1 =>
        have h1 : c.exec cfg be addr s = .error e := h1
        rw [h1]; exact Or.inl rfl
      | .ok (w, o), ⟨t, h2, h3⟩ =>
        rw [h2]
        have g := ih (fun c hc => hp c (List.mem_cons_of_mem _ hc)) h3
        simp only [bind, Except.bind]
        rcases g with g | ⟨g, q, c', q', w', seen, rfl, k2, k3⟩
        · generalize mathModular cfg.bits p w = z at g ⊢
          match z, g with
          | .error e, g =>
            have g : runModular cfg be addr p t = .error e := g
            rw [g]; exact Or.inl rfl
          | .ok (w', os), ⟨t', g1, g2⟩ =>
            rw [g1]
            exact Or.inl ⟨t', rfl, g2⟩
        · refine Or.inr ⟨?_, c :: q, c', q', w', o ++ seen, rfl, ?_, k3⟩
          · rcases g with g | g
            · exact Or.inl (by rw [g])
            · exact Or.inr (by rw [g])
          · rw [mathModular, hy]
            simp only [bind, Except.bind]
            rw [k2]
            rfl
    · refine Or.inr ⟨?_, [], c, p, v, [], rfl, rfl, h2⟩
      unfold runModular
      rcases h1 with h1 | h1
      · exact Or.inl (by rw [h1]; rfl)
      · exact Or.inr (by rw [h1]; rfl)

/-! ### Panics -/

/-- `x` gives a result or a documented panic. -/
def DocsM {α : Type} (x : R α) : Prop := ∀ e, x = .error e → DocumentedM e

theorem docsM_ok {α : Type} (a : α) : DocsM (.ok a : R α) := by intro e h; cases h

theorem DocsM.bind {α β : Type} {x : R α} {f : α → R β} (hx : DocsM x) (hf : ∀ a, DocsM (f a)) : DocsM (x >>= f) := by
  cases x with
  | error p => intro e h; exact hx e (by cases h; rfl)
  | ok a => exact hf a

theorem docsM_unwrap {α : Type} {x : Option α} (h : x ≠ none) : DocsM (unwrapR x) := by
  cases x with
  | none => exact absurd rfl h
  | some a => exact docsM_ok a

theorem docsM_sameRing {α : Type} (e f : MElem) {x : R α} (h : DocsM x) : DocsM (sameRing e f x) := by
  unfold sameRing
  split
  · exact h
  · intro e h; cases h; exact Or.inr (Or.inl rfl)

theorem docsM_unlessUnit {α : Type} (e : MElem) {x : R α} (h : DocsM x) : DocsM (unlessUnit e x) := by
  unfold unlessUnit
  split
  · exact h
  · intro e h; cases h; exact Or.inr (Or.inr rfl)

theorem DocsM.putE {x : R MElem} (h : DocsM x) (d : Nat) : DocsM (v.putE d x) := DocsM.bind h fun _ => docsM_ok _
theorem DocsM.putU {x : R Nat} (h : DocsM x) (d : Nat) : DocsM (v.putU d x) := DocsM.bind h fun _ => docsM_ok _
theorem DocsM.see {x : R Obs} (h : DocsM x) : DocsM (v.see x) := DocsM.bind h fun _ => docsM_ok _

theorem MInstr.docs (N : Nat) (v : MathState) (c : MInstr) (h : c.Defined v) : DocsM (c.math N v) := by
  cases c with
  | num c =>
    exact DocsM.bind (fun e he => Or.inl (Instr.docs N v.n c e he)) fun _ => docsM_ok _
  | ring d a =>
    refine DocsM.bind (fun e he => Or.inl ?_) fun _ => docsM_ok _
    unfold unlessZero at he
    split at he
    · cases he; simp [Documented]
    · cases he
  | ofU o d r a => exact (DocsM.bind (docsM_unwrap h) fun _ => docsM_ok _).putE d
  | ofI o d r a => exact (DocsM.bind (docsM_unwrap h) fun _ => docsM_ok _).putE d
  | ofPrim d r t z => exact (DocsM.bind (docsM_unwrap h) fun _ => docsM_ok _).putE d
  | ofBool d r b => exact (DocsM.bind (docsM_unwrap h) fun _ => docsM_ok _).putE d
  | neg d a => exact (DocsM.bind (docsM_unwrap h) fun _ => docsM_ok _).putE d
  | add o1 o2 d a b =>
    exact (DocsM.bind (docsM_unwrap h.1) fun _ => DocsM.bind (docsM_unwrap h.2) fun _ =>
      docsM_sameRing _ _ (docsM_ok _)).putE d
  | sub o1 o2 d a b =>
    exact (DocsM.bind (docsM_unwrap h.1) fun _ => DocsM.bind (docsM_unwrap h.2) fun _ =>
      docsM_sameRing _ _ (docsM_ok _)).putE d
  | mul o1 o2 d a b =>
    exact (DocsM.bind (docsM_unwrap h.1) fun _ => DocsM.bind (docsM_unwrap h.2) fun _ =>
      docsM_sameRing _ _ (docsM_ok _)).putE d
  | div d a b =>
    exact (DocsM.bind (docsM_unwrap h.1) fun _ => DocsM.bind (docsM_unwrap h.2) fun _ =>
      docsM_unlessUnit _ (docsM_sameRing _ _ (docsM_ok _))).putE d
  | inverse d a =>
    refine DocsM.bind (DocsM.bind (docsM_unwrap h) fun _ => docsM_ok _) fun o => ?_
    cases o <;> exact docsM_ok _
  | pow d a e => exact (DocsM.bind (docsM_unwrap h) fun _ => docsM_ok _).putE d
  | powSigned d a e =>
    refine (DocsM.bind (docsM_unwrap h) fun _ => ?_).putE d
    split
    · exact docsM_ok _
    · exact docsM_unlessUnit _ (docsM_ok _)
  | clone d a => exact (docsM_unwrap h).putE d
  | cloneFrom d a => exact (DocsM.bind (docsM_unwrap h.1) fun _ => docsM_unwrap h.2).putE d
  | residue d a => exact (DocsM.bind (docsM_unwrap h) fun _ => docsM_ok _).putU d
  | modulus d r => exact (docsM_unwrap h).putU d
  | eq a b =>
    exact (DocsM.bind (docsM_unwrap h.1) fun _ => DocsM.bind (docsM_unwrap h.2) fun _ =>
      docsM_sameRing _ _ (docsM_ok _)).see
  | ringEq r r' =>
    exact (DocsM.bind (docsM_unwrap h.1) fun _ => DocsM.bind (docsM_unwrap h.2) fun _ => docsM_ok _).see
  | fmt t f a => exact (DocsM.bind (docsM_unwrap h) fun _ => docsM_ok _).see
  | ringFmt t f r => exact (DocsM.bind (docsM_unwrap h) fun _ => docsM_ok _).see

theorem mathModular_docs (N : Nat) (p : List MInstr) (v : MathState)
    (h : ∀ q c q' w seen, p = q ++ c :: q' → mathModular N q v = .ok (w, seen) → c.Defined w) :
    DocsM (mathModular N p v) := by
  induction p generalizing v with
  | nil => exact docsM_ok _
  | cons c p ih =>
    unfold mathModular
    have h1 := MInstr.docs N v c (h [] c p v [] rfl rfl)
    cases hy : c.math N v with
    | error e => intro e' he; exact h1 e' (by rw [hy]; cases he; rfl)
    | ok y =>
      obtain ⟨w, o⟩ := y
      have g : DocsM (mathModular N p w >>= fun r => pure (r.1, o ++ r.2)) := by
        refine DocsM.bind (ih w fun q c' q' w' seen e1 e2 => ?_) fun _ => docsM_ok _
        refine h (c :: q) c' q' w' (o ++ seen) (by rw [e1]; rfl) ?_
        rw [mathModular, hy]
        simp only [bind, Except.bind]
        rw [e2]
        rfl
      exact g

/-! ### The limit -/

theorem MInstr.stops {N M : Nat} (h : N ≤ M) (v : MathState) (c : MInstr) : Stops (c.math N v) (c.math M v) := by
  cases c with
  | num c => exact (Instr.stops h v.n c).bind fun _ => stops_refl _
  | _ => exact stops_refl _

theorem mathModular_stops {N M : Nat} (h : N ≤ M) (p : List MInstr) (v : MathState) :
    Stops (mathModular N p v) (mathModular M p v) := by
  induction p generalizing v with
  | nil => exact stops_refl _
  | cons c p ih =>
    unfold mathModular
    refine (MInstr.stops h v c).bind ?_
    rintro ⟨t, o⟩
    refine (ih t).bind ?_
    rintro ⟨t, o⟩
    exact stops_refl _

end Ibig
