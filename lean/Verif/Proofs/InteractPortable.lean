import Verif.Proofs.Interact
import Verif.Props.GcdPortable
/-! An interactive program does the same on two builds, until one of them reaches a limit. -/
namespace Ibig

/-- A limit of the build. -/
def Limit (e : Panic) : Prop := e = .tooLarge ∨ e = .outOfMemory

/-- The same outcome on two builds. -/
def Paired (cfg cfg' : Cfg) (addr addr' : Nat → Nat) : R (MState × List Obs) → R (MState × List Obs) → Prop
  | .ok (t, o), .ok (t', o') => o = o' ∧ ∃ w, MState.Means cfg addr t w ∧ MState.Means cfg' addr' t' w
  | .error e, .error e' => e = e'
  | _, _ => False

variable {cfg cfg' : Cfg} {addr addr' : Nat → Nat} {s s' : MState} {v : MathState}

/-- One instruction on two builds. -/
theorem XInstr.portable (hv : cfg.Valid) (hv' : cfg'.Valid) (ha : Function.Injective addr) (ha' : Function.Injective addr')
    (be be' : Bool) (h : MState.Means cfg addr s v) (h' : MState.Means cfg' addr' s' v) {c : XInstr} (hc : c.OK cfg)
    (hc' : c.OK cfg') {out : R (MState × List Obs)} (ho : c.Can cfg be addr s out) (hl : ∀ e, Limit e → out ≠ .error e) :
    (∃ out', c.Can cfg' be' addr' s' out' ∧ Paired cfg cfg' addr addr' out out') ∨
    ∃ e, Limit e ∧ c.Can cfg' be' addr' s' (.error e) := by
  have hu : ∀ k, (s.n.u k).value cfg = v.n.u k := fun k => by rw [← h.values]; rfl
  have hi : ∀ k, (s.n.i k).value cfg = v.n.i k := fun k => by rw [← h.values]; rfl
  have hwu : ∀ k, (s.n.u k).WF cfg := h.wf.1
  have hwi : ∀ k, (s.n.i k).WF cfg := h.wf.2
  have hu' : ∀ k, (s'.n.u k).value cfg' = v.n.u k := fun k => by rw [← h'.values]; rfl
  have hi' : ∀ k, (s'.n.i k).value cfg' = v.n.i k := fun k => by rw [← h'.values]; rfl
  have hwu' : ∀ k, (s'.n.u k).WF cfg' := h'.wf.1
  have hwi' : ∀ k, (s'.n.i k).WF cfg' := h'.wf.2
  cases c with
  | base c =>
    have ho : out = c.exec cfg be addr s := ho
    subst ho
    have out_limit : ∀ {Q : Prop} {x : R (MState × List Obs)}, Out Q x → ∃ e, Limit e ∧ x = .error e := by
      rintro Q x ⟨h | h, -⟩
      · exact ⟨_, .inl rfl, h⟩
      · exact ⟨_, .inr rfl, h⟩
    rcases MInstr.ref hv ha be h hc with hr | hr
    swap
    · obtain ⟨e, he, hx⟩ := out_limit hr
      exact absurd hx (hl e he)
    rcases MInstr.ref hv' ha' be' h' hc' with hr' | hr'
    swap
    · obtain ⟨e, he, hx⟩ := out_limit hr'
      exact .inr ⟨e, he, hx.symm⟩
    have key : c.math cfg.bits v = c.math cfg'.bits v ∨ c.math cfg'.bits v = .error .tooLarge := by
      rcases Nat.le_total cfg.bits cfg'.bits with hle | hle
      · rcases MInstr.stops hle v c with e | e
        · rw [e] at hr
          exact absurd hr (hl _ (.inl rfl))
        · exact .inl e
      · rcases MInstr.stops hle v c with e | e
        · exact .inr e
        · exact .inl e.symm
    rcases key with key | key
    · left
      refine ⟨_, rfl, ?_⟩
      rw [← key] at hr'
      generalize c.math cfg.bits v = y at hr hr'
      match y, hr, hr' with
      | .error e, hr, hr' =>
        have hr : c.exec cfg be addr s = .error e := hr
        have hr' : c.exec cfg' be' addr' s' = .error e := hr'
        rw [hr, hr']
        rfl
      | .ok (w, o), ⟨t, e1, m1⟩, ⟨t', e2, m2⟩ =>
        rw [e1, e2]
        exact ⟨rfl, w, m1, m2⟩
    · right
      rw [key] at hr'
      exact ⟨_, .inl rfl, Eq.symm hr'⟩
  | uextGcd d x y a b =>
    have ho : out = s.putBezoutU d x y ((s.n.u a).extendedGcd cfg (s.n.u b)) := ho
    subst ho
    by_cases hx' : (s'.n.u a).extendedGcd cfg' (s'.n.u b) = .error .tooLarge
    · exact .inr ⟨.tooLarge, .inl rfl, by show _ = s'.putBezoutU d x y _; rw [hx']; rfl⟩
    · rcases C40_ubig_extended_gcd hv hv' (hwu a) (hwu b) (hwu' a) (hwu' b) (by rw [hu, hu']) (by rw [hu, hu'])
        (fun hx => hl .tooLarge (.inl rfl) (by rw [hx]; rfl)) hx' with ⟨e, e1, e2⟩ | ⟨g, p, q, g', p', q', e1, e2, k1, k2, k3⟩
      · exact .inl ⟨.error e, by show _ = s'.putBezoutU d x y _; rw [e2]; rfl, by rw [e1]; exact rfl⟩
      · refine .inl ⟨_, rfl, ?_⟩
        show Paired cfg cfg' addr addr' (s.putBezoutU d x y _) (s'.putBezoutU d x y _)
        obtain ⟨h1, -⟩ := C25_ubig_extended_gcd hv (hwu a) (hwu b)
        obtain ⟨h1', -⟩ := C25_ubig_extended_gcd hv' (hwu' a) (hwu' b)
        by_cases hz : (s.n.u a).value cfg = 0 ∧ (s.n.u b).value cfg = 0
        · rw [(C25_ubig_extended_gcd hv (hwu a) (hwu b)).2 hz.1 hz.2] at e1
          cases e1
        · obtain ⟨_, _, _, f1, w1, w2, w3, -⟩ := (h1 hz).resolve_right fun hh => by rw [hh.1] at e1; cases e1
          rw [e1] at f1
          cases f1
          rw [hu, hu, ← hu' a, ← hu' b] at hz
          obtain ⟨_, _, _, f1', w1', w2', w3', -⟩ := (h1' hz).resolve_right fun hh => by rw [hh.1] at e2; cases e2
          rw [e2] at f1'
          cases f1'
          rw [e1, e2]
          exact ⟨rfl, _, ((h.setU d w1 k1).setI x w2 k2).setI y w3 k3,
            ((h'.setU d w1' rfl).setI x w2' rfl).setI y w3' rfl⟩
  | iextGcd d x y a b =>
    have ho : out = s.putBezoutI d x y ((s.n.i a).extendedGcd cfg (s.n.i b)) := ho
    subst ho
    by_cases hx' : (s'.n.i a).extendedGcd cfg' (s'.n.i b) = .error .tooLarge
    · exact .inr ⟨.tooLarge, .inl rfl, by show _ = s'.putBezoutI d x y _; rw [hx']; rfl⟩
    · rcases C40_ibig_extended_gcd hv hv' (hwi a) (hwi b) (hwi' a) (hwi' b) (by rw [hi, hi']) (by rw [hi, hi'])
        (fun hx => hl .tooLarge (.inl rfl) (by rw [hx]; rfl)) hx' with ⟨e, e1, e2⟩ | ⟨g, p, q, g', p', q', e1, e2, k1, k2, k3⟩
      · exact .inl ⟨.error e, by show _ = s'.putBezoutI d x y _; rw [e2]; rfl, by rw [e1]; exact rfl⟩
      · refine .inl ⟨_, rfl, ?_⟩
        show Paired cfg cfg' addr addr' (s.putBezoutI d x y _) (s'.putBezoutI d x y _)
        obtain ⟨h1, -⟩ := C25_ibig_extended_gcd hv (hwi a) (hwi b)
        obtain ⟨h1', -⟩ := C25_ibig_extended_gcd hv' (hwi' a) (hwi' b)
        by_cases hz : (s.n.i a).value cfg = 0 ∧ (s.n.i b).value cfg = 0
        · rw [(C25_ibig_extended_gcd hv (hwi a) (hwi b)).2 hz.1 hz.2] at e1
          cases e1
        · obtain ⟨_, _, _, f1, w1, w2, w3, -⟩ := (h1 hz).resolve_right fun hh => by rw [hh.1] at e1; cases e1
          rw [e1] at f1
          cases f1
          rw [hi, hi, ← hi' a, ← hi' b] at hz
          obtain ⟨_, _, _, f1', w1', w2', w3', -⟩ := (h1' hz).resolve_right fun hh => by rw [hh.1] at e2; cases e2
          rw [e2] at f1'
          cases f1'
          rw [e1, e2]
          exact ⟨rfl, _, ((h.setI d w1 k1).setI x w2 k2).setI y w3 k3,
            ((h'.setI d w1' rfl).setI x w2' rfl).setI y w3' rfl⟩
  | userde k d a =>
    have key : ∀ {cf : Cfg} (_ : cf.Valid) {st : MState} {ad : Nat → Nat}, MState.Means cf ad st v → ∃ b,
        (do let (b, o) ← (st.n.u a).throughSerde cf k
            return ({ st with n := st.n.setU d b }, o) : R (MState × List Obs)) = .ok ({ st with n := st.n.setU d b },
              [.nat (Nat.digits (2 ^ 64) (v.n.u a)).length, .list (Nat.digits (2 ^ 64) (v.n.u a))]) ∧
        MState.Means cf ad { st with n := st.n.setU d b } { v with n := v.n.setU d (v.n.u a) } := by
      intro cf hcf st ad hm
      have hv0 : (st.n.u a).value cf = v.n.u a := by rw [← hm.values]; rfl
      obtain ⟨len, es, e1, h1⟩ := C31_ubig_same_build hcf (hm.wf.1 a)
      have e2 := C31_ubig_serialize hcf (hm.wf.1 a)
      rw [e1] at e2
      cases e2
      obtain ⟨b, e3, hb, hbv⟩ := h1 (if k then some (Nat.digits (2 ^ 64) ((st.n.u a).value cf)).length else none)
        (by cases k <;> simp)
      refine ⟨b, ?_, hm.setU d hb (by rw [hbv, hv0])⟩
      simp only [UBig.throughSerde, e1, e3, bind, Except.bind, pure, Except.pure]
      rw [hv0]
    obtain ⟨b, e, m⟩ := key hv h
    obtain ⟨b', e', m'⟩ := key hv' h'
    refine .inl ⟨_, rfl, ?_⟩
    rw [show out = _ from ho]
    dsimp only [XInstr.Can]
    rw [e, e']
    exact ⟨rfl, _, m, m'⟩
  | iserde k d a =>
    have key : ∀ {cf : Cfg} (_ : cf.Valid) {st : MState} {ad : Nat → Nat}, MState.Means cf ad st v → ∃ b,
        (do let (b, o) ← (st.n.i a).throughSerde cf k
            return ({ st with n := st.n.setI d b }, o) : R (MState × List Obs)) = .ok ({ st with n := st.n.setI d b },
              [.bool ((if 0 ≤ v.n.i a then Sign.pos else Sign.neg) == .neg),
               .nat (Nat.digits (2 ^ 64) (v.n.i a).natAbs).length, .list (Nat.digits (2 ^ 64) (v.n.i a).natAbs)]) ∧
        MState.Means cf ad { st with n := st.n.setI d b } { v with n := v.n.setI d (v.n.i a) } := by
      intro cf hcf st ad hm
      have hv0 : (st.n.i a).value cf = v.n.i a := by rw [← hm.values]; rfl
      obtain ⟨sg, len, es, e1, hs, he, hl, h1, h2⟩ := C31_ibig_round_trip hcf hcf (hm.wf.2 a)
      have hf : Fits cf ((st.n.i a).value cf).natAbs := by
        rw [IBig.natAbs_value]
        exact (hm.wf.2 a).mag.fits hcf
      have h3 : ∃ b, IBig.deserialize cf sg (if k then some len else none) es = .ok b ∧ b.WF cf ∧
          b.value cf = (st.n.i a).value cf := by
        cases k
        · exact h2.1 hf
        · exact h1.1 hf
      obtain ⟨b, e3, hb, hbv⟩ := h3
      refine ⟨b, ?_, hm.setI d hb (by rw [hbv, hv0])⟩
      simp only [IBig.throughSerde, e1, e3, bind, Except.bind, pure, Except.pure]
      rw [hl, he, hs, hv0]
    obtain ⟨b, e, m⟩ := key hv h
    obtain ⟨b', e', m'⟩ := key hv' h'
    refine .inl ⟨_, rfl, ?_⟩
    rw [show out = _ from ho]
    dsimp only [XInstr.Can]
    rw [e, e']
    exact ⟨rfl, _, m, m'⟩
  | uread k d es =>
    have key : ∀ {cf : Cfg} (_ : cf.Valid), UBig.deserialize cf (if k then some es.length else none) es = .error .tooLarge ∨
        ∃ b, UBig.deserialize cf (if k then some es.length else none) es = .ok b ∧ b.WF cf ∧
          b.value cf = Nat.ofDigits (2 ^ 64) es := by
      intro cf hcf
      obtain ⟨h1, h2⟩ := C31_any_sequence hcf hc (hint := if k then some es.length else none) (by cases k <;> simp)
      by_cases hl : cf.maxLen + 4 < es.length * (64 / cf.W)
      · exact .inl (h2 hl)
      · by_cases hf : Fits cf (Nat.ofDigits (2 ^ 64) es)
        · exact .inr ((h1 (by omega)).1 hf)
        · exact .inl ((h1 (by omega)).2 hf)
    have ho : out = s.putU d (UBig.deserialize cfg (if k then some es.length else none) es) := ho
    subst ho
    rcases key hv' with e' | ⟨b', e', hb', hv2'⟩
    · exact .inr ⟨.tooLarge, .inl rfl, by show _ = s'.putU d _; rw [e']; rfl⟩
    · rcases key hv with e | ⟨b, e, hb, hv2⟩
      · exact absurd (by rw [e]; rfl) (hl .tooLarge (.inl rfl))
      · refine .inl ⟨_, rfl, ?_⟩
        show Paired cfg cfg' addr addr' (s.putU d _) (s'.putU d _)
        rw [e, e']
        exact ⟨rfl, _, h.setU d hb hv2, h'.setU d hb' hv2'⟩
  | iread k d sg es =>
    have key : ∀ {cf : Cfg} (_ : cf.Valid),
        IBig.deserialize cf sg (if k then some es.length else none) es = .error .tooLarge ∨
        ∃ b, IBig.deserialize cf sg (if k then some es.length else none) es = .ok b ∧ b.WF cf ∧
          b.value cf = sg.toInt * (Nat.ofDigits (2 ^ 64) es : Nat) := by
      intro cf hcf
      obtain ⟨h1, h2⟩ := C31_any_sequence hcf hc (hint := if k then some es.length else none) (by cases k <;> simp)
      by_cases hl : cf.maxLen + 4 < es.length * (64 / cf.W)
      · left
        unfold IBig.deserialize
        rw [h2 hl]
        rfl
      · have h3 := IBig.deserialize_yields hcf sg (h1 (by omega))
        by_cases hf : Fits cf (sg.toInt * (Nat.ofDigits (2 ^ 64) es : Nat)).natAbs
        · exact .inr (h3.1 hf)
        · exact .inl (h3.2 hf)
    have ho : out = s.putI d (IBig.deserialize cfg sg (if k then some es.length else none) es) := ho
    subst ho
    rcases key hv' with e' | ⟨b', e', hb', hv2'⟩
    · exact .inr ⟨.tooLarge, .inl rfl, by show _ = s'.putI d _; rw [e']; rfl⟩
    · rcases key hv with e | ⟨b, e, hb, hv2⟩
      · exact absurd (by rw [e]; rfl) (hl .tooLarge (.inl rfl))
      · refine .inl ⟨_, rfl, ?_⟩
        show Paired cfg cfg' addr addr' (s.putI d _) (s'.putI d _)
        rw [e, e']
        exact ⟨rfl, _, h.setI d hb hv2, h'.setI d hb' hv2'⟩
  | urand k d low high =>
    obtain ⟨r, hr, rfl⟩ := ho
    have key : ∀ {cf : Cfg} (_ : cf.Valid) {st : MState} {ad : Nat → Nat}, MState.Means cf ad st v →
        let dist := if k then UniformUBig.newInclusive cf (st.n.u low) (st.n.u high)
          else UniformUBig.new cf (st.n.u low) (st.n.u high)
        dist = .error .tooLarge ∨
        (v.n.u low = v.n.u high ∧ k = false ∧ dist = .error .emptyRange) ∨
        (v.n.u high < v.n.u low ∧ dist = .error .negativeUBig) ∨
        (v.n.u low < v.n.u high + (if k then 1 else 0) ∧ ∃ u, dist = .ok u ∧
          UniformOn (fun t => u.sample cf t) (fun y => y.WF cf) (fun y => (y.value cf : Int))
          (v.n.u low) (v.n.u high + (if k then 1 else 0) : Nat)) := by
      intro cf hcf st ad hm
      have hv0 : ∀ a, (st.n.u a).value cf = v.n.u a := fun a => by rw [← hm.values]; rfl
      cases k
      · obtain ⟨h1, h2, h3⟩ := C32_ubig_new hcf (hm.wf.1 low) (hm.wf.1 high)
        rw [hv0, hv0] at h1 h2 h3
        rcases Nat.lt_trichotomy (v.n.u low) (v.n.u high) with g | g | g
        · exact .inr (.inr (.inr ⟨by simpa using g, h1 g⟩))
        · exact .inr (.inl ⟨g, rfl, h2 g⟩)
        · exact .inr (.inr (.inl ⟨g, h3 g⟩))
      · obtain ⟨h1, h2, h3⟩ := C32_ubig_new_inclusive hcf (hm.wf.1 low) (hm.wf.1 high)
        rw [hv0, hv0] at h1 h2 h3
        rcases Nat.lt_or_ge (v.n.u high) (v.n.u low) with g | g
        · exact .inr (.inr (.inl ⟨g, h3 g⟩))
        · by_cases hf : Fits cf (v.n.u high - v.n.u low + 1)
          · exact .inr (.inr (.inr ⟨by simp only [if_true]; omega, by simpa using h1 g hf⟩))
          · exact .inl (h2 g hf)
    have aux : ∀ {r' : R UBig}, SampleCan (if k then UniformUBig.newInclusive cfg' (s'.n.u low) (s'.n.u high)
        else UniformUBig.new cfg' (s'.n.u low) (s'.n.u high)) (fun t u => u.sample cfg' t) r' →
        (XInstr.urand k d low high).Can cfg' be' addr' s' (s'.putU d r') := fun hh => ⟨_, hh, rfl⟩
    rcases key hv' h' with e' | ⟨g, gk, e'⟩ | ⟨g, e'⟩ | ⟨g, u', e', un'⟩
    · exact .inr ⟨.tooLarge, .inl rfl, aux ((SampleCan.of_error e').mpr rfl)⟩
    all_goals rcases key hv h with e | ⟨g2, gk2, e⟩ | ⟨g2, e⟩ | ⟨g2, u, e, un⟩
    all_goals first
      | (rw [(SampleCan.of_error e).mp hr] at hl; exact absurd rfl (hl .tooLarge (.inl rfl)))
      | (exfalso; simp only [gk, Bool.false_eq_true, if_false] at g2; omega)
      | (exfalso; simp only [gk2, Bool.false_eq_true, if_false] at g; omega)
      | (exfalso; split_ifs at g <;> omega)
      | (exfalso; split_ifs at g2 <;> omega)
      | (exfalso; omega)
      | (rw [(SampleCan.of_error e).mp hr]
         exact .inl ⟨_, aux ((SampleCan.of_error e').mpr rfl), rfl⟩)
      | skip
    obtain ⟨y, rfl, hy, y1, y2⟩ := (UniformOn.can (sample := fun t (u : UniformUBig) => u.sample cfg t) un e).1 r hr
    obtain ⟨y', c', hy', yv⟩ := (UniformOn.can (sample := fun t (u : UniformUBig) => u.sample cfg' t) un' e').2 _ y1 y2
    exact .inl ⟨_, aux c', rfl, _, h.setU d hy rfl, h'.setU d hy' (by exact_mod_cast yv)⟩
  | irand k d low high =>
    obtain ⟨r, hr, rfl⟩ := ho
    have key : ∀ {cf : Cfg} (_ : cf.Valid) {st : MState} {ad : Nat → Nat}, MState.Means cf ad st v →
        let dist := if k then UniformIBig.newInclusive cf (st.n.i low) (st.n.i high)
          else UniformIBig.new cf (st.n.i low) (st.n.i high)
        dist = .error .tooLarge ∨
        (v.n.i high + (if k then 1 else 0) ≤ v.n.i low ∧ dist = .error .emptyRange) ∨
        (v.n.i low < v.n.i high + (if k then 1 else 0) ∧ ∃ u, dist = .ok u ∧
          UniformOn (fun t => u.sample cf t) (fun y => y.WF cf) (fun y => y.value cf)
          (v.n.i low) (v.n.i high + (if k then 1 else 0))) := by
      intro cf hcf st ad hm
      have hv0 : ∀ a, (st.n.i a).value cf = v.n.i a := fun a => by rw [← hm.values]; rfl
      cases k
      · obtain ⟨h1, h2, h3⟩ := C32_ibig_new hcf (hm.wf.2 low) (hm.wf.2 high)
        rw [hv0, hv0] at h1 h2 h3
        by_cases hf : Fits cf (v.n.i high - v.n.i low).natAbs
        · rcases lt_or_ge (v.n.i low) (v.n.i high) with g | g
          · exact .inr (.inr ⟨by simpa using g, by simpa using h1 g hf⟩)
          · exact .inr (.inl ⟨by simpa using g, h2 g hf⟩)
        · exact .inl (h3 hf)
      · obtain ⟨h1, h2, h3⟩ := C32_ibig_new_inclusive hcf (hm.wf.2 low) (hm.wf.2 high)
        rw [hv0, hv0] at h1 h2 h3
        by_cases hf : Fits cf (v.n.i high - v.n.i low).natAbs
        · by_cases hf' : Fits cf (v.n.i high - v.n.i low + 1).natAbs
          · rcases lt_or_ge (v.n.i high) (v.n.i low) with g | g
            · exact .inr (.inl ⟨by simp only [if_true]; omega, h2 g hf⟩)
            · exact .inr (.inr ⟨by simp only [if_true]; omega, by simpa using h1 g hf'⟩)
          · exact .inl (h3 (.inr hf'))
        · exact .inl (h3 (.inl hf))
    have aux : ∀ {r' : R IBig}, SampleCan (if k then UniformIBig.newInclusive cfg' (s'.n.i low) (s'.n.i high)
        else UniformIBig.new cfg' (s'.n.i low) (s'.n.i high)) (fun t u => u.sample cfg' t) r' →
        (XInstr.irand k d low high).Can cfg' be' addr' s' (s'.putI d r') := fun hh => ⟨_, hh, rfl⟩
    rcases key hv' h' with e' | ⟨g, e'⟩ | ⟨g, u', e', un'⟩
    · exact .inr ⟨.tooLarge, .inl rfl, aux ((SampleCan.of_error e').mpr rfl)⟩
    all_goals rcases key hv h with e | ⟨g2, e⟩ | ⟨g2, u, e, un⟩
    all_goals first
      | (rw [(SampleCan.of_error e).mp hr] at hl; exact absurd rfl (hl .tooLarge (.inl rfl)))
      | (exfalso; omega)
      | (rw [(SampleCan.of_error e).mp hr]
         exact .inl ⟨_, aux ((SampleCan.of_error e').mpr rfl), rfl⟩)
      | skip
    obtain ⟨y, rfl, hy, y1, y2⟩ := (UniformOn.can (sample := fun t (u : UniformIBig) => u.sample cfg t) un e).1 r hr
    obtain ⟨y', c', hy', yv⟩ := (UniformOn.can (sample := fun t (u : UniformIBig) => u.sample cfg' t) un' e').2 _ y1 y2
    exact .inl ⟨_, aux c', rfl, _, h.setI d hy rfl, h'.setI d hy' yv⟩

end Ibig
