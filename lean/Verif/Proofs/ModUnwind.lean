import Verif.Spec.ModUnwind
import Verif.Proofs.ModHistory
import Verif.Proofs.Unwind
import Verif.Props.Modular
/-! Programs with rings that catch panics refine the mathematical ones. -/
namespace Ibig

/-! ### What is left, and the result -/

theorem Left.toR_holding {σ α : Type} (s : σ) (x : R α) (f : α → Left σ) :
    (Left.holding s x f).toR = x >>= fun a => (f a).toR := by
  cases x <;> rfl

theorem Left.toR_map {σ τ : Type} (f : σ → τ) (x : Left σ) : (x.map f).toR = x.toR >>= fun a => .ok (f a) := by
  obtain ⟨a, e⟩ := x
  cases e <;> rfl

theorem Left.toR_none {σ : Type} (s : σ) : Left.toR (s, none) = .ok s := rfl

theorem RingLarge.addFixLeft_toR (W : Nat) (r : RingLarge) (words : List Nat) (o : Bool) :
    (r.addFixLeft W words o).toR = r.addFix W words o := by
  unfold RingLarge.addFixLeft RingLarge.addFix
  simp only [Left.toR_holding, Left.toR_none]

theorem RingLarge.addLeft_toR (W : Nat) (r : RingLarge) (words rhs : List Nat) :
    (r.addLeft W words rhs).toR = r.add W words rhs := by
  unfold RingLarge.addLeft RingLarge.add
  rw [Left.toR_holding]
  congr 1
  funext p
  obtain ⟨ws, o⟩ := p
  dsimp only
  split
  · exact addFixLeft_toR W r ws o
  · rw [Left.toR_holding]
    congr 1
    funext c
    split
    · rfl
    · exact addFixLeft_toR W r ws o

theorem RingLarge.subLeft_toR (W : Nat) (r : RingLarge) (words rhs : List Nat) :
    (r.subLeft W words rhs).toR = r.sub W words rhs := by
  unfold RingLarge.subLeft RingLarge.sub
  rw [Left.toR_holding]
  congr 1
  funext p
  obtain ⟨ws, o⟩ := p
  dsimp only
  unfold RingLarge.subFixLeft RingLarge.subFix
  split
  · simp only [Left.toR_holding, Left.toR_none]
  · rfl

theorem bind_ok_split {α β : Type} {x : R α} {f : α → R β} {b : β} (h : (x >>= f) = .ok b) :
    ∃ a, x = .ok a ∧ f a = .ok b := by
  cases x with
  | error e => cases h
  | ok a => exact ⟨a, rfl, h⟩

theorem sliceR_zero_len {l w : List Nat} {n : Nat} (h : sliceR l 0 n = .ok w) : w.length = n := by
  unfold sliceR at h
  split at h
  · rename_i hh
    cases h
    simp
    omega
  · cases h

theorem RingLarge.mulNormalized_len {W : Nat} {r : RingLarge} {a b w : List Nat} {mem : Nat}
    (h : r.mulNormalized W a b mem = .ok w) : a.length = w.length := by
  unfold RingLarge.mulNormalized at h
  obtain ⟨_, h1, h⟩ := bind_ok_split h
  obtain ⟨⟨_, _⟩, -, h⟩ := bind_ok_split h
  obtain ⟨⟨_, _⟩, -, h⟩ := bind_ok_split h
  obtain ⟨_, -, h⟩ := bind_ok_split h
  obtain ⟨⟨_, _⟩, -, h⟩ := bind_ok_split h
  obtain ⟨⟨_, _⟩, -, h⟩ := bind_ok_split h
  have h2 := sliceR_zero_len h
  unfold assertR at h1
  split at h1
  · rename_i hh
    rw [h2]
    exact hh.1
  · cases h1

theorem RingLarge.mulLeft_toR (W : Nat) (r : RingLarge) (words v : List Nat) (mem : Nat) :
    (r.mulLeft W words v mem).toR = r.mulNormalized W words v mem := by
  unfold RingLarge.mulLeft
  rw [Left.toR_holding]
  cases h : r.mulNormalized W words v mem with
  | error e => rfl
  | ok w =>
    have hl := RingLarge.mulNormalized_len h
    show (Left.holding words (copyFromSlice words w) fun w => (w, none)).toR = .ok w
    rw [Left.toR_holding]
    unfold copyFromSlice assertR
    rw [if_pos hl]
    rfl

theorem ModLarge.modifyLeft_toR (W : Nat) (x : ModLarge) (f : Left (List Nat)) :
    (x.modifyLeft W f).toR = f.toR >>= fun v => ModLarge.new W x.addr x.ring v := by
  obtain ⟨ws, e⟩ := f
  unfold ModLarge.modifyLeft
  cases e with
  | some e => rfl
  | none =>
    simp only [Left.toR_holding, Left.toR_none]
    show _ = ModLarge.new W x.addr x.ring ws
    cases ModLarge.new W x.addr x.ring ws <;> rfl

theorem ModSmall.setLeft_toR (W : Nat) (x : ModSmall) (v : R Nat) :
    (x.setLeft W v).toR = v >>= fun v => ModSmall.new W x.addr x.ring v := by
  unfold ModSmall.setLeft
  simp only [Left.toR_holding, Left.toR_none]
  cases v with
  | error e => rfl
  | ok v =>
    show (ModSmall.new W x.addr x.ring v >>= fun m => .ok m) = ModSmall.new W x.addr x.ring v
    cases ModSmall.new W x.addr x.ring v <;> rfl

theorem bind_assoc_R {α β γ : Type} (x : R α) (f : α → R β) (g : β → R γ) :
    (x >>= f) >>= g = x >>= fun a => f a >>= g := by
  cases x <;> rfl

theorem Modulo.addAssignLeft_toR (W : Nat) (x y : Modulo) :
    (Modulo.addAssignLeft W x y).toR = Modulo.addAssign W x y := by
  cases x <;> cases y <;> try rfl
  · simp only [Modulo.addAssignLeft, Modulo.addAssign, Left.toR_map, Left.toR_holding, ModSmall.setLeft_toR, bind_assoc_R]
  · simp only [Modulo.addAssignLeft, Modulo.addAssign, Left.toR_map, Left.toR_holding, ModLarge.modifyLeft_toR,
      RingLarge.addLeft_toR, bind_assoc_R]

theorem Modulo.subAssignLeft_toR (W : Nat) (x y : Modulo) :
    (Modulo.subAssignLeft W x y).toR = Modulo.subAssign W x y := by
  cases x <;> cases y <;> try rfl
  · simp only [Modulo.subAssignLeft, Modulo.subAssign, Left.toR_map, Left.toR_holding, ModSmall.setLeft_toR, bind_assoc_R]
  · simp only [Modulo.subAssignLeft, Modulo.subAssign, Left.toR_map, Left.toR_holding, ModLarge.modifyLeft_toR,
      RingLarge.subLeft_toR, bind_assoc_R]

theorem Modulo.mulAssignLeft_toR (cfg : Cfg) (x y : Modulo) :
    (Modulo.mulAssignLeft cfg x y).toR = Modulo.mulAssign cfg x y := by
  cases x <;> cases y <;> try rfl
  · simp only [Modulo.mulAssignLeft, Modulo.mulAssign, Left.toR_map, Left.toR_holding, ModSmall.setLeft_toR, bind_assoc_R]
  · simp only [Modulo.mulAssignLeft, Modulo.mulAssign, ModLarge.mulBy, Left.toR_map, Left.toR_holding,
      ModLarge.modifyLeft_toR, RingLarge.mulLeft_toR, bind_assoc_R]

theorem Modulo.cloneFromLeft_toR (x y : Modulo) : (Modulo.cloneFromLeft x y).toR = Modulo.cloneFrom x y := by
  cases x <;> cases y <;> try rfl
  simp only [Modulo.cloneFromLeft, Modulo.cloneFrom, Left.toR_map, ModLarge.cloneFromLeft, ModLarge.cloneFrom]
  split
  · simp only [Left.toR_holding, Left.toR_none]
  · rfl

/-! ### A panic leaves the element as it was -/

theorem Left.snd_of_toR {σ : Type} {x : Left σ} {a : σ} (h : x.toR = .ok a) : x.2 = none := by
  obtain ⟨s, e⟩ := x
  cases e with
  | none => rfl
  | some e => cases h

theorem Left.snd_of_error {σ : Type} {x : Left σ} {e : Panic} (h : x.toR = .error e) : x.2 = some e := by
  obtain ⟨s, e'⟩ := x
  cases e' with
  | none => cases h
  | some e => cases h; rfl

variable {cfg : Cfg} {addr : Nat → Nat} {s : MState} {v : MathState}

/-- Elements of different rings: the check comes first. -/
theorem Modulo.left_different {r r' : Ring} {n n' : Nat} (hv : cfg.Valid) (hr : IsRing cfg r n) (hr' : IsRing cfg r' n')
    (hne : r.addr ≠ r'.addr) {x y : Modulo} {j k : Nat} (hx : Elem cfg r x j) (hy : Elem cfg r' y k) :
    (Modulo.addAssignLeft cfg.W x y).1 = x ∧ (Modulo.subAssignLeft cfg.W x y).1 = x ∧
    (Modulo.mulAssignLeft cfg x y).1 = x := by
  have c1 : checkSameRing r.addr r'.addr = .error .differentRings := if_neg hne
  have ex := hx.addr_eq
  have ey := hy.addr_eq
  cases x <;> cases y <;> simp only [Modulo.addr] at ex ey <;>
    simp [Modulo.addAssignLeft, Modulo.subAssignLeft, Modulo.mulAssignLeft, ex, ey, c1, Left.holding, Left.map]

theorem ModLarge.modifyLeft_fst {W : Nat} {x : ModLarge} {f : Left (List Nat)} {e : Panic} (hf : f.2 = some e)
    (h1 : f.1 = x.words) : (x.modifyLeft W f).1 = x := by
  unfold ModLarge.modifyLeft
  rw [hf, h1]

theorem RingLarge.isValid_memory (W : Nat) (r : RingLarge) (v : List Nat) : r.isValid W v ≠ .error .outOfMemory := by
  unfold RingLarge.isValid
  split
  · unfold cmpSameLen assertR
    rename_i h
    rw [if_pos h]
    simp only [bind, Except.bind]
    split
    · unfold getR
      cases v[0]? with
      | none => simp
      | some w =>
        unfold ones ckSub
        dsimp only
        split_ifs <;> simp [bind, Except.bind]
    · simp
  · simp

/-- A multiplication that panics because there is not enough memory has not changed the element. -/
theorem Modulo.mulLeft_memory {x y : Modulo} (h : (Modulo.mulAssignLeft cfg x y).2 = some .outOfMemory) :
    (Modulo.mulAssignLeft cfg x y).1 = x := by
  cases x <;> cases y <;> try rfl
  · rename_i x y
    simp only [Modulo.mulAssignLeft, Left.map] at h ⊢
    cases h1 : checkSameRing x.addr y.addr with
    | error e => rfl
    | ok u =>
      rw [h1] at h
      simp only [Left.holding, ModSmall.setLeft] at h ⊢
      cases h2 : x.ring.mul cfg.W x.raw y.raw with
      | error e => rfl
      | ok w =>
        rw [h2] at h
        dsimp only at h ⊢
        cases h3 : ModSmall.new cfg.W x.addr x.ring w with
        | error e => rfl
        | ok m => rw [h3] at h; cases h
  · rename_i x y
    simp only [Modulo.mulAssignLeft, Left.map] at h ⊢
    cases h1 : checkSameRing x.addr y.addr with
    | error e => rfl
    | ok u =>
      rw [h1] at h
      simp only [Left.holding] at h ⊢
      cases h2 : x.ring.mulMemory cfg with
      | error e => rfl
      | ok req =>
        rw [h2] at h
        dsimp only at h ⊢
        cases h3 : allocMemory cfg req with
        | error e => rfl
        | ok mem =>
          rw [h3] at h
          dsimp only at h ⊢
          unfold ModLarge.modifyLeft RingLarge.mulLeft at h ⊢
          cases h4 : x.ring.mulNormalized cfg.W x.words y.words mem with
          | error e => rfl
          | ok w =>
            rw [h4] at h
            simp only [Left.holding] at h ⊢
            cases h5 : copyFromSlice x.words w with
            | error e => rfl
            | ok w =>
              rw [h5] at h
              dsimp only at h ⊢
              cases h6 : ModLarge.new cfg.W x.addr x.ring w with
              | ok m => rw [h6] at h; cases h
              | error e =>
                rw [h6] at h
                exfalso
                cases h
                unfold ModLarge.new at h6
                cases h7 : x.ring.isValid cfg.W w with
                | error e =>
                  rw [h7] at h6
                  exact RingLarge.isValid_memory cfg.W x.ring w (h7.trans (by cases h6; rfl))
                | ok b =>
                  rw [h7] at h6
                  cases b <;> simp [assertR, bind, Except.bind] at h6

/-- An operation in place that panics has not changed the element. -/
theorem Modulo.left_unchanged {r r' : Ring} {n n' : Nat} (hv : cfg.Valid) (hr : IsRing cfg r n) (hr' : IsRing cfg r' n')
    (hd : r.addr = r'.addr → r = r') {x y : Modulo} {j k : Nat} (hx : Elem cfg r x j) (hy : Elem cfg r' y k) :
    ((Modulo.addAssignLeft cfg.W x y).2 ≠ none → (Modulo.addAssignLeft cfg.W x y).1 = x) ∧
    ((Modulo.subAssignLeft cfg.W x y).2 ≠ none → (Modulo.subAssignLeft cfg.W x y).1 = x) ∧
    ((Modulo.mulAssignLeft cfg x y).2 ≠ none → (Modulo.mulAssignLeft cfg x y).1 = x) ∧
    (Modulo.cloneFromLeft x y).2 = none := by
  have h4 : (Modulo.cloneFromLeft x y).2 = none := by
    obtain ⟨m, h, -⟩ := (C35_modulo_clone hy).2 x
    rw [← Modulo.cloneFromLeft_toR] at h
    exact Left.snd_of_toR h
  by_cases hne : r.addr = r'.addr
  · have e := hd hne
    subst e
    obtain ⟨-, ⟨a, -, ha, -⟩, ⟨b, -, hb, -⟩, -⟩ := C27_add_sub_neg_eq hv hr .val .ref hx hy
    have ha : Modulo.addAssign cfg.W x y = .ok a := ha
    have hb : Modulo.subAssign cfg.W x y = .ok b := hb
    rw [← Modulo.addAssignLeft_toR] at ha
    rw [← Modulo.subAssignLeft_toR] at hb
    refine ⟨fun h => absurd (Left.snd_of_toR ha) h, fun h => absurd (Left.snd_of_toR hb) h, fun h => ?_, h4⟩
    rcases C27_mul hv hr .val .ref hx hy with ⟨m, hm, -⟩ | ⟨hm, -⟩
    · have hm : Modulo.mulAssign cfg x y = .ok m := hm
      rw [← Modulo.mulAssignLeft_toR] at hm
      exact absurd (Left.snd_of_toR hm) h
    · have hm : Modulo.mulAssign cfg x y = .error .outOfMemory := hm
      rw [← Modulo.mulAssignLeft_toR] at hm
      exact Modulo.mulLeft_memory (Left.snd_of_error hm)
  · obtain ⟨a, b, c⟩ := Modulo.left_different hv hr hr' hne hx hy
    exact ⟨fun _ => a, fun _ => b, fun _ => c, h4⟩

/-! ### Programs -/

theorem MStore.leftE_eq (s : MState) (d b : Nat) (f : Modulo → Modulo → Left Modulo)
    (h : ∀ x y, s.elem d = some x → s.elem b = some y → (f x y).1 = x) : s.leftE d b f = s := by
  unfold MStore.leftE
  cases hx : s.elem d with
  | none => rfl
  | some x =>
    cases hy : s.elem b with
    | none => rfl
    | some y =>
      dsimp only
      have : (fun k => if k = d then some (f x y).1 else s.elem k) = s.elem := by
        funext k
        split
        · rename_i hk
          rw [hk, hx, h x y hx hy]
        · rfl
      rw [this]

theorem MState.Means.left_unchanged (hv : cfg.Valid) (ha : Function.Injective addr) (h : MState.Means cfg addr s v)
    {d b : Nat} {x y : Modulo} (hx : s.elem d = some x) (hy : s.elem b = some y) :
    ((Modulo.addAssignLeft cfg.W x y).2 ≠ none → (Modulo.addAssignLeft cfg.W x y).1 = x) ∧
    ((Modulo.subAssignLeft cfg.W x y).2 ≠ none → (Modulo.subAssignLeft cfg.W x y).1 = x) ∧
    ((Modulo.mulAssignLeft cfg x y).2 ≠ none → (Modulo.mulAssignLeft cfg x y).1 = x) ∧
    (Modulo.cloneFromLeft x y).2 = none := by
  have key : ∀ {k : Nat} {x : Modulo}, s.elem k = some x → ∃ e r, s.ring e.ring = some r ∧ IsRing cfg r e.n ∧
      r.addr = addr e.ring ∧ Elem cfg r x (e : MElem).k := by
    intro k x hx
    cases he : v.elem k with
    | none => rw [h.elem_none he] at hx; cases hx
    | some e =>
      obtain ⟨x', r, h1, -, h3, h4, h5, h6⟩ := h.elem_some he
      rw [hx] at h1
      cases h1
      exact ⟨e, r, h3, h4, h5, h6⟩
  obtain ⟨e, r, g1, g2, g3, g4⟩ := key hx
  obtain ⟨e', r', g1', g2', g3', g4'⟩ := key hy
  refine Modulo.left_unchanged hv g2 g2' (fun hh => ?_) g4 g4'
  rw [g3, g3'] at hh
  have := ha hh
  rw [this] at g1
  exact Option.some.inj (g1.symm.trans g1')

theorem MStore.putE_error {s : MState} {d : Nat} {x : R Modulo} {e : Panic} (h : s.putE d x = .error e) :
    x = .error e := by
  cases x with
  | error e' => cases h; rfl
  | ok a => cases h

theorem MInstr.leaves_eq (hv : cfg.Valid) (ha : Function.Injective addr) (be : Bool) (h : MState.Means cfg addr s v)
    {c : MInstr} {e : Panic} (he : c.exec cfg be addr s = .error e) (hc : ∀ i, c ≠ .num i) : c.leaves cfg s = s := by
  cases c with
  | num i => exact absurd rfl (hc i)
  | add o1 o2 d a b =>
    cases o1 with
    | ref => rfl
    | val =>
      simp only [MInstr.leaves]
      split
      · rename_i hd
        subst hd
        refine s.leftE_eq _ _ _ fun x y hx hy => ?_
        have h1 := MStore.putE_error he
        rw [hx, hy] at h1
        have h1 : Modulo.addAssign cfg.W x y = .error e := by cases o2 <;> exact h1
        rw [← Modulo.addAssignLeft_toR] at h1
        exact (h.left_unchanged hv ha hx hy).1 (by rw [Left.snd_of_error h1]; simp)
      · rfl
  | sub o1 o2 d a b =>
    cases o1 with
    | ref => rfl
    | val =>
      simp only [MInstr.leaves]
      split
      · rename_i hd
        subst hd
        refine s.leftE_eq _ _ _ fun x y hx hy => ?_
        have h1 := MStore.putE_error he
        rw [hx, hy] at h1
        have h1 : Modulo.subAssign cfg.W x y = .error e := by cases o2 <;> exact h1
        rw [← Modulo.subAssignLeft_toR] at h1
        exact (h.left_unchanged hv ha hx hy).2.1 (by rw [Left.snd_of_error h1]; simp)
      · rfl
  | mul o1 o2 d a b =>
    cases o1 with
    | ref => rfl
    | val =>
      simp only [MInstr.leaves]
      split
      · rename_i hd
        subst hd
        refine s.leftE_eq _ _ _ fun x y hx hy => ?_
        have h1 := MStore.putE_error he
        rw [hx, hy] at h1
        have h1 : Modulo.mulAssign cfg x y = .error e := by cases o2 <;> exact h1
        rw [← Modulo.mulAssignLeft_toR] at h1
        exact (h.left_unchanged hv ha hx hy).2.2.1 (by rw [Left.snd_of_error h1]; simp)
      · rfl
  | cloneFrom d a =>
    refine s.leftE_eq _ _ _ fun x y hx hy => ?_
    have h1 := MStore.putE_error he
    rw [hx, hy] at h1
    have h1 : Modulo.cloneFrom x y = .error e := h1
    rw [← Modulo.cloneFromLeft_toR] at h1
    have h2 := (h.left_unchanged hv ha hx hy).2.2.2
    rw [Left.snd_of_error h1] at h2
    cases h2
  | _ => rfl

theorem MInstr.leaves_ref (hv : cfg.Valid) (ha : Function.Injective addr) (be : Bool) (h : MState.Means cfg addr s v)
    {c : MInstr} {e : Panic} (he : c.exec cfg be addr s = .error e) :
    MState.Means cfg addr (c.leaves cfg s) (c.mathLeaves v) := by
  by_cases hc : ∀ i, c ≠ .num i
  · rw [MInstr.leaves_eq hv ha be h he hc]
    cases c <;> first | exact h | exact absurd rfl (hc _)
  · push Not at hc
    obtain ⟨i, rfl⟩ := hc
    obtain ⟨h1, h2⟩ := Instr.leaves_ref hv h.wf i
    exact ⟨h1, by rw [h.values] at h2; exact h2, h.ring, h.elem⟩

theorem MInstr.undefined_math (N : Nat) (v : MathState) (c : MInstr) (h : ¬c.Defined v) :
    c.math N v = .error .unwrap ∧ c.mathLeaves v = v := by
  have hx : ∀ {α : Type} {x : Option α}, ¬(x ≠ none) → unwrapR x = .error .unwrap := by
    intro α x hx
    rw [not_not.mp hx]
    rfl
  cases c with
  | num i => exact absurd trivial h
  | ring d a => exact absurd trivial h
  | ringEq r r' =>
    refine ⟨?_, rfl⟩
    simp only [MInstr.Defined, not_and_or] at h
    simp only [MInstr.math]
    rcases h with h | h
    · rw [hx h]; rfl
    · rw [hx h]
      generalize v.ring r = q
      cases q <;> rfl
  | _ =>
    refine ⟨?_, rfl⟩
    simp only [MInstr.Defined, not_and_or] at h
    simp only [MInstr.math]
    first
    | rw [hx h]; rfl
    | rcases h with h | h
      · rw [hx h]; rfl
      · rw [hx h]
        generalize v.elem _ = q
        cases q <;> rfl

theorem runModBlock_ref (hv : cfg.Valid) (ha : Function.Injective addr) (be : Bool) (p : List MInstr)
    (hp : ∀ c ∈ p, c.OK cfg) (h : MState.Means cfg addr s v) :
    ∃ w, ModBlock cfg p v w (runModBlock cfg be addr p s).2.1 (runModBlock cfg be addr p s).2.2 ∧
      MState.Means cfg addr (runModBlock cfg be addr p s).1 w := by
  induction p generalizing s v with
  | nil => exact ⟨v, .done v, h⟩
  | cons c p ih =>
    unfold runModBlock
    cases hx : c.exec cfg be addr s with
    | ok t =>
      obtain ⟨t, o⟩ := t
      rcases MInstr.ref hv ha be h (hp c (by simp)) with hr | hr
      · rw [hx] at hr
        generalize hy : c.math cfg.bits v = y at hr
        match y, hr with
        | .ok (v', o'), ⟨t', h1, h2⟩ =>
          cases h1
          obtain ⟨w, g1, g2⟩ := ih (fun c hc => hp c (by simp [hc])) h2
          exact ⟨w, .step hy g1, g2⟩
      · rw [hx] at hr
        rcases hr.1 with hr | hr <;> cases hr
    | error e =>
      dsimp only
      have hl := MInstr.leaves_ref hv ha be h hx
      rcases MInstr.ref hv ha be h (hp c (by simp)) with hr | hr
      · rw [hx] at hr
        generalize hy : c.math cfg.bits v = y at hr
        match y, hr with
        | .ok (v', o'), ⟨t', h1, _⟩ => cases h1
        | .error e', h1 =>
          cases h1
          by_cases hd : c.Defined v
          · exact ⟨_, .panic hy (MInstr.docs _ v c hd e hy), hl⟩
          · obtain ⟨h2, h3⟩ := MInstr.undefined_math cfg.bits v c hd
            rw [hy] at h2
            cases h2
            rw [h3] at hl
            exact ⟨v, .undefined hd, hl⟩
      · rw [hx] at hr
        refine ⟨_, .limit hr.2 ?_, hl⟩
        rcases hr.1 with hr | hr <;> cases hr
        · exact .inl rfl
        · exact .inr rfl

theorem ModBlock.kinds {p : List MInstr} {w : MathState} {o : List Obs} {e : Option Panic} (h : ModBlock cfg p v w o e) :
    ∀ e', e = some e' → DocumentedM e' ∨ e' = .outOfMemory ∨ e' = .unwrap := by
  induction h with
  | done => intro e h; cases h
  | step _ _ ih => exact ih
  | panic _ hd => intro e h; cases h; exact .inl hd
  | limit _ hd =>
    intro e h
    cases h
    rcases hd with rfl | rfl
    · exact .inl (.inl (by simp [Documented]))
    · exact .inr (.inl rfl)
  | undefined => intro e h; cases h; exact .inr (.inr rfl)

theorem ModCaught.kinds {bs : List (List MInstr)} {w : MathState} {seen : List (List Obs × Option Panic)}
    (h : ModCaught cfg bs v w seen) :
    ∀ r ∈ seen, ∀ e, r.2 = some e → DocumentedM e ∨ e = .outOfMemory ∨ e = .unwrap := by
  induction h with
  | nil => intro r hr; cases hr
  | cons hb _ ih =>
    intro r hr
    simp only [List.mem_cons] at hr
    rcases hr with rfl | hr
    · exact hb.kinds
    · exact ih r hr

theorem runModCaught_ref (hv : cfg.Valid) (ha : Function.Injective addr) (be : Bool) (bs : List (List MInstr))
    (hp : ∀ b ∈ bs, ∀ c ∈ b, c.OK cfg) (h : MState.Means cfg addr s v) :
    ∃ w, ModCaught cfg bs v w (runModCaught cfg be addr bs s).2 ∧
      MState.Means cfg addr (runModCaught cfg be addr bs s).1 w := by
  induction bs generalizing s v with
  | nil => exact ⟨v, .nil v, h⟩
  | cons b bs ih =>
    obtain ⟨w, h1, h2⟩ := runModBlock_ref hv ha be b (hp b (by simp)) h
    obtain ⟨w', g1, g2⟩ := ih (fun b hb => hp b (by simp [hb])) h2
    exact ⟨w', .cons h1 g1, g2⟩

end Ibig
