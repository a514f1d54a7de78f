import Verif.Proofs.Accumulate
import Verif.Proofs.AddOps
import Verif.Proofs.GcdLimit
/-!
The amortized cost of `x += y` and `x -= y` (for C81).
-/
namespace Ibig.Timed.Exact

variable {cfg : Cfg}

theorem potB_mono {c : Nat} {b d : Buffer} {k n : Nat} (h : k + d.words.count c ≤ b.words.count c + n)
    (hl : d.words.length = b.words.length) (hc : d.cap = b.cap) : k + potB cfg c d ≤ potB cfg c b + n := by
  unfold potB pot
  rw [hl, hc]
  omega

theorem sat_uaddLargeWord (hW : 1 ≤ cfg.W) (hs : ∀ n, cfg.spare n = 0) {b : Buffer} (hb : IsWords cfg.W b.words)
    (hf : b.words.length ≤ b.cap) (hm : b.cap ≤ cfg.maxCap) (x : Nat) :
    Sat (UBig.addLargeWord cfg b x) fun y k => k + potU cfg (base cfg.W - 1) y ≤ potB cfg (base cfg.W - 1) b + 33 := by
  unfold UBig.addLargeWord
  refine Sat.bind (Q := fun _ k => k = 1) (sat_pass fun _ _ => rfl) ?_
  rintro _ k rfl
  refine Sat.bind (sat_addWord hW hb x) ?_
  rintro ⟨ws, o⟩ k ⟨h1, h2⟩
  have h3 : k + potB cfg (base cfg.W - 1) { b with words := ws } ≤ potB cfg (base cfg.W - 1) b + 4 := potB_mono h1 h2 rfl
  refine sat_ite (fun _ => ?_) (fun _ => (sat_ofBuffer hs (c := base cfg.W - 1) (b := { b with words := ws }) hm).mono ?_)
  · refine Sat.bind (sat_pushMayReallocate hs (c := base cfg.W - 1) (b := { b with words := ws }) hm (h2.trans_le hf) 1) ?_
    rintro d l ⟨h4, h5⟩
    refine (sat_ofBuffer hs (c := base cfg.W - 1) h5).mono ?_
    intro y m hy
    omega
  · intro y m hy
    omega

theorem sat_uaddWord (hs : ∀ n, cfg.spare n = 0) (a b : Nat) :
    Sat (UBig.addWord cfg a b) fun y k => k + potU cfg (base cfg.W - 1) y ≤ 30 := by
  unfold UBig.addWord
  refine Sat.bind (Q := fun _ k => k = 1) (sat_tick rfl) ?_
  rintro _ k rfl
  refine sat_ite (fun _ => ?_) (fun _ => sat_pure (by show 1 + 0 + 0 ≤ 30; omega))
  refine Sat.bind (Q := fun d k => k = 1 ∧ d.words = [] ∧ d.cap = 4) (sat_pass fun d hd => ?_) ?_
  · rw [Buffer.allocate_ok (by omega)] at hd
    cases hd
    refine ⟨rfl, rfl, ?_⟩
    show allocCap cfg 2 = 4
    unfold allocCap; rw [hs]; omega
  rintro d k ⟨rfl, h1, h2⟩
  have push : ∀ (d : Buffer) (w : Nat), Sat (Timed.Buffer.push d w) fun e k => k = 1 ∧ e.words = d.words ++ [w] ∧ e.cap = d.cap := by
    intro d w
    refine sat_pass fun e he => ?_
    unfold Ibig.Buffer.push at he
    by_cases hp : d.len < d.cap
    · rw [assertR_true hp] at he
      cases he
      exact ⟨rfl, rfl, rfl⟩
    · unfold Ibig.assertR at he; rw [if_neg hp] at he; cases he
  refine Sat.bind (push _ _) ?_
  rintro e k ⟨rfl, h3, h4⟩
  refine Sat.bind (push _ _) ?_
  rintro f k ⟨rfl, h5, h6⟩
  have hcap : f.cap = 4 := by rw [h6, h4, h2]
  have hlen : f.words.length = 2 := by rw [h5, h3, h1]; rfl
  refine (sat_ofBuffer hs (c := base cfg.W - 1) (b := f) (by rw [hcap]; unfold Cfg.maxCap; omega)).mono ?_
  intro y m hy
  have hc := List.count_le_length (a := base cfg.W - 1) (l := f.words)
  have : potB cfg (base cfg.W - 1) f ≤ 22 := by
    unfold potB pot
    rw [hlen, hcap]
    split_ifs <;> omega
  omega

theorem sat_slice (l : List Nat) (i j : Nat) :
    Sat (Timed.sliceR l i j) fun r k => k = 1 ∧ r = (l.take j).drop i ∧ i ≤ j ∧ j ≤ l.length := by
  refine sat_pass fun r hr => ?_
  unfold Ibig.sliceR at hr
  split_ifs at hr with h
  cases hr
  exact ⟨rfl, rfl, h⟩

theorem extend_ok' {b d : Buffer} {ws : List Nat} (h : Ibig.Buffer.extend b ws = .ok d) :
    d.words = b.words ++ ws ∧ d.cap = b.cap := by
  induction ws generalizing b with
  | nil => unfold Ibig.Buffer.extend at h; cases h; simp
  | cons w ws ih =>
    unfold Ibig.Buffer.extend Ibig.Buffer.push at h
    by_cases hp : b.len < b.cap
    · rw [assertR_true hp] at h
      obtain ⟨h1, h2⟩ := ih (b := { b with words := b.words ++ [w] }) h
      exact ⟨by rw [h1]; simp, h2⟩
    · unfold Ibig.assertR at h; rw [if_neg hp] at h; cases h

/-- After the rest of the longer operand has been appended. -/
theorem sat_appendRest (hs : ∀ n, cfg.spare n = 0) {b : Buffer} {rhs : List Nat} {n : Nat}
    (hn : n = min b.words.length rhs.length) (hb : IsWords cfg.W (b.words.drop n)) (hr : IsWords cfg.W rhs)
    (hf : b.words.length ≤ b.cap) (hm : b.cap ≤ cfg.maxCap) (c : Nat) :
    Sat (appendRest cfg b rhs n) fun d k => k + potB cfg c d ≤ potB cfg c b + 13 * rhs.length + 5 ∧
      IsWords cfg.W (d.words.drop n) ∧ n ≤ d.words.length ∧ d.words.length ≤ d.cap ∧ d.cap ≤ cfg.maxCap := by
  unfold appendRest
  refine sat_ite (fun hlt => ?_) (fun _ => sat_pure ⟨by omega, hb, by omega, hf, hm⟩)
  have hL : n = b.words.length := by omega
  refine Sat.bind (Q := fun d k => k ≤ b.words.length + 2 ∧ d.words = b.words ∧ rhs.length ≤ d.cap ∧ d.cap ≤ cfg.maxCap ∧
    (d.cap = b.cap ∨ d.cap = min (rhs.length + rhs.length / 8 + 2) cfg.maxCap)) ?_ ?_
  · unfold Buffer.ensureCapacity
    refine Sat.bind (Q := fun _ k => k = 1) (sat_tick rfl) ?_
    rintro _ k rfl
    refine sat_ite (fun _ => (sat_reallocate hs b _).mono ?_) (fun h => sat_pure ⟨by omega, rfl, by omega, hm, Or.inl rfl⟩)
    rintro a l ⟨rfl, h1, h2, h3, h4⟩
    exact ⟨by omega, h1, by omega, by omega, Or.inr h2⟩
  rintro d k ⟨hk, hw, hc1, hc2, hc3⟩
  refine Sat.bind (sat_slice _ _ _) ?_
  rintro r l ⟨rfl, rfl, -, -⟩
  refine sat_pass fun e he => ?_
  obtain ⟨h1, h2⟩ := extend_ok' he
  rw [List.take_length] at h1 ⊢
  rw [hw] at h1
  have hlen : e.words.length = rhs.length := by
    rw [h1, List.length_append, List.length_drop]; omega
  refine ⟨?_, ?_, by omega, by omega, by omega⟩
  · have hcnt := List.count_le_length (a := c) (l := e.words)
    rw [List.length_drop]
    unfold potB pot
    rw [hlen] at hcnt ⊢
    rw [h2]
    rcases hc3 with h | h <;> rw [h] at hc1 ⊢
    · split_ifs <;> omega
    · split_ifs <;> omega
  · rw [h1, List.drop_append_of_le_length (by omega), hL, List.drop_length, List.nil_append]
    exact fun x hx => hr x (List.mem_of_mem_drop hx)

theorem sat_uaddLarge (hW : 1 ≤ cfg.W) (hs : ∀ n, cfg.spare n = 0) {b : Buffer} {rhs : List Nat} (hb : IsWords cfg.W b.words)
    (hr : IsWords cfg.W rhs) (hf : b.words.length ≤ b.cap) (hm : b.cap ≤ cfg.maxCap) :
    Sat (UBig.addLarge cfg b rhs) fun y k =>
      k + potU cfg (base cfg.W - 1) y ≤ potB cfg (base cfg.W - 1) b + 15 * rhs.length + 40 := by
  unfold UBig.addLarge
  have hbl : b.len = b.words.length := rfl
  set c := base cfg.W - 1 with hc
  refine Sat.bind (sat_slice _ _ _) ?_
  rintro r k ⟨rfl, rfl, -, -⟩
  set n := min b.len rhs.length with hn
  have hrl : ((rhs.take n).drop 0).length ≤ n := by simp only [List.drop_zero, List.length_take]; omega
  refine Sat.bind (Q := fun p k => k + p.1.count c ≤ b.words.count c + 2 * n + 2 ∧ p.1.length = b.words.length ∧
    p.1.drop n = b.words.drop n) ?_ ?_
  · unfold Timed.onSlice
    refine Sat.bind (sat_slice _ _ _) ?_
    rintro s k ⟨rfl, rfl, -, h1⟩
    refine Sat.bind (Q := fun p k => k ≤ n + 1 ∧ p.1.length = n) ?_ ?_
    · unfold Timed.addSameLen
      refine Sat.bind (Q := fun _ k => k = 1) (sat_pass fun _ _ => rfl) ?_
      rintro _ k rfl
      refine (sat_addLoop _ _ _ _).mono ?_
      rintro p k ⟨h2, h3⟩
      refine ⟨by omega, ?_⟩
      rw [h3]; simp only [List.drop_zero, List.length_take]; omega
    · rintro ⟨s, o⟩ k ⟨h2, h3⟩
      simp only at h3
      refine sat_pure ⟨?_, ?_, ?_⟩
      · simp only [List.take_zero, List.nil_append, List.count_append]
        have h4 := List.count_le_length (a := c) (l := s)
        have h5 : (b.words.drop n).count c ≤ b.words.count c := (List.drop_sublist _ _).count_le c
        omega
      · simp only [List.take_zero, List.nil_append, List.length_append, List.length_drop]; omega
      · simp only [List.take_zero, List.nil_append]
        rw [List.drop_append_of_le_length (by omega), ← h3, List.drop_length, List.nil_append]
  rintro ⟨ws, o⟩ k ⟨h1, h2, h3⟩
  simp only at h1 h2 h3
  have h4 : k + potB cfg c { b with words := ws } ≤ potB cfg c b + (2 * n + 2) := potB_mono h1 h2 rfl
  refine Sat.bind (sat_appendRest hs (b := { b with words := ws }) (rhs := rhs) (n := n) (by rw [hn, hbl, ← h2])
    (by rw [h3]; exact fun x hx => hb x (List.mem_of_mem_drop hx)) hr (h2.trans_le hf) hm c) ?_
  rintro d l ⟨h5, h6, h7, h8, h9⟩
  refine sat_ite (fun _ => ?_) (fun _ => (sat_ofBuffer hs (c := c) h9).mono fun y m hy => by omega)
  refine Sat.bind (Q := fun p k => k + p.1.count c ≤ d.words.count c + 3 ∧ p.1.length = d.words.length) ?_ ?_
  · unfold Timed.onSlice
    refine Sat.bind (sat_slice _ _ _) ?_
    rintro s k ⟨rfl, rfl, -, -⟩
    have e : d.words.take d.len = d.words := List.take_length
    rw [e]
    refine Sat.bind (sat_addOne hW h6) ?_
    rintro ⟨s, o⟩ k ⟨g1, g2⟩
    simp only at g1 g2
    rw [← hc] at g1
    have e2 : d.words.drop d.len = [] := List.drop_length
    refine sat_pure ⟨?_, ?_⟩
    · simp only [e2, List.append_nil, List.count_append]
      have g3 : d.words.count c = (d.words.take n).count c + (d.words.drop n).count c := by
        rw [← List.count_append, List.take_append_drop]
      omega
    · simp only [e2, List.append_nil, List.length_append, List.length_take, g2, List.length_drop]
      omega
  rintro ⟨ws', o'⟩ m ⟨g1, g2⟩
  simp only at g1 g2
  have g3 : m + potB cfg c { d with words := ws' } ≤ potB cfg c d + 3 := potB_mono g1 g2 rfl
  refine sat_ite (fun _ => ?_) (fun _ => (sat_ofBuffer hs (c := c) (b := { d with words := ws' }) h9).mono fun y m hy => by omega)
  refine Sat.bind (sat_pushMayReallocate hs (c := c) (b := { d with words := ws' }) h9 (g2.trans_le h8) 1) ?_
  rintro e q ⟨f1, f2⟩
  exact (sat_ofBuffer hs (c := c) f2).mono fun y m hy => by omega

theorem sat_usubLargeWord (hW : 1 ≤ cfg.W) (hs : ∀ n, cfg.spare n = 0) {b : Buffer} (hm : b.cap ≤ cfg.maxCap) (x : Nat) :
    Sat (UBig.subLargeWord cfg b x) fun y k => k + potU cfg 0 y ≤ potB cfg 0 b + 9 := by
  unfold UBig.subLargeWord
  refine Sat.bind (sat_subWord hW b.words x) ?_
  rintro ⟨ws, o⟩ k ⟨h1, h2⟩
  have h3 : k + potB cfg 0 { b with words := ws } ≤ potB cfg 0 b + 4 := potB_mono h1 h2 rfl
  refine Sat.bind (Q := fun _ k => k = 1) (sat_pass fun _ _ => rfl) ?_
  rintro _ l rfl
  exact (sat_ofBuffer hs (c := 0) (b := { b with words := ws }) hm).mono fun y m hy => by omega

theorem sat_usubLarge (hW : 1 ≤ cfg.W) (hs : ∀ n, cfg.spare n = 0) {b : Buffer} {rhs : List Nat} (hm : b.cap ≤ cfg.maxCap) :
    Sat (UBig.subLarge cfg b rhs) fun y k => k + potU cfg 0 y ≤ potB cfg 0 b + 2 * rhs.length + 8 := by
  unfold UBig.subLarge
  refine sat_ite (fun _ => sat_throw) (fun hlt => ?_)
  have hbl : b.len = b.words.length := rfl
  rw [hbl] at hlt
  refine Sat.bind (Q := fun p k => k + p.1.count 0 ≤ b.words.count 0 + (2 * rhs.length + 4) ∧ p.1.length = b.words.length) ?_ ?_
  · unfold Timed.subInPlace
    refine Sat.bind (Q := fun p k => k = 1 ∧ p = (b.words.take rhs.length, b.words.drop rhs.length))
      (sat_pass fun p hp => ⟨rfl, ?_⟩) ?_
    · unfold Ibig.splitR at hp
      split_ifs at hp
      cases hp
      rfl
    rintro _ k ⟨rfl, rfl⟩
    have hcnt : b.words.count 0 = (b.words.take rhs.length).count 0 + (b.words.drop rhs.length).count 0 := by
      rw [← List.count_append, List.take_append_drop]
    refine Sat.bind (Q := fun p k => k ≤ rhs.length + 1 ∧ p.1.length = rhs.length) ?_ ?_
    · unfold Timed.subSameLen
      refine Sat.bind (Q := fun _ k => k = 1) (sat_pass fun _ _ => rfl) ?_
      rintro _ k rfl
      refine (sat_subLoop _ _ _ _).mono ?_
      rintro p k ⟨h2, h3⟩
      refine ⟨by omega, ?_⟩
      rw [h3]; simp only [List.length_take]; omega
    rintro ⟨lo, o⟩ k ⟨h1, h2⟩
    simp only at h2
    have h4 := List.count_le_length (a := 0) (l := lo)
    refine sat_ite (fun _ => ?_) (fun _ => sat_pure ⟨?_, ?_⟩)
    · refine Sat.bind (sat_subOne hW _) ?_
      rintro ⟨hi, o⟩ l ⟨h5, h6⟩
      simp only at h5 h6
      refine sat_pure ⟨?_, ?_⟩
      · simp only [List.count_append]; omega
      · simp only [List.length_append, h6, List.length_drop]; omega
    · simp only [List.count_append]; omega
    · simp only [List.length_append, List.length_drop]; omega
  rintro ⟨ws, o⟩ k ⟨h1, h2⟩
  have h3 : k + potB cfg 0 { b with words := ws } ≤ potB cfg 0 b + (2 * rhs.length + 4) := potB_mono h1 h2 rfl
  exact sat_ite (fun _ => sat_throw)
    (fun _ => (sat_ofBuffer hs (c := 0) (b := { b with words := ws }) hm).mono fun y m hy => by omega)

/-! ### The operators -/

theorem cap_le (hs : ∀ n, cfg.spare n = 0) {b : Buffer} (hb : b.WF cfg) :
    b.cap ≤ b.words.length + b.words.length / 4 + 4 ∧ b.cap ≤ cfg.maxCap := by
  have := hb.compact hs
  unfold Cfg.maxCap
  omega

theorem potB_le (hs : ∀ n, cfg.spare n = 0) {b : Buffer} (hb : b.WF cfg) (c : Nat) :
    potB cfg c b ≤ 13 * b.words.length + 16 := by
  have h1 := cap_le hs hb
  have h2 := hb.fits
  have h3 := List.count_le_length (a := c) (l := b.words)
  unfold potB pot
  split_ifs <;> omega

theorem potU_le (hs : ∀ n, cfg.spare n = 0) {x : UBig} (hx : x.WF cfg) (c : Nat) : potU cfg c x ≤ 13 * x.len + 16 := by
  cases x with
  | small w => exact Nat.zero_le _
  | large b => exact potB_le hs hx c

theorem sat_uadd (hW : 1 ≤ cfg.W) (hs : ∀ n, cfg.spare n = 0) (o : Own) {x y : UBig} (hx : x.WF cfg) (hy : y.WF cfg) :
    Sat (UBig.add cfg o x y) fun z k =>
      k + potU cfg (base cfg.W - 1) z ≤ potU cfg (base cfg.W - 1) x + 28 * y.len + 56 := by
  cases x with
  | small w0 =>
    cases y with
    | small w1 => cases o <;> exact (sat_uaddWord hs w0 w1).mono fun z k h => by omega
    | large b1 =>
      have e : (UBig.large b1).len = b1.words.length := rfl
      rw [e]
      cases o with
      | val =>
        have h1 := potB_le hs hy (base cfg.W - 1)
        exact (sat_uaddLargeWord hW hs hy.words (Buffer.WF.fits hy) (cap_le hs hy).2 w0).mono fun z k h => by omega
      | ref =>
        refine Sat.bind (Q := fun d k => k = b1.words.length + 1 ∧ d.words = b1.words ∧
          d.cap = min (b1.words.length + b1.words.length / 8 + 2) cfg.maxCap) (sat_pass fun d hd => ?_) ?_
        · unfold Ibig.Buffer.clone Buffer.len at hd
          have hl := hy.len
          rw [Buffer.allocate_ok (by omega)] at hd
          have h3 : b1.len ≤ allocCap cfg b1.words.length := by
            unfold allocCap; have : b1.len = b1.words.length := rfl; omega
          replace hd : Ibig.Buffer.cloneFrom ⟨[], allocCap cfg b1.words.length⟩ b1 = .ok d := hd
          unfold Ibig.Buffer.cloneFrom at hd
          rw [assertR_true h3] at hd
          cases hd
          refine ⟨rfl, rfl, ?_⟩
          show allocCap cfg b1.words.length = _
          unfold allocCap Cfg.maxCap; rw [hs]; omega
        · rintro d k ⟨rfl, h1, h2⟩
          have hl := hy.len
          have hm : cfg.maxCap = cfg.maxLen + 4 := rfl
          have h3 : potB cfg (base cfg.W - 1) d ≤ 11 * b1.words.length := by
            have h4 := List.count_le_length (a := base cfg.W - 1) (l := b1.words)
            unfold potB pot
            rw [h1, h2]
            split_ifs <;> omega
          exact (sat_uaddLargeWord hW hs (h1 ▸ hy.words) (by rw [h1]; omega) (by omega) w0).mono fun z k h => by omega
  | large b0 =>
    cases y with
    | small w1 =>
      cases o <;> exact (sat_uaddLargeWord hW hs hx.words (Buffer.WF.fits hx) (cap_le hs hx).2 w1).mono fun z k h => by
        simp only [potU] at h ⊢; omega
    | large b1 =>
      have e : (UBig.large b1).len = b1.words.length := rfl
      have e0 : potU cfg (base cfg.W - 1) (.large b0) = potB cfg (base cfg.W - 1) b0 := rfl
      rw [e, e0]
      cases o with
      | ref => exact (sat_uaddLarge hW hs hx.words hy.words (Buffer.WF.fits hx) (cap_le hs hx).2).mono fun z k h => by omega
      | val =>
        refine sat_ite (fun _ => (sat_uaddLarge hW hs hx.words hy.words (Buffer.WF.fits hx) (cap_le hs hx).2).mono fun z k h => by omega) ?_
        intro hlt
        have hlt' : ¬b1.words.length ≤ b0.words.length := hlt
        have h1 := potB_le hs hy (base cfg.W - 1)
        exact (sat_uaddLarge hW hs hy.words hx.words (Buffer.WF.fits hy) (cap_le hs hy).2).mono fun z k h => by omega

theorem sat_usub (hW : 1 ≤ cfg.W) (hs : ∀ n, cfg.spare n = 0) {x y : UBig} (hx : x.WF cfg) :
    Sat (UBig.sub cfg x y) fun z k => k + potU cfg 0 z ≤ potU cfg 0 x + 2 * y.len + 9 := by
  cases x with
  | small w0 =>
    cases y with
    | small w1 =>
      refine Sat.bind (Q := fun _ k => k = 1) (sat_tick rfl) ?_
      rintro _ k rfl
      unfold Timed.UBig.subWord
      exact sat_ite (fun _ => sat_pure (by show 1 + 0 + 0 ≤ _; omega)) (fun _ => sat_throw)
    | large b1 => exact sat_throw
  | large b0 =>
    have e0 : potU cfg 0 (.large b0) = potB cfg 0 b0 := rfl
    rw [e0]
    cases y with
    | small w1 => exact (sat_usubLargeWord hW hs (cap_le hs hx).2 w1).mono fun z k h => by omega
    | large b1 =>
      have e : (UBig.large b1).len = b1.words.length := rfl
      rw [e]
      exact (sat_usubLarge hW hs (cap_le hs hx).2).mono fun z k h => by omega

/-- The steps and the potential, over the whole loop. -/
theorem addAll_steps {cfg : Cfg} (hv : cfg.Valid) (hs : ∀ n, cfg.spare n = 0) {x : UBig} (hx : x.WF cfg)
    {ys : List (Own × UBig)} {m : ℕ} (hy : ∀ y ∈ ys, y.2.WF cfg ∧ y.2.len ≤ m)
    (hfit : Fits cfg (x.value cfg + (ys.map fun y => y.2.value cfg).sum)) :
    ∃ z k, addAll cfg x ys = .ok (z, k) ∧ z.WF cfg ∧ z.value cfg = x.value cfg + (ys.map fun y => y.2.value cfg).sum ∧
      k + potU cfg (base cfg.W - 1) z ≤ potU cfg (base cfg.W - 1) x + (28 * m + 56) * ys.length := by
  induction ys generalizing x with
  | nil => exact ⟨x, 0, rfl, hx, by simp, by simp⟩
  | cons y ys ih =>
    obtain ⟨h1, h2⟩ := hy y (by simp)
    simp only [List.map_cons, List.sum_cons] at hfit ⊢
    obtain ⟨u, e, hu, huv⟩ := (Ibig.UBig.add_spec hv .val y.1 hx h1).1 (hfit.mono (by omega))
    have hr := Exact.UBig.add_result cfg y.1 x y.2
    rw [e] at hr
    obtain ⟨l, hl⟩ : ∃ l, Exact.UBig.add cfg y.1 x y.2 = .ok (u, l) := by
      revert hr
      rcases Exact.UBig.add cfg y.1 x y.2 with er | ⟨a, l⟩
      · intro h; cases h
      · intro h; cases h; exact ⟨l, rfl⟩
    have hp := sat_uadd (by have := hv.W16; omega) hs y.1 hx h1 u l hl
    obtain ⟨z, k, hz, h3, h4, h5⟩ := ih hu (fun y hy' => hy y (by simp [hy'])) (by rw [huv]; exact hfit.mono (by omega))
    refine ⟨z, l + k, ?_, h3, by rw [h4, huv]; omega, ?_⟩
    · show Timed.bind _ (fun x => addAll cfg x ys) = _
      rw [hl]
      simp only [Timed.bind, hz]
      rfl
    · rw [List.length_cons, Nat.mul_succ]
      have : 28 * y.2.len ≤ 28 * m := Nat.mul_le_mul_left _ h2
      omega

/-- The same for subtraction. -/
theorem subAll_steps {cfg : Cfg} (hv : cfg.Valid) (hs : ∀ n, cfg.spare n = 0) {x : UBig} (hx : x.WF cfg)
    {ys : List (Own × UBig)} {m : ℕ} (hy : ∀ y ∈ ys, y.2.WF cfg ∧ y.2.len ≤ m)
    (hle : (ys.map fun y => y.2.value cfg).sum ≤ x.value cfg) :
    ∃ z k, subAll cfg x ys = .ok (z, k) ∧ z.WF cfg ∧ z.value cfg = x.value cfg - (ys.map fun y => y.2.value cfg).sum ∧
      k + potU cfg 0 z ≤ potU cfg 0 x + (2 * m + 9) * ys.length := by
  induction ys generalizing x with
  | nil => exact ⟨x, 0, rfl, hx, by simp, by simp⟩
  | cons y ys ih =>
    obtain ⟨h1, h2⟩ := hy y (by simp)
    simp only [List.map_cons, List.sum_cons] at hle ⊢
    obtain ⟨u, e, hu, huv⟩ := ((Ibig.UBig.sub_spec hv .val y.1 hx h1).1 (by omega)).1
      ((UBig.WF.fits hv hx).mono (by omega))
    have hr := Exact.UBig.sub_result cfg y.1 x y.2
    rw [e] at hr
    obtain ⟨l, hl⟩ : ∃ l, Exact.UBig.sub cfg x y.2 = .ok (u, l) := by
      revert hr
      rcases Exact.UBig.sub cfg x y.2 with er | ⟨a, l⟩
      · intro h; cases h
      · intro h; cases h; exact ⟨l, rfl⟩
    have hp := sat_usub (by have := hv.W16; omega) hs (y := y.2) hx u l hl
    obtain ⟨z, k, hz, h3, h4, h5⟩ := ih hu (fun y hy' => hy y (by simp [hy'])) (by rw [huv]; omega)
    refine ⟨z, l + k, ?_, h3, by rw [h4, huv]; omega, ?_⟩
    · show Timed.bind _ (fun x => subAll cfg x ys) = _
      rw [hl]
      simp only [Timed.bind, hz]
      rfl
    · rw [List.length_cons, Nat.mul_succ]
      have : 2 * y.2.len ≤ 2 * m := Nat.mul_le_mul_left _ h2
      omega

/-! ### Alternating additions and subtractions -/

theorem sat_addOne_ones {W : Nat} : ∀ m, Sat (addOne W (List.replicate m (base W - 1))) fun _ k => m ≤ k
  | 0 => sat_pure (Nat.zero_le _)
  | m + 1 => by
    have hB : 1 ≤ base W := Nat.one_le_two_pow
    rw [List.replicate_succ]
    unfold addOne
    refine Sat.bind (Q := fun _ k => k = 1) (sat_tick rfl) ?_
    rintro _ k rfl
    refine sat_ite (fun h => ?_) (fun h => ?_)
    · exfalso
      unfold overflowingAdd at h
      simp at h
      omega
    · refine Sat.bind (sat_addOne_ones m) ?_
      rintro ⟨r, o⟩ k hk
      exact sat_pure (by omega)

theorem sat_addWord_ones {W : Nat} (m : Nat) : Sat (addWord W (List.replicate m (base W - 1)) 1) fun _ k => m ≤ k := by
  cases m with
  | zero => exact sat_throw
  | succ m =>
    have hB : 1 ≤ base W := Nat.one_le_two_pow
    rw [List.replicate_succ]
    unfold addWord
    refine Sat.bind (Q := fun _ k => k = 1) (sat_tick rfl) ?_
    rintro _ k rfl
    refine sat_ite (fun h => ?_) (fun h => ?_)
    · refine Sat.bind (sat_addOne_ones m) ?_
      rintro ⟨r, o⟩ k hk
      exact sat_pure (by omega)
    · exfalso
      unfold overflowingAdd at h
      simp at h
      omega

/-- Adding 1 to `2 ^ (n W) - 1` passes over all `n` words. -/
theorem sat_add_ones {x : UBig} (hx : x.WF cfg) (hW : 1 ≤ cfg.W) {n : Nat} (hn : 2 ≤ n)
    (he : x.value cfg + 1 = base cfg.W ^ n) : Sat (UBig.add cfg .val x (.small 1)) fun _ k => n ≤ k := by
  have hB : 2 ≤ base cfg.W := by
    have := Nat.pow_le_pow_right (n := 2) (by norm_num) hW
    unfold base; omega
  cases x with
  | small w =>
    exfalso
    have h1 : w < base cfg.W := hx
    have h2 : w + 1 = base cfg.W ^ n := he
    have h3 : base cfg.W ^ 2 ≤ base cfg.W ^ n := Nat.pow_le_pow_right (by omega) hn
    nlinarith
  | large b =>
    have h0 : Buffer.WF cfg b := hx
    have h1 : val cfg.W b.words + 1 = base cfg.W ^ n := he
    have h2 := val_replicate_max cfg.W n
    have hw : b.words = List.replicate n (base cfg.W - 1) := by
      refine val_inj h0.words (fun w h => by rw [List.eq_of_mem_replicate h]; omega) ?_ (by omega)
      rw [List.length_replicate]
      have hl := val_lt h0.words
      have ht := val_top_ge (W := cfg.W) (List.ne_nil_of_length_pos (by have := h0.two; omega)) h0.top
      have h3 : n ≤ b.words.length := by
        by_contra hc
        have : base cfg.W ^ (b.words.length + 1) ≤ base cfg.W ^ n := Nat.pow_le_pow_right (by omega) (by omega)
        have h4 : 2 * base cfg.W ^ b.words.length ≤ base cfg.W ^ (b.words.length + 1) := by
          rw [pow_succ, mul_comm]; exact Nat.mul_le_mul_left _ hB
        have : 1 ≤ val cfg.W b.words := by
          have : 0 < base cfg.W ^ (b.words.length - 1) := Nat.pow_pos (by omega)
          omega
        omega
      by_contra hc
      have : base cfg.W ^ n ≤ base cfg.W ^ (b.words.length - 1) := Nat.pow_le_pow_right (by omega) (by omega)
      omega
    show Sat (UBig.addLargeWord cfg b 1) _
    unfold UBig.addLargeWord
    refine Sat.bind (sat_any _) fun _ _ _ => ?_
    rw [hw]
    refine Sat.bind (sat_addWord_ones n) ?_
    rintro ⟨ws, o⟩ k hk
    refine sat_ite (fun _ => Sat.bind (sat_any _) fun _ _ _ => (sat_any _).mono fun _ _ _ => by omega)
      fun _ => (sat_any _).mono fun _ _ _ => by omega

/-- `k` rounds of `x += 1; x -= 1`. -/
theorem upDown_steps (hv : cfg.Valid) {n : Nat} (hn : 2 ≤ n) (hf : Fits cfg (base cfg.W ^ n)) {x : UBig} (hx : x.WF cfg)
    (he : x.value cfg + 1 = base cfg.W ^ n) (k : Nat) :
    ∃ z l, upDown cfg x k = .ok (z, l) ∧ z.WF cfg ∧ z.value cfg = x.value cfg ∧ k * n ≤ l := by
  induction k generalizing x with
  | zero => exact ⟨x, 0, rfl, hx, rfl, by omega⟩
  | succ k ih =>
    have hW : 1 ≤ cfg.W := by have := hv.W16; omega
    have h1 : (UBig.small 1).WF cfg := Nat.one_lt_two_pow (by omega)
    obtain ⟨u, e, hu, huv⟩ := (Ibig.UBig.add_spec hv .val .val hx h1).1 (by
      show Fits cfg (x.value cfg + 1)
      rw [he]; exact hf)
    replace huv : u.value cfg = x.value cfg + 1 := huv
    have hr := UBig.add_result cfg .val x (.small 1)
    rw [e] at hr
    obtain ⟨l, hl⟩ : ∃ l, UBig.add cfg .val x (.small 1) = .ok (u, l) := by
      revert hr
      rcases UBig.add cfg .val x (.small 1) with er | ⟨a, l⟩
      · intro h; cases h
      · intro h; cases h; exact ⟨l, rfl⟩
    have hp := sat_add_ones hx hW hn he u l hl
    obtain ⟨v, e, hw, hwv⟩ := ((Ibig.UBig.sub_spec hv .val .val hu h1).1 (by show 1 ≤ _; omega)).1
      ((UBig.WF.fits hv hu).mono (by omega))
    replace hwv : v.value cfg = u.value cfg - 1 := hwv
    have hr := UBig.sub_result cfg .val u (.small 1)
    rw [e] at hr
    obtain ⟨l', hl'⟩ : ∃ l, UBig.sub cfg u (.small 1) = .ok (v, l) := by
      revert hr
      rcases UBig.sub cfg u (.small 1) with er | ⟨a, l⟩
      · intro h; cases h
      · intro h; cases h; exact ⟨l, rfl⟩
    obtain ⟨z, m, hz, h3, h4, h5⟩ := ih hw (by omega)
    refine ⟨z, l + (l' + m), ?_, h3, by omega, ?_⟩
    · show Timed.bind _ (fun x => Timed.bind _ (fun x => upDown cfg x k)) = _
      rw [hl]
      simp only [Timed.bind, hl', hz]
      rfl
    · have : n ≤ l := hp
      rw [Nat.succ_mul]
      omega

end Ibig.Timed.Exact
