import Verif.Proofs.Add
import Verif.Proofs.DivWord
import Verif.Model.Mul
namespace Ibig

/-- bound on the carry from a bound on the exact result -/
theorem AddSpec.carry_bound {W : Nat} {c c' : List Nat} {k δ : Int} (h : AddSpec W c c' k δ)
    (h0 : -(base W : Int) ^ c.length ≤ δ) (h1 : δ ≤ (base W : Int) ^ c.length)
    (hc : IsWords W c) : k.natAbs ≤ 1 := by
  have e := h.eq
  have l := val_lt h.words
  rw [h.len] at l
  have l' : (val W c' : Int) < (base W : Int) ^ c.length := by exact_mod_cast l
  have m' : (val W c : Int) < (base W : Int) ^ c.length := by exact_mod_cast val_lt hc
  have p : (0 : Int) < (base W : Int) ^ c.length := by exact_mod_cast base_pow_pos W c.length
  have q : (0 : Int) ≤ val W c' := Int.natCast_nonneg _
  have q' : (0 : Int) ≤ val W c := Int.natCast_nonneg _
  have a1 : k < 2 := by
    by_contra hk
    nlinarith
  have a2 : -2 < k := by
    by_contra hk
    nlinarith
  omega

theorem val_set {W : Nat} {l : List Nat} {n : Nat} (h : n < l.length) (x : Nat) :
    val W (l.set n x) + base W ^ n * l[n] = val W l + base W ^ n * x := by
  have e : l = l.take n ++ l[n] :: l.drop (n + 1) := by simp
  have e2 : l.set n x = l.take n ++ x :: l.drop (n + 1) := by
    rw [List.set_eq_take_append_cons_drop]; simp [h]
  rw [e2]
  conv_rhs => rw [e]
  simp only [val_append, val_cons]
  rw [List.length_take, Nat.min_eq_left h.le]
  ring

theorem splitDoubleWord_lt {W d : Nat} : (splitDoubleWord W d).1 < base W :=
  Nat.mod_lt _ (base_pos W)

theorem splitDoubleWord_eq (W d : Nat) :
    (splitDoubleWord W d).1 + base W * (splitDoubleWord W d).2 = d := Nat.mod_add_div d (base W)

theorem mulWordLoop_spec {W rhs : Nat} (hr : rhs < base W) {l : List Nat} {c : Nat}
    (hl : IsWords W l) (hc : c < base W) :
    (mulWordLoop W rhs l c).1.length = l.length ∧ IsWords W (mulWordLoop W rhs l c).1 ∧
    (mulWordLoop W rhs l c).2 < base W ∧
    val W (mulWordLoop W rhs l c).1 + (mulWordLoop W rhs l c).2 * base W ^ l.length
      = val W l * rhs + c := by
  induction l generalizing c with
  | nil => simp [mulWordLoop, hc]
  | cons a as ih =>
    simp only [isWords_cons] at hl
    unfold mulWordLoop
    simp only
    have e := splitDoubleWord_eq W (a * rhs + c)
    have e1 := splitDoubleWord_lt (W := W) (d := a * rhs + c)
    have hhi : (splitDoubleWord W (a * rhs + c)).2 < base W := by
      apply Nat.div_lt_of_lt_mul
      have h1 : a * rhs ≤ (base W - 1) * (base W - 1) := Nat.mul_le_mul (by omega) (by omega)
      obtain ⟨B, hB⟩ : ∃ B, base W = B + 1 := ⟨base W - 1, by have := base_pos W; omega⟩
      rw [hB] at h1 hc ⊢
      simp only [Nat.add_sub_cancel] at h1
      nlinarith
    obtain ⟨i1, i2, i3, i4⟩ := ih hl.2 hhi
    set p := mulWordLoop W rhs as (splitDoubleWord W (a * rhs + c)).2
    refine ⟨by simp [i1], by simp [e1, i2], i3, ?_⟩
    simp only [val_cons, List.length_cons, pow_succ]
    zify at *
    linear_combination e + (base W : Int) * i4

theorem mulWord_spec {W rhs : Nat} (hr : rhs < base W) {l : List Nat} (hl : IsWords W l) :
    (mulWord W l rhs).1.length = l.length ∧ IsWords W (mulWord W l rhs).1 ∧
    (mulWord W l rhs).2 < base W ∧
    val W (mulWord W l rhs).1 + (mulWord W l rhs).2 * base W ^ l.length = val W l * rhs :=
  mulWordLoop_spec hr hl (base_pos W)

theorem addMulWordLoop_spec {W m : Nat} (hm : m < base W) {a b : List Nat} {c : Nat}
    (ha : IsWords W a) (hb : IsWords W b) (hl : a.length = b.length) (hc : c < base W) :
    AddSpec W a (addMulWordLoop W m a b c).1 (addMulWordLoop W m a b c).2
      ((m : Int) * val W b + c) ∧ (addMulWordLoop W m a b c).2 < base W := by
  induction a generalizing b c with
  | nil =>
    cases b with
    | nil => exact ⟨⟨rfl, by simp [addMulWordLoop], by simp [addMulWordLoop]⟩, by simpa [addMulWordLoop]⟩
    | cons => simp at hl
  | cons x xs ih =>
    cases b with
    | nil => simp at hl
    | cons y ys =>
      simp only [isWords_cons] at ha hb
      unfold addMulWordLoop
      simp only
      have e := splitDoubleWord_eq W (x + c + m * y)
      have e1 := splitDoubleWord_lt (W := W) (d := x + c + m * y)
      have hhi : (splitDoubleWord W (x + c + m * y)).2 < base W := by
        apply Nat.div_lt_of_lt_mul
        have h1 : m * y ≤ (base W - 1) * (base W - 1) := Nat.mul_le_mul (by omega) (by omega)
        obtain ⟨B, hB⟩ : ∃ B, base W = B + 1 := ⟨base W - 1, by have := base_pos W; omega⟩
        rw [hB] at h1 hc ha ⊢
        simp only [Nat.add_sub_cancel] at h1
        nlinarith
      obtain ⟨⟨i1, i2, i3⟩, i4⟩ := ih ha.2 hb.2 (by simpa using hl) hhi
      set p := addMulWordLoop W m xs ys (splitDoubleWord W (x + c + m * y)).2
      refine ⟨⟨by simp [i1], by simp [e1, i2], ?_⟩, i4⟩
      simp only [val_cons, List.length_cons, pow_succ]
      zify at *
      push_cast
      linear_combination e + (base W : Int) * i3

theorem addMulWordSameLen_spec {W m : Nat} (hm : m < base W) {a b : List Nat}
    (ha : IsWords W a) (hb : IsWords W b) (hl : a.length = b.length) :
    Returns (addMulWordSameLen W a m b) fun p =>
      AddSpec W a p.1 p.2 ((m : Int) * val W b) ∧ p.2 < base W := by
  unfold addMulWordSameLen
  refine Returns.bind (returns_assertR hl) fun _ _ => ?_
  have := addMulWordLoop_spec hm ha hb hl (base_pos W)
  simpa using this

theorem addMulWord_spec {W m : Nat} (hW : 1 ≤ W) (hm : m < base W) {a b : List Nat}
    (ha : IsWords W a) (hb : IsWords W b) (hl : b.length ≤ a.length) :
    Returns (addMulWord W a m b) fun p =>
      AddSpec W a p.1 p.2 ((m : Int) * val W b) ∧ p.2 < base W := by
  unfold addMulWord
  refine Returns.bind (returns_assertR hl) fun _ _ => ?_
  refine Returns.bind (onSlice_spec (W := W) (k := fun k : Nat => (k : Int))
    (δ := fun _ => (m : Int) * val W b) (Q := fun k => k < base W) (Nat.zero_le _) hl ha ?_) ?_
  · intro s hs hws _
    exact addMulWordSameLen_spec hm hws hb (by simpa using hs)
  · rintro ⟨c1, k1⟩ ⟨h1, h2⟩
    simp only at h1 h2 ⊢
    have hlen := h1.len
    split
    · rename_i hlt
      refine Returns.bind (onSlice_spec (W := W) (k := fun k : Bool => (k.toNat : Int))
        (δ := fun _ => (k1 : Int)) (Q := fun k => True) hlt.le (le_refl _) h1.words ?_) ?_
      · intro s hs hws _
        have hne : s ≠ [] := by intro h; subst h; simp at hs; omega
        exact (addWord_spec hws hne h2).mono fun p hp => ⟨hp, trivial⟩
      · rintro ⟨c2, k2⟩ ⟨h3, -⟩
        simp only at h3 ⊢
        simp only [returns_ok]
        refine ⟨⟨h3.len.trans hlen, h3.words, ?_⟩, ?_⟩
        · have e1 := h1.eq
          have e3 := h3.eq
          simp only [hlen] at e3
          linear_combination e1 + e3
        · have := two_le_base hW
          have := Bool.toNat_le k2
          omega
    · rename_i hlt
      have : b.length = a.length := by omega
      simp only [returns_ok]
      refine ⟨⟨hlen, h1.words, ?_⟩, h2⟩
      have e1 := h1.eq
      rw [this] at e1
      simpa using e1

theorem subMulWordLoop_spec {W m : Nat} (hm : m < base W) {a b : List Nat} {c : Nat}
    (ha : IsWords W a) (hb : IsWords W b) (hl : a.length = b.length) (hc : c < base W) :
    Returns (subMulWordLoop W m a b c) fun p =>
    AddSpec W a p.1 ((p.2 : Int) - (base W - 1))
      (-((m : Int) * val W b) + (c - (base W - 1))) ∧ p.2 < base W := by
  induction a generalizing b c with
  | nil =>
    cases b with
    | nil =>
      simp only [subMulWordLoop, returns_ok]
      exact ⟨⟨rfl, by simp, by simp⟩, hc⟩
    | cons => simp at hl
  | cons x xs ih =>
    cases b with
    | nil => simp at hl
    | cons y ys =>
      simp only [isWords_cons] at ha hb
      unfold subMulWordLoop
      obtain ⟨B, hB⟩ : ∃ B, base W = B + 1 := ⟨base W - 1, by have := base_pos W; omega⟩
      have hsq : 2 ^ (2 * W) = base W * base W := by unfold base; rw [← pow_add]; congr 1; omega
      have e0 : base W * (base W - 1) - (base W - 1) = B * B := by
        rw [hB]; simp only [Nat.add_sub_cancel]; rw [Nat.add_mul]; omega
      have h1 : m * y ≤ B * B := Nat.mul_le_mul (by omega) (by omega)
      rw [e0]
      have hck : ckAdd (2 * W) (x + c) (B * B) = .ok (x + c + B * B) := by
        unfold ckAdd; rw [if_pos]; rw [hsq, hB]
        rw [hB] at ha hc
        nlinarith
      have hck2 : ckSub (x + c + B * B) (m * y) = .ok (x + c + B * B - m * y) := by
        unfold ckSub; rw [if_pos]; omega
      rw [hck]
      refine Returns.bind (P := fun s => s = x + c + B * B) (by simp) ?_
      rintro _ rfl
      rw [hck2]
      refine Returns.bind (P := fun s => s = x + c + B * B - m * y) (by simp) ?_
      rintro v rfl
      simp only
      set v := x + c + B * B - m * y with hv
      have e := splitDoubleWord_eq W v
      have e1 := splitDoubleWord_lt (W := W) (d := v)
      have hhi : (splitDoubleWord W v).2 < base W := by
        apply Nat.div_lt_of_lt_mul
        rw [hB]
        rw [hB] at ha hc
        have : v ≤ x + c + B * B := by omega
        nlinarith
      refine Returns.bind (ih ha.2 hb.2 (by simpa using hl) hhi) ?_
      rintro ⟨r, k⟩ ⟨⟨i1, i2, i3⟩, i4⟩
      simp only at i1 i2 i3 i4
      simp only [returns_ok]
      refine ⟨⟨by simp [i1], by simp [e1, i2], ?_⟩, i4⟩
      simp only [val_cons, List.length_cons, pow_succ]
      have ev : v + m * y = x + c + B * B := by omega
      zify at *
      push_cast
      have eB : (B : Int) = base W - 1 := by linarith
      rw [eB] at ev
      linear_combination e + (base W : Int) * i3 + ev

theorem subMulWordSameLen_spec {W m : Nat} (hm : m < base W) {a b : List Nat}
    (ha : IsWords W a) (hb : IsWords W b) (hl : a.length = b.length) :
    Returns (subMulWordSameLen W a m b) fun p =>
      AddSpec W a p.1 (-(p.2 : Int)) (-((m : Int) * val W b)) ∧ p.2 < base W := by
  unfold subMulWordSameLen
  refine Returns.bind (returns_assertR hl) fun _ _ => ?_
  have hB := base_pos W
  refine Returns.bind (subMulWordLoop_spec hm ha hb hl (by omega : base W - 1 < base W)) ?_
  rintro ⟨r, k⟩ ⟨h1, h2⟩
  simp only at h1 h2 ⊢
  have : ckSub (base W - 1) k = .ok (base W - 1 - k) := by unfold ckSub; rw [if_pos (by omega)]
  rw [this]
  refine Returns.bind (P := fun s => s = base W - 1 - k) (by simp) ?_
  rintro _ rfl
  simp only [returns_ok]
  refine ⟨h1.cast ?_ ?_, by omega⟩
  · omega
  · omega

theorem setR_ok {l : List Nat} {i : Nat} (x : Nat) (h : i < l.length) :
    setR l i x = .ok (l.set i x) := by simp [setR, h]

theorem addMulChunkLoop_spec {W : Nat} {a : List Nat} (ha : IsWords W a) {bs c : List Nat} {i : Nat}
    {k : Bool} (hb : IsWords W bs) (hc : IsWords W c) (hl : i + a.length + bs.length = c.length) :
    Returns (addMulChunkLoop W a c i bs k) fun p =>
      AddSpec W c p.1 p.2.toNat
        ((val W a : Int) * val W bs * base W ^ i + k.toNat * base W ^ (i + a.length)) := by
  induction bs generalizing c i k with
  | nil =>
    simp only [addMulChunkLoop, returns_ok]
    have : i + a.length = c.length := by simpa using hl
    exact ⟨rfl, hc, by simp [this]⟩
  | cons m bs ih =>
    simp only [isWords_cons] at hb
    simp only [List.length_cons] at hl
    unfold addMulChunkLoop
    refine Returns.bind (onSlice_spec (W := W) (k := fun k : Nat => (k : Int))
      (δ := fun _ => (m : Int) * val W a) (Q := fun k => k < base W) (by omega) (by omega) hc ?_) ?_
    · intro s hs hws _
      exact addMulWordSameLen_spec hb.1 hws ha (by omega)
    · rintro ⟨c1, cw⟩ ⟨h1, h2⟩
      simp only at h1 h2 ⊢
      have hlen := h1.len
      have hi : i + a.length < c1.length := by omega
      rw [getR_ok hi]
      refine Returns.bind (P := fun s => s = c1[i + a.length]) (by simp) ?_
      rintro x rfl
      have hx : c1[i + a.length] < base W := h1.words _ (List.getElem_mem hi)
      obtain ⟨w1, w2⟩ := addWithCarry_spec k hx h2
      set p := addWithCarry W c1[i + a.length] cw k
      rw [setR_ok _ hi]
      refine Returns.bind (P := fun s => s = c1.set (i + a.length) p.1) (by simp) ?_
      rintro c2 rfl
      have hv := val_set (W := W) hi p.1
      refine (ih hb.2 (isWords_set h1.words _ w1) (by simp; omega)).mono ?_
      rintro ⟨c3, k3⟩ h3
      simp only at h3 ⊢
      have e1 := h1.eq
      have e3 := h3.eq
      have l3 := h3.len
      simp only [List.length_set] at l3 e3
      refine ⟨by omega, h3.words, ?_⟩
      rw [hlen] at e3
      have hpw : (base W : Int) ^ (i + 1 + a.length) = base W ^ (i + a.length) * base W := by
        rw [← pow_succ]; congr 1; omega
      rw [hpw] at e3
      have hpi : (base W : Int) ^ (i + 1) = base W ^ i * base W := pow_succ _ _
      rw [hpi] at e3
      rw [val_cons]
      zify at *
      push_cast
      linear_combination e1 + e3 + hv + (base W : Int) ^ (i + a.length) * w2

theorem subMulChunkLoop_spec {W : Nat} {a : List Nat} (ha : IsWords W a) {bs c : List Nat} {i : Nat}
    {k : Bool} (hb : IsWords W bs) (hc : IsWords W c) (hl : i + a.length + bs.length = c.length) :
    Returns (subMulChunkLoop W a c i bs k) fun p =>
      AddSpec W c p.1 (-(p.2.toNat : Int))
        (-((val W a : Int) * val W bs * base W ^ i) - k.toNat * base W ^ (i + a.length)) := by
  induction bs generalizing c i k with
  | nil =>
    simp only [subMulChunkLoop, returns_ok]
    have : i + a.length = c.length := by simpa using hl
    exact ⟨rfl, hc, by simp [this]⟩
  | cons m bs ih =>
    simp only [isWords_cons] at hb
    simp only [List.length_cons] at hl
    unfold subMulChunkLoop
    refine Returns.bind (onSlice_spec (W := W) (k := fun k : Nat => -(k : Int))
      (δ := fun _ => -((m : Int) * val W a)) (Q := fun k => k < base W) (by omega) (by omega) hc ?_) ?_
    · intro s hs hws _
      exact subMulWordSameLen_spec hb.1 hws ha (by omega)
    · rintro ⟨c1, cw⟩ ⟨h1, h2⟩
      simp only at h1 h2 ⊢
      have hlen := h1.len
      have hi : i + a.length < c1.length := by omega
      rw [getR_ok hi]
      refine Returns.bind (P := fun s => s = c1[i + a.length]) (by simp) ?_
      rintro x rfl
      have hx : c1[i + a.length] < base W := h1.words _ (List.getElem_mem hi)
      obtain ⟨w1, w2⟩ := subWithBorrow_spec k hx h2
      set p := subWithBorrow W c1[i + a.length] cw k
      rw [setR_ok _ hi]
      refine Returns.bind (P := fun s => s = c1.set (i + a.length) p.1) (by simp) ?_
      rintro c2 rfl
      have hv := val_set (W := W) hi p.1
      refine (ih hb.2 (isWords_set h1.words _ w1) (by simp; omega)).mono ?_
      rintro ⟨c3, k3⟩ h3
      simp only at h3 ⊢
      have e1 := h1.eq
      have e3 := h3.eq
      have l3 := h3.len
      simp only [List.length_set] at l3 e3
      refine ⟨by omega, h3.words, ?_⟩
      rw [hlen] at e3
      have hpw : (base W : Int) ^ (i + 1 + a.length) = base W ^ (i + a.length) * base W := by
        rw [← pow_succ]; congr 1; omega
      rw [hpw] at e3
      have hpi : (base W : Int) ^ (i + 1) = base W ^ i * base W := pow_succ _ _
      rw [hpi] at e3
      rw [val_cons]
      zify at *
      push_cast
      linear_combination e1 + e3 + hv + (base W : Int) ^ (i + a.length) * w2

/-- what a multiply-accumulate function must do on given lengths and memory -/
def MulOK (W : Nat) (f : MulFn) (la lb mem : Nat) : Prop :=
  ∀ c s a b, IsWords W c → IsWords W a → IsWords W b → a.length = la → b.length = lb →
    c.length = la + lb →
    Returns (f c s a b mem) fun p => AddSpec W c p.1 p.2 (s.toInt * ((val W a : Int) * val W b))

theorem simpleMulChunk_spec {W la lb mem : Nat} (h1 : lb ≤ la) (h2 : la ≤ mulChunkLen) :
    MulOK W (simpleMulChunk W) la lb mem := by
  intro c s a b hc ha hb hla hlb hlc
  subst hla hlb
  unfold simpleMulChunk
  refine Returns.bind (returns_assertR ⟨h1, hlc⟩) fun _ _ => ?_
  refine Returns.bind (returns_assertR h2) fun _ _ => ?_
  unfold mulChunkLen at h2
  cases s with
  | pos =>
    unfold addMulChunk
    simp only [bind_assoc]
    refine Returns.bind (returns_assertR ⟨h1, hlc⟩) fun _ _ => ?_
    refine Returns.bind (returns_assertR (by unfold mulChunkLen; omega)) fun _ _ => ?_
    refine Returns.bind (addMulChunkLoop_spec (k := false) ha hb hc (by omega)) ?_
    rintro ⟨c1, k⟩ h
    simp only [returns_ok]
    exact h.cast rfl (by simp)
  | neg =>
    unfold subMulChunk
    simp only [bind_assoc]
    refine Returns.bind (returns_assertR ⟨h1, hlc⟩) fun _ _ => ?_
    refine Returns.bind (returns_assertR (by unfold mulChunkLen; omega)) fun _ _ => ?_
    refine Returns.bind (subMulChunkLoop_spec (k := false) ha hb hc (by omega)) ?_
    rintro ⟨c1, k⟩ h
    simp only [returns_ok]
    exact h.cast rfl (by simp)

theorem simpleMulSameLen_spec {W n mem : Nat} (h2 : n ≤ mulChunkLen) :
    MulOK W (simpleMulSameLen W) n n mem := by
  intro c s a b hc ha hb hla hlb hlc
  unfold simpleMulSameLen
  refine Returns.bind (returns_assertR ⟨by omega, by omega⟩) fun _ _ => ?_
  refine Returns.bind (returns_assertR (by omega)) fun _ _ => ?_
  exact simpleMulChunk_spec le_rfl h2 c s a b hc ha hb hla hlb hlc

theorem addSignedWord_spec' {W : Nat} (_hW : 1 ≤ W) {l : List Nat} {k : Int} (h : IsWords W l)
    (hk : k.natAbs < base W) (hl : l ≠ []) :
    Returns (addSignedWord W l k) fun p => AddSpec W l p.1 p.2 k ∧ p.2.natAbs ≤ 1 := by
  refine (addSignedWord_spec h hk).mono fun p hp => ⟨hp, hp.carry_bound ?_ ?_ h⟩
  all_goals
    have h1 : base W ≤ base W ^ l.length :=
      Nat.le_self_pow (by simpa using hl) _
    have h2 : ((base W : Nat) : Int) ≤ (base W : Int) ^ l.length := by exact_mod_cast h1
    omega

theorem addSignedWord_spec'' {W : Nat} (hW : 1 ≤ W) {l : List Nat} {k : Int} (h : IsWords W l)
    (hk : k.natAbs < base W) :
    Returns (addSignedWord W l k) fun p => AddSpec W l p.1 p.2 k ∧ p.2.natAbs ≤ max 1 k.natAbs := by
  by_cases hl : l = []
  · subst hl
    have e : addSignedWord W [] k = .ok ([], k) := by simp [addSignedWord]
    have := addSignedWord_spec h hk
    rw [e] at this ⊢
    simp only [returns_ok] at this ⊢
    exact ⟨this, le_max_right _ _⟩
  · exact (addSignedWord_spec' hW h hk hl).mono fun p hp => ⟨hp.1, hp.2.trans (le_max_left _ _)⟩

theorem returns_ckInt {bits : Nat} {x : Int} (hb : 4 ≤ bits) (h : x.natAbs ≤ 7) :
    Returns (ckInt bits x) fun y => y = x := by
  have h8 : (2 : Int) ^ 3 ≤ 2 ^ (bits - 1) := pow_le_pow_right₀ (by norm_num) (by omega)
  unfold ckInt
  rw [if_pos (by omega)]
  simp

theorem sign_abs_le (s : Sign) {x y : Int} (h0 : 0 ≤ x) (h : x ≤ y) :
    -y ≤ s.toInt * x ∧ s.toInt * x ≤ y := by
  cases s <;> simp <;> omega

theorem MulOK.carry {W : Nat} {f : MulFn} {la lb mem : Nat} (h : MulOK W f la lb mem) :
    ∀ c s a b, IsWords W c → IsWords W a → IsWords W b → a.length = la → b.length = lb →
    c.length = la + lb →
    Returns (f c s a b mem) fun p => AddSpec W c p.1 p.2 (s.toInt * ((val W a : Int) * val W b)) ∧
      p.2.natAbs ≤ 1 := by
  intro c s a b hc ha hb hla hlb hlc
  refine (h c s a b hc ha hb hla hlb hlc).mono fun p hp => ⟨hp, ?_⟩
  have e : val W a * val W b ≤ base W ^ c.length := by
    rw [hlc, pow_add]
    exact Nat.mul_le_mul (hla ▸ (val_lt ha).le) (hlb ▸ (val_lt hb).le)
  have e' : (val W a : Int) * val W b ≤ (base W : Int) ^ c.length := by exact_mod_cast e
  have := sign_abs_le s (by positivity) e'
  exact hp.carry_bound this.1 this.2 hc

/-- a multiplication into zeros does not overflow -/
theorem MulOK.zeros {W : Nat} {f : MulFn} {la lb mem : Nat} (h : MulOK W f la lb mem)
    {c a b : List Nat} (hc : IsWords W c) (hz : val W c = 0) (ha : IsWords W a) (hb : IsWords W b)
    (hla : a.length = la) (hlb : b.length = lb) (hlc : c.length = la + lb) :
    Returns (f c .pos a b mem) fun p => p.1.length = c.length ∧ IsWords W p.1 ∧ p.2 = 0 ∧
      val W p.1 = val W a * val W b := by
  refine (h c .pos a b hc ha hb hla hlb hlc).mono fun p hp => ?_
  have h1 := val_lt ha
  have h2 := val_lt hb
  have e : val W a * val W b < base W ^ c.length := by
    rw [hlc, pow_add, ← hla, ← hlb]
    exact Nat.mul_lt_mul'' h1 h2
  have e' : (val W a : Int) * val W b < (base W : Int) ^ c.length := by exact_mod_cast e
  have hk : p.2 = 0 := hp.carry_zero (by simp; positivity) (by simpa [hz] using e')
  refine ⟨hp.len, hp.words, hk, ?_⟩
  have := hp.eq_of_carry_zero hk
  simp only [hz, Sign.toInt_pos] at this
  zify
  simpa using this

theorem splitChunksLoop_spec {W ch mem : Nat} {f : MulFn} {s : Sign} {b : List Nat} (hW : 4 ≤ W)
    (hch : 1 ≤ ch) (hf : MulOK W f ch b.length mem) (hb : IsWords W b) :
    ∀ {fuel : Nat} {c : List Nat} {off : Nat} {a : List Nat} {k : Int}, a.length < fuel →
    IsWords W c → IsWords W a → k.natAbs ≤ 2 → off + a.length + b.length = c.length →
    Returns (splitChunksLoop W ch f s b mem fuel c off a k) fun p =>
      p.1.length = c.length ∧ IsWords W p.1 ∧ p.2.1 + p.2.2.1.length + b.length = c.length ∧
      IsWords W p.2.2.1 ∧ (p.2.2.1.length < ch ∧ p.2.2.1.length ≤ a.length ∧
        (ch ≤ a.length → p.2.2.1.length + ch ≤ a.length)) ∧
      p.2.2.2.natAbs ≤ 2 ∧
      (val W p.1 : Int) + p.2.2.2 * base W ^ (p.2.1 + b.length)
        + s.toInt * (val W p.2.2.1 * val W b) * base W ^ p.2.1
       = val W c + k * base W ^ (off + b.length) + s.toInt * (val W a * val W b) * base W ^ off := by
  intro fuel
  induction fuel with
  | zero => intro c off a k hfu; omega
  | succ fuel ih =>
    intro c off a k hfu hc ha hk hl
    unfold splitChunksLoop
    have hB : 16 ≤ base W := base_ge hW
    split
    · rename_i hle
      refine Returns.bind (returns_splitR hle) ?_
      rintro ⟨aLo, aHi⟩ ⟨rfl, hlo⟩
      simp only at hlo ⊢
      simp only [isWords_append] at ha
      simp only [List.length_append] at hl hfu
      refine Returns.bind (onSlice_spec (W := W) (k := fun k : Int => k)
        (δ := fun _ => k) (Q := fun k => k.natAbs ≤ 1) (by omega) (by omega) hc ?_) ?_
      · intro t ht hwt _
        exact addSignedWord_spec' (by omega) hwt (by omega) (by intro h; subst h; simp at ht; omega)
      · rintro ⟨c1, k1⟩ ⟨h1, b1⟩
        simp only at h1 b1 ⊢
        have l1 := h1.len
        refine Returns.bind (onSlice_spec (W := W) (k := fun k : Int => k)
          (δ := fun _ => s.toInt * ((val W aLo : Int) * val W b)) (Q := fun k => k.natAbs ≤ 1)
          (by omega) (by omega) h1.words ?_) ?_
        · intro t ht hwt _
          exact hf.carry t s aLo b hwt ha.1 hb hlo rfl (by omega)
        · rintro ⟨c2, k2⟩ ⟨h2, b2⟩
          simp only at h2 b2 ⊢
          have l2 := h2.len
          refine Returns.bind (returns_ckInt hW (by omega)) ?_
          rintro _ rfl
          refine (ih (by omega) h2.words ha.2 (by omega) (by omega)).mono ?_
          rintro ⟨c3, off3, a3, k3⟩ ⟨i1, i2, i3, i4, i5, i6, i7⟩
          simp only at i1 i2 i3 i4 i5 i6 i7 ⊢
          refine ⟨by omega, i2, by omega, i4, ⟨i5.1, ?_, ?_⟩, i6, ?_⟩
          · simp only [List.length_append]; omega
          · simp only [List.length_append]; omega
          rw [i7]
          have e1 := h1.eq
          have e2 := h2.eq
          rw [val_append, hlo]
          have p1 : (base W : Int) ^ (off + ch + b.length) = base W ^ (off + (ch + b.length)) := by
            congr 1; omega
          have p2 : (base W : Int) ^ (off + ch) = base W ^ off * base W ^ ch := pow_add _ _ _
          rw [p1, p2]
          push_cast
          linear_combination e1 + e2
    · rename_i hle
      simp only [returns_ok]
      refine ⟨trivial, hc, by omega, ha, ⟨by omega, le_rfl, by omega⟩, hk, trivial⟩

theorem splitIntoChunks_spec {W ch mem la lb : Nat} {f rec : MulFn} (hW : 4 ≤ W) (hch : 1 ≤ ch)
    (hl : lb ≤ la) (hlb : lb ≤ ch) (hf : MulOK W f ch lb mem)
    (hrec : ∀ m, m < ch → m ≤ la → (ch ≤ la → m + ch ≤ la) →
      (lb ≤ m → MulOK W rec m lb mem) ∧ (m < lb → MulOK W rec lb m mem)) :
    MulOK W (splitIntoChunks W rec ch f) la lb mem := by
  intro c s a b hc ha hb hla hlb hlc
  subst hla hlb
  have hB : 16 ≤ base W := base_ge hW
  unfold splitIntoChunks
  refine Returns.bind (returns_assertR ⟨hl, hlc⟩) fun _ _ => ?_
  refine Returns.bind (returns_assertR hlb) fun _ _ => ?_
  refine Returns.bind (splitChunksLoop_spec hW hch hf hb (Nat.lt_succ_self _) hc ha (by simp)
    (by omega)) ?_
  rintro ⟨c1, off, a1, k1⟩ ⟨i1, i2, i3, i4, i5, i6, i7⟩
  simp only at i1 i2 i3 i4 i5 i6 i7 ⊢
  refine Returns.bind (onSlice_spec (W := W) (k := fun k : Int => k)
    (δ := fun _ => k1) (Q := fun k => k.natAbs ≤ max 1 k1.natAbs) (by omega) (by omega) i2 ?_) ?_
  · intro t ht hwt _
    exact addSignedWord_spec'' (by omega) hwt (by omega)
  rintro ⟨c2, k2⟩ ⟨h2, b2⟩
  simp only at h2 b2 ⊢
  have l2 := h2.len
  have e2 := h2.eq
  have ha1 : a1.length ≤ a.length := by omega
  split
  · rename_i hle
    refine Returns.bind (onSlice_spec (W := W) (k := fun k : Int => k)
      (δ := fun _ => s.toInt * ((val W a1 : Int) * val W b)) (Q := fun k => k.natAbs ≤ 1)
      (by omega) (by omega) h2.words ?_) ?_
    · intro t ht hwt _
      exact ((hrec a1.length i5.1 ha1 i5.2.2).1 hle).carry t s a1 b hwt i4 hb rfl rfl (by omega)
    · rintro ⟨c3, k3⟩ ⟨h3, b3⟩
      simp only at h3 b3 ⊢
      refine Returns.bind (returns_ckInt hW (by omega)) ?_
      rintro _ rfl
      have e3 := h3.eq
      simp only [returns_ok]
      refine ⟨by have := h3.len; omega, h3.words, ?_⟩
      rw [l2] at e3
      rw [i1] at e2 e3
      simp only [pow_zero, mul_one, Int.zero_mul, add_zero] at i7
      linear_combination i7 + e2 + e3
  · rename_i hle
    split
    · refine Returns.bind (onSlice_spec (W := W) (k := fun k : Int => k)
        (δ := fun _ => s.toInt * ((val W b : Int) * val W a1)) (Q := fun k => k.natAbs ≤ 1)
        (by omega) (by omega) h2.words ?_) ?_
      · intro t ht hwt _
        exact ((hrec a1.length i5.1 ha1 i5.2.2).2 (by omega)).carry t s b a1 hwt hb i4 rfl rfl (by omega)
      · rintro ⟨c3, k3⟩ ⟨h3, b3⟩
        simp only at h3 b3 ⊢
        refine Returns.bind (returns_ckInt hW (by omega)) ?_
        rintro _ rfl
        have e3 := h3.eq
        simp only [returns_ok]
        refine ⟨by have := h3.len; omega, h3.words, ?_⟩
        rw [l2] at e3
        rw [i1] at e2 e3
        simp only [pow_zero, mul_one, Int.zero_mul, add_zero] at i7
        linear_combination i7 + e2 + e3
    · rename_i hne
      have hne : a1 = [] := by simpa using hne
      subst hne
      simp only [returns_ok]
      refine ⟨by omega, h2.words, ?_⟩
      rw [i1] at e2
      simp only [pow_zero, mul_one, Int.zero_mul, add_zero, val_nil, Nat.cast_zero, mul_zero,
        zero_mul] at i7
      linear_combination i7 + e2

end Ibig
