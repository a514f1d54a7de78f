import Verif.Proofs.Basic
import Verif.Model.Add
namespace Ibig

@[simp] theorem Sign.toInt_pos : Sign.pos.toInt = 1 := rfl
@[simp] theorem Sign.toInt_neg : Sign.neg.toInt = -1 := rfl
@[simp] theorem Sign.toInt_negate (s : Sign) : s.negate.toInt = -s.toInt := by cases s <;> rfl
@[simp] theorem Sign.toInt_mul (s t : Sign) : (s.mul t).toInt = s.toInt * t.toInt := by
  cases s <;> cases t <;> rfl

theorem overflowingAdd_spec {W a b : Nat} (ha : a < base W) (hb : b ≤ base W) :
    (overflowingAdd W a b).1 < base W ∧
    (overflowingAdd W a b).1 + (overflowingAdd W a b).2.toNat * base W = a + b := by
  unfold overflowingAdd
  refine ⟨Nat.mod_lt _ (base_pos W), ?_⟩
  by_cases h : base W ≤ a + b
  · simp only [h, decide_true, Bool.toNat_true, one_mul]
    rw [Nat.mod_eq_sub_mod h, Nat.mod_eq_of_lt (by omega)]; omega
  · simp only [h, decide_false, Bool.toNat_false, zero_mul, add_zero]
    rw [Nat.mod_eq_of_lt (by omega)]

theorem overflowingSub_spec {W a b : Nat} (ha : a < base W) (hb : b ≤ base W) :
    (overflowingSub W a b).1 < base W ∧
    (overflowingSub W a b).1 + b = a + (overflowingSub W a b).2.toNat * base W := by
  unfold overflowingSub
  refine ⟨Nat.mod_lt _ (base_pos W), ?_⟩
  by_cases h : a < b
  · simp only [h, decide_true, Bool.toNat_true, one_mul]
    rw [Nat.mod_eq_of_lt (by omega)]; omega
  · simp only [h, decide_false, Bool.toNat_false, zero_mul, add_zero]
    rw [Nat.mod_eq_sub_mod (by omega), Nat.mod_eq_of_lt (by omega)]; omega

theorem addWithCarry_spec {W a b : Nat} (c : Bool) (ha : a < base W) (hb : b < base W) :
    (addWithCarry W a b c).1 < base W ∧
    (addWithCarry W a b c).1 + (addWithCarry W a b c).2.toNat * base W = a + b + c.toNat := by
  obtain ⟨h1, h2⟩ := overflowingAdd_spec ha hb.le
  have hc : c.toNat ≤ base W := by
    have := base_pos W; have := Bool.toNat_le c; omega
  obtain ⟨h3, h4⟩ := overflowingAdd_spec h1 hc
  unfold addWithCarry
  simp only
  refine ⟨h3, ?_⟩
  have hc1 := Bool.toNat_le c
  cases h5 : (overflowingAdd W a b).2 <;>
    cases h6 : (overflowingAdd W (overflowingAdd W a b).1 c.toNat).2 <;>
    simp only [h5, h6, Bool.toNat_true, Bool.toNat_false, Bool.or_false, Bool.or_true,
      zero_mul, one_mul] at * <;> omega

theorem subWithBorrow_spec {W a b : Nat} (c : Bool) (ha : a < base W) (hb : b < base W) :
    (subWithBorrow W a b c).1 < base W ∧
    (subWithBorrow W a b c).1 + b + c.toNat = a + (subWithBorrow W a b c).2.toNat * base W := by
  obtain ⟨h1, h2⟩ := overflowingSub_spec ha hb.le
  have hc : c.toNat ≤ base W := by
    have := base_pos W; have := Bool.toNat_le c; omega
  obtain ⟨h3, h4⟩ := overflowingSub_spec h1 hc
  unfold subWithBorrow
  simp only
  refine ⟨h3, ?_⟩
  have hc1 := Bool.toNat_le c
  cases h5 : (overflowingSub W a b).2 <;>
    cases h6 : (overflowingSub W (overflowingSub W a b).1 c.toNat).2 <;>
    simp only [h5, h6, Bool.toNat_true, Bool.toNat_false, Bool.or_false, Bool.or_true,
      zero_mul, one_mul] at * <;> omega

theorem addOne_spec {W : Nat} {l : List Nat} (h : IsWords W l) :
    AddSpec W l (addOne W l).1 (addOne W l).2.toNat 1 := by
  induction l with
  | nil => exact ⟨rfl, by simp [addOne], by simp [addOne]⟩
  | cons w ws ih =>
    simp only [isWords_cons] at h
    obtain ⟨h1, h2⟩ := overflowingAdd_spec h.1 (base_pos W : 1 ≤ base W)
    unfold addOne
    simp only
    have ih := ih h.2
    cases ho : (overflowingAdd W w 1).2 with
    | false =>
      simp only [ho, Bool.not_false, if_true, Bool.toNat_false, zero_mul, add_zero] at *
      exact ⟨rfl, by simp [h1, h.2], by simp [h2]; ring⟩
    | true =>
      simp only [ho, Bool.not_true, Bool.toNat_true, one_mul] at *
      have e := ih.eq
      refine ⟨by simp [ih.len], by simp [h1, ih.words], ?_⟩
      simp only [val_cons, List.length_cons, Bool.false_eq_true, if_false]
      push_cast
      have h2' : ((overflowingAdd W w 1).1 : Int) + base W = w + 1 := by exact_mod_cast h2
      rw [pow_succ]
      linear_combination h2' + (base W : Int) * e

theorem subOne_spec {W : Nat} {l : List Nat} (h : IsWords W l) :
    AddSpec W l (subOne W l).1 (-((subOne W l).2.toNat : Int)) (-1) := by
  induction l with
  | nil => exact ⟨rfl, by simp [subOne], by simp [subOne]⟩
  | cons w ws ih =>
    simp only [isWords_cons] at h
    obtain ⟨h1, h2⟩ := overflowingSub_spec h.1 (base_pos W : 1 ≤ base W)
    unfold subOne
    simp only
    have ih := ih h.2
    cases ho : (overflowingSub W w 1).2 with
    | false =>
      simp only [ho, Bool.not_false, if_true, Bool.toNat_false, zero_mul, add_zero] at *
      refine ⟨rfl, by simp [h1, h.2], ?_⟩
      have h2' : ((overflowingSub W w 1).1 : Int) + 1 = w := by exact_mod_cast h2
      simp only [val_cons]; push_cast; linear_combination h2'
    | true =>
      simp only [ho, Bool.not_true, Bool.toNat_true, one_mul] at *
      have e := ih.eq
      refine ⟨by simp [ih.len], by simp [h1, ih.words], ?_⟩
      simp only [val_cons, List.length_cons, Bool.false_eq_true, if_false]
      push_cast
      have h2' : ((overflowingSub W w 1).1 : Int) + 1 = w + base W := by exact_mod_cast h2
      rw [pow_succ]
      linear_combination h2' + (base W : Int) * e

theorem addWord_spec {W : Nat} {l : List Nat} {r : Nat} (h : IsWords W l) (hl : l ≠ [])
    (hr : r < base W) :
    Returns (addWord W l r) fun p => AddSpec W l p.1 p.2.toNat r := by
  cases l with
  | nil => simp at hl
  | cons w ws =>
    simp only [isWords_cons] at h
    obtain ⟨h1, h2⟩ := overflowingAdd_spec h.1 hr.le
    unfold addWord
    simp only
    cases ho : (overflowingAdd W w r).2 with
    | false =>
      simp only [ho, Bool.toNat_false, zero_mul, add_zero] at *
      simp only [Bool.false_eq_true, if_false, returns_ok]
      exact ⟨rfl, by simp [h1, h.2], by simp [h2]; ring⟩
    | true =>
      simp only [ho, Bool.toNat_true, one_mul] at *
      have ih := addOne_spec h.2
      have e := ih.eq
      simp only [if_true, returns_ok]
      refine ⟨by simp [ih.len], by simp [h1, ih.words], ?_⟩
      simp only [val_cons, List.length_cons]
      push_cast
      have h2' : ((overflowingAdd W w r).1 : Int) + base W = w + r := by exact_mod_cast h2
      rw [pow_succ]
      linear_combination h2' + (base W : Int) * e

theorem subWord_spec {W : Nat} {l : List Nat} {r : Nat} (h : IsWords W l) (hl : l ≠ [])
    (hr : r < base W) :
    Returns (subWord W l r) fun p => AddSpec W l p.1 (-(p.2.toNat : Int)) (-r) := by
  cases l with
  | nil => simp at hl
  | cons w ws =>
    simp only [isWords_cons] at h
    obtain ⟨h1, h2⟩ := overflowingSub_spec h.1 hr.le
    unfold subWord
    simp only
    cases ho : (overflowingSub W w r).2 with
    | false =>
      simp only [ho, Bool.toNat_false, zero_mul, add_zero] at *
      simp only [Bool.false_eq_true, if_false, returns_ok]
      refine ⟨rfl, by simp [h1, h.2], ?_⟩
      have h2' : ((overflowingSub W w r).1 : Int) + r = w := by exact_mod_cast h2
      simp only [val_cons, Bool.toNat_false]; push_cast; linear_combination h2'
    | true =>
      simp only [ho, Bool.toNat_true, one_mul] at *
      have ih := subOne_spec h.2
      have e := ih.eq
      simp only [if_true, returns_ok]
      refine ⟨by simp [ih.len], by simp [h1, ih.words], ?_⟩
      simp only [val_cons, List.length_cons]
      push_cast
      have h2' : ((overflowingSub W w r).1 : Int) + r = w + base W := by exact_mod_cast h2
      rw [pow_succ]
      linear_combination h2' + (base W : Int) * e

theorem addLoop_spec {W : Nat} {a b : List Nat} (c : Bool) (ha : IsWords W a) (hb : IsWords W b)
    (hl : a.length = b.length) :
    AddSpec W a (addLoop W a b c).1 (addLoop W a b c).2.toNat (val W b + c.toNat) := by
  induction a generalizing b c with
  | nil =>
    cases b with
    | nil => exact ⟨rfl, by simp [addLoop], by simp [addLoop]⟩
    | cons => simp at hl
  | cons x xs ih =>
    cases b with
    | nil => simp at hl
    | cons y ys =>
      simp only [isWords_cons] at ha hb
      obtain ⟨h1, h2⟩ := addWithCarry_spec c ha.1 hb.1
      have ih := ih (addWithCarry W x y c).2 ha.2 hb.2 (by simpa using hl)
      have e := ih.eq
      simp only [addLoop]
      refine ⟨by simp [ih.len], by simp [h1, ih.words], ?_⟩
      simp only [val_cons, List.length_cons]
      push_cast
      have h2' : ((addWithCarry W x y c).1 : Int) + (addWithCarry W x y c).2.toNat * base W
        = x + y + c.toNat := by exact_mod_cast h2
      rw [pow_succ]
      linear_combination h2' + (base W : Int) * e

theorem subLoop_spec {W : Nat} {a b : List Nat} (c : Bool) (ha : IsWords W a) (hb : IsWords W b)
    (hl : a.length = b.length) :
    AddSpec W a (subLoop W a b c).1 (-((subLoop W a b c).2.toNat : Int))
      (-(val W b : Int) - c.toNat) := by
  induction a generalizing b c with
  | nil =>
    cases b with
    | nil => exact ⟨rfl, by simp [subLoop], by simp [subLoop]⟩
    | cons => simp at hl
  | cons x xs ih =>
    cases b with
    | nil => simp at hl
    | cons y ys =>
      simp only [isWords_cons] at ha hb
      obtain ⟨h1, h2⟩ := subWithBorrow_spec c ha.1 hb.1
      have ih := ih (subWithBorrow W x y c).2 ha.2 hb.2 (by simpa using hl)
      have e := ih.eq
      simp only [subLoop]
      refine ⟨by simp [ih.len], by simp [h1, ih.words], ?_⟩
      simp only [val_cons, List.length_cons]
      push_cast
      have h2' : ((subWithBorrow W x y c).1 : Int) + y + c.toNat
        = x + (subWithBorrow W x y c).2.toNat * base W := by exact_mod_cast h2
      rw [pow_succ]
      linear_combination h2' + (base W : Int) * e

/-- The swapped loop computes the same words as the plain one. -/
theorem subSwapLoop_eq (W : Nat) (a b : List Nat) (c : Bool) (hl : a.length = b.length) :
    subSwapLoop W a b c = subLoop W a b c := by
  induction a generalizing b c with
  | nil =>
    cases b with
    | nil => rfl
    | cons => simp at hl
  | cons x xs ih =>
    cases b with
    | nil => simp at hl
    | cons y ys => simp only [subSwapLoop, subLoop]; rw [ih ys _ (by simpa using hl)]

theorem addSameLen_spec {W : Nat} {a b : List Nat} (ha : IsWords W a) (hb : IsWords W b)
    (hl : a.length = b.length) :
    Returns (addSameLen W a b) fun p => AddSpec W a p.1 p.2.toNat (val W b) := by
  unfold addSameLen
  refine Returns.bind (returns_assertR hl) fun _ _ => ?_
  have := addLoop_spec false ha hb hl
  simpa using this

theorem subSameLen_spec {W : Nat} {a b : List Nat} (ha : IsWords W a) (hb : IsWords W b)
    (hl : a.length = b.length) :
    Returns (subSameLen W a b) fun p => AddSpec W a p.1 (-(p.2.toNat : Int)) (-(val W b : Int)) := by
  unfold subSameLen
  refine Returns.bind (returns_assertR hl) fun _ _ => ?_
  have := subLoop_spec false ha hb hl
  simpa using this

theorem AddSpec.cast {W : Nat} {c c' : List Nat} {k δ k' δ' : Int} (h : AddSpec W c c' k δ)
    (hk : k = k') (hd : δ = δ') : AddSpec W c c' k' δ' := by subst hk; subst hd; exact h

theorem addInPlace_spec {W : Nat} {a b : List Nat} (ha : IsWords W a) (hb : IsWords W b)
    (hl : b.length ≤ a.length) :
    Returns (addInPlace W a b) fun p => AddSpec W a p.1 p.2.toNat (val W b) := by
  unfold addInPlace
  refine Returns.bind (returns_splitR hl) ?_
  rintro ⟨lo, hi⟩ ⟨rfl, hlo⟩
  simp only at hlo
  simp only [isWords_append] at ha
  refine Returns.bind (addSameLen_spec ha.1 hb hlo) ?_
  rintro ⟨lo', c⟩ hs
  simp only at hs
  have e := hs.eq
  have hw := hs.words
  have hll := hs.len
  cases c with
  | true =>
    have h1 := addOne_spec ha.2
    have e1 := h1.eq
    simp only [if_true, returns_ok]
    refine ⟨by simp [hll, h1.len], by simp [hw, h1.words], ?_⟩
    rw [val_append, val_append, hll, List.length_append, pow_add]
    push_cast
    simp only [Bool.toNat_true, Nat.cast_one] at e
    linear_combination e + (base W : Int) ^ lo.length * e1
  | false =>
    simp only [Bool.false_eq_true, if_false, returns_ok]
    refine ⟨by simp [hll], by simp [hw, ha.2], ?_⟩
    rw [val_append, val_append, hll, List.length_append, pow_add]
    simp only [Bool.toNat_false] at *
    push_cast at *
    linear_combination e

theorem subInPlace_spec {W : Nat} {a b : List Nat} (ha : IsWords W a) (hb : IsWords W b)
    (hl : b.length ≤ a.length) :
    Returns (subInPlace W a b) fun p => AddSpec W a p.1 (-(p.2.toNat : Int)) (-(val W b : Int)) := by
  unfold subInPlace
  refine Returns.bind (returns_splitR hl) ?_
  rintro ⟨lo, hi⟩ ⟨rfl, hlo⟩
  simp only at hlo
  simp only [isWords_append] at ha
  refine Returns.bind (subSameLen_spec ha.1 hb hlo) ?_
  rintro ⟨lo', c⟩ hs
  simp only at hs
  have e := hs.eq
  have hw := hs.words
  have hll := hs.len
  cases c with
  | true =>
    have h1 := subOne_spec ha.2
    have e1 := h1.eq
    simp only [if_true, returns_ok]
    refine ⟨by simp [hll, h1.len], by simp [hw, h1.words], ?_⟩
    rw [val_append, val_append, hll, List.length_append, pow_add]
    push_cast
    simp only [Bool.toNat_true, Nat.cast_one] at e
    linear_combination e + (base W : Int) ^ lo.length * e1
  | false =>
    simp only [Bool.false_eq_true, if_false, returns_ok]
    refine ⟨by simp [hll], by simp [hw, ha.2], ?_⟩
    rw [val_append, val_append, hll, List.length_append, pow_add]
    simp only [Bool.toNat_false] at *
    push_cast at *
    linear_combination e

/-- `rhs = lhs - rhs`, as a statement about the new `rhs`. -/
theorem subSameLenSwap_spec {W : Nat} {a b : List Nat} (ha : IsWords W a) (hb : IsWords W b)
    (hl : a.length = b.length) :
    Returns (subSameLenSwap W a b) fun p =>
      AddSpec W b p.1 (-(p.2.toNat : Int)) ((val W a : Int) - 2 * val W b) := by
  unfold subSameLenSwap
  refine Returns.bind (returns_assertR hl) fun _ _ => ?_
  have h := subLoop_spec false ha hb hl
  have e := h.eq
  rw [subSwapLoop_eq W a b false hl]
  simp only [returns_ok]
  refine ⟨h.len.trans hl, h.words, ?_⟩
  rw [hl] at e
  simp only [Bool.toNat_false] at e
  push_cast at e
  linear_combination e

theorem addSignedWord_spec {W : Nat} {l : List Nat} {k : Int} (h : IsWords W l)
    (hk : k.natAbs < base W) :
    Returns (addSignedWord W l k) fun p => AddSpec W l p.1 p.2 k := by
  unfold addSignedWord
  split
  · rename_i h0
    simp only [returns_ok]
    refine ⟨rfl, h, ?_⟩
    rcases h0 with h0 | h0
    · simp [h0]
    · simp [h0]
  · rename_i h0
    push Not at h0
    split
    · rename_i hp
      refine Returns.bind (addWord_spec h h0.2 hk) ?_
      rintro ⟨w, c⟩ hs
      simp only [returns_ok]
      exact hs.cast rfl (by omega)
    · rename_i hp
      refine Returns.bind (subWord_spec h h0.2 hk) ?_
      rintro ⟨w, c⟩ hs
      simp only [returns_ok]
      exact hs.cast rfl (by omega)

theorem addSignedSameLen_spec {W : Nat} {a b : List Nat} (s : Sign) (ha : IsWords W a)
    (hb : IsWords W b) (hl : a.length = b.length) :
    Returns (addSignedSameLen W a s b) fun p =>
      AddSpec W a p.1 p.2 (s.toInt * val W b) ∧ p.2.natAbs ≤ 1 := by
  unfold addSignedSameLen
  refine Returns.bind (returns_assertR hl) fun _ _ => ?_
  cases s with
  | pos =>
    refine Returns.bind (addSameLen_spec ha hb hl) ?_
    rintro ⟨w, c⟩ hs
    simp only [returns_ok]
    exact ⟨hs.cast rfl (by simp), by have := Bool.toNat_le c; omega⟩
  | neg =>
    refine Returns.bind (subSameLen_spec ha hb hl) ?_
    rintro ⟨w, c⟩ hs
    simp only [returns_ok]
    exact ⟨hs.cast rfl (by simp), by have := Bool.toNat_le c; omega⟩

theorem addSignedInPlace_spec {W : Nat} {a b : List Nat} (s : Sign) (ha : IsWords W a)
    (hb : IsWords W b) (hl : b.length ≤ a.length) :
    Returns (addSignedInPlace W a s b) fun p =>
      AddSpec W a p.1 p.2 (s.toInt * val W b) ∧ p.2.natAbs ≤ 1 := by
  unfold addSignedInPlace
  refine Returns.bind (returns_assertR hl) fun _ _ => ?_
  cases s with
  | pos =>
    refine Returns.bind (addInPlace_spec ha hb hl) ?_
    rintro ⟨w, c⟩ hs
    simp only [returns_ok]
    exact ⟨hs.cast rfl (by simp), by have := Bool.toNat_le c; omega⟩
  | neg =>
    refine Returns.bind (subInPlace_spec ha hb hl) ?_
    rintro ⟨w, c⟩ hs
    simp only [returns_ok]
    exact ⟨hs.cast rfl (by simp), by have := Bool.toNat_le c; omega⟩

theorem strippedLen_spec (W : Nat) {l : List Nat} {n : Nat} (h : n ≤ l.length) :
    Returns (strippedLen l n) fun m => m ≤ n ∧ val W (l.take n) = val W (l.take m) ∧
      (m ≠ 0 → base W ^ (m - 1) ≤ val W (l.take m)) := by
  induction n with
  | zero => simp [strippedLen]
  | succ n ih =>
    unfold strippedLen
    rw [getR_ok (by omega : n < l.length)]
    refine Returns.bind (P := fun x => x = l[n]) (by simp) ?_
    rintro x rfl
    have e := val_take_succ W (by omega : n < l.length)
    split
    · rename_i h0
      refine (ih (by omega)).mono ?_
      rintro m ⟨h1, h2, h3⟩
      exact ⟨by omega, by rw [e, h0]; simpa using h2, h3⟩
    · rename_i h0
      simp only [returns_ok]
      refine ⟨le_refl _, trivial, fun _ => ?_⟩
      rw [e]
      simp only [Nat.add_sub_cancel]
      have : 1 ≤ l[n] := Nat.one_le_iff_ne_zero.mpr h0
      calc base W ^ n = base W ^ n * 1 := by ring
        _ ≤ base W ^ n * l[n] := Nat.mul_le_mul_left _ this
        _ ≤ _ := by omega

theorem val_take_of_val_zero {W : Nat} {l : List Nat} (h : val W l = 0) (n : Nat) :
    val W (l.take n) = 0 := by
  have := val_take_add_drop W l n
  omega

theorem val_drop_of_val_zero {W : Nat} {l : List Nat} (h : val W l = 0) (n : Nat) :
    val W (l.drop n) = 0 := by
  have := val_take_add_drop W l n
  have p := base_pow_pos W (min n l.length)
  have : base W ^ (min n l.length) * val W (l.drop n) = 0 := by omega
  rcases Nat.mul_eq_zero.mp this with h | h
  · omega
  · exact h

theorem val_drop_eq_zero {W : Nat} {l : List Nat} {n : Nat} (h : val W l = val W (l.take n)) :
    val W (l.drop n) = 0 := by
  have := val_take_add_drop W l n
  have p := base_pow_pos W (min n l.length)
  have : base W ^ (min n l.length) * val W (l.drop n) = 0 := by omega
  rcases Nat.mul_eq_zero.mp this with h | h
  · omega
  · exact h

theorem val_set_zero {W : Nat} {l : List Nat} {n : Nat} (h : n < l.length) :
    val W (l.set n 0) + base W ^ n * l[n] = val W l := by
  have e : l = l.take n ++ l[n] :: l.drop (n + 1) := by simp
  have e2 : l.set n 0 = l.take n ++ 0 :: l.drop (n + 1) := by
    rw [List.set_eq_take_append_cons_drop]; simp [h]
  rw [e2]
  conv_rhs => rw [e]
  simp only [val_append, val_cons]
  rw [List.length_take, Nat.min_eq_left h.le]
  ring

theorem isWords_set {W : Nat} {l : List Nat} (h : IsWords W l) (n : Nat) {x : Nat}
    (hx : x < base W) : IsWords W (l.set n x) := by
  intro y hy
  rcases List.mem_or_eq_of_mem_set hy with h1 | h1
  · exact h y h1
  · omega

theorem lt_base_pow_pred {W x m n : Nat} (hx : x < base W ^ m) (hmn : m < n) :
    x < base W ^ (n - 1) :=
  lt_of_lt_of_le hx (Nat.pow_le_pow_right (base_pos W) (by omega))

theorem subSignLoop_spec {W : Nat} {a b : List Nat} {n : Nat} (ha : IsWords W a) (hb : IsWords W b)
    (hna : n ≤ a.length) (hnb : n ≤ b.length) (hz : val W a = val W (a.take n)) :
    Returns (subSignLoop W a b n) fun p => p.1.length = a.length ∧ IsWords W p.1 ∧
      p.2.toInt * val W p.1 = (val W (a.take n) : Int) - val W (b.take n) := by
  induction n generalizing a with
  | zero =>
    simp only [subSignLoop, returns_ok]
    refine ⟨trivial, ha, ?_⟩
    simp [hz]
  | succ n ih =>
    unfold subSignLoop
    rw [getR_ok (by omega : n < a.length), getR_ok (by omega : n < b.length)]
    refine Returns.bind (P := fun x => x = a[n]) (by simp) ?_
    rintro x rfl
    refine Returns.bind (P := fun x => x = b[n]) (by simp) ?_
    rintro y rfl
    have ea := val_take_succ W (by omega : n < a.length)
    have eb := val_take_succ W (by omega : n < b.length)
    have la := val_lt (ha.take n)
    have lb := val_lt (hb.take n)
    rw [List.length_take, Nat.min_eq_left (by omega)] at la lb
    have la1 := val_lt (ha.take (n+1))
    have lb1 := val_lt (hb.take (n+1))
    rw [List.length_take, Nat.min_eq_left (by omega)] at la1 lb1
    have hlb : (b.take (n+1)).length = n + 1 := by rw [List.length_take]; omega
    split
    · rename_i hgt
      have hlt : val W (b.take (n+1)) < val W (a.take (n+1)) := by
        rw [ea, eb]
        have : base W ^ n * (b[n] + 1) ≤ base W ^ n * a[n] := Nat.mul_le_mul_left _ hgt
        rw [Nat.mul_add] at this
        omega
      rw [sliceR_ok (Nat.zero_le _) hnb]
      refine Returns.bind (P := fun s => s = b.take (n+1)) (by simp) ?_
      rintro r rfl
      refine Returns.bind (onSlice_spec (k := fun o : Bool => -(o.toNat : Int))
        (δ := fun _ => -(val W (b.take (n+1)) : Int)) (Q := fun o => o = false)
        (Nat.zero_le _) hna ha ?_) ?_
      · intro s hs hw he
        refine (subSameLen_spec hw (hb.take (n+1)) (by rw [hs, hlb]; rfl)).mono ?_
        rintro ⟨s', o⟩ hsp
        refine ⟨hsp, ?_⟩
        have hv : val W s = val W (a.take (n+1)) := by rw [he]; simp
        have := hsp.carry_zero (by rw [hv]; omega) (by
          rw [hv, hs]; push_cast; have : (val W (a.take (n+1)) : Int) < (base W : Int)^(n+1) := by exact_mod_cast la1
          omega)
        cases o <;> simp at this ⊢
      · rintro ⟨a', o⟩ ⟨hat, rfl⟩
        refine Returns.bind (returns_assertR rfl) fun _ _ => ?_
        simp only [returns_ok]
        refine ⟨hat.len, hat.words, ?_⟩
        have e := hat.eq
        simp only [Bool.toNat_false] at e
        rw [hz] at e
        simp only [Sign.toInt_pos]
        push_cast at e
        linear_combination e
    · rename_i hngt
      split
      · rename_i hgt
        have hlt : val W (a.take (n+1)) < val W (b.take (n+1)) := by
          rw [ea, eb]
          have : base W ^ n * (a[n] + 1) ≤ base W ^ n * b[n] := Nat.mul_le_mul_left _ hgt
          rw [Nat.mul_add] at this
          omega
        rw [sliceR_ok (Nat.zero_le _) hnb]
        refine Returns.bind (P := fun s => s = b.take (n+1)) (by simp) ?_
        rintro r rfl
        refine Returns.bind (onSlice_spec (k := fun o : Bool => -(o.toNat : Int))
          (δ := fun _ => (val W (b.take (n+1)) : Int) - 2 * val W (a.take (n+1)))
          (Q := fun o => o = false) (Nat.zero_le _) hna ha ?_) ?_
        · intro s hs hw he
          have hv : val W s = val W (a.take (n+1)) := by rw [he]; simp
          refine (subSameLenSwap_spec (hb.take (n+1)) hw (by rw [hs, hlb]; rfl)).mono ?_
          rintro ⟨s', o⟩ hsp
          rw [hv] at hsp
          refine ⟨hsp, ?_⟩
          have := hsp.carry_zero (by rw [hv]; omega) (by
            rw [hv, hs]; push_cast; have : (val W (b.take (n+1)) : Int) < (base W : Int)^(n+1) := by exact_mod_cast lb1
            omega)
          cases o <;> simp at this ⊢
        · rintro ⟨a', o⟩ ⟨hat, rfl⟩
          refine Returns.bind (returns_assertR rfl) fun _ _ => ?_
          simp only [returns_ok]
          refine ⟨hat.len, hat.words, ?_⟩
          have e := hat.eq
          simp only [Bool.toNat_false] at e
          rw [hz] at e
          simp only [Sign.toInt_neg]
          push_cast at e
          linear_combination -e
      · rename_i hnlt
        have hab : a[n] = b[n] := by omega
        have hset : setR a n 0 = .ok (a.set n 0) := by simp [setR]; omega
        rw [hset]
        refine Returns.bind (P := fun s => s = a.set n 0) (by simp) ?_
        rintro a' rfl
        have hv := val_set_zero (W := W) (by omega : n < a.length)
        have ht : (a.set n 0).take n = a.take n := by rw [List.take_set_of_le (le_refl n)]
        refine (ih (a := a.set n 0) (isWords_set ha n (base_pos W)) (by simp; omega) (by omega)
          ?_).mono ?_
        · rw [ht]; rw [hz, ea] at hv; omega
        · rintro ⟨p, s⟩ ⟨h1, h2, h3⟩
          refine ⟨by simpa using h1, h2, ?_⟩
          rw [h3, ht, ea, eb, hab]
          push_cast; ring

theorem subInPlaceWithSign_spec {W : Nat} {a b : List Nat} (ha : IsWords W a) (hb : IsWords W b)
    (hl : b.length ≤ a.length) :
    Returns (subInPlaceWithSign W a b) fun p => p.1.length = a.length ∧ IsWords W p.1 ∧
      p.2.toInt * val W p.1 = (val W a : Int) - val W b := by
  unfold subInPlaceWithSign
  refine Returns.bind (returns_assertR hl) fun _ _ => ?_
  refine Returns.bind (strippedLen_spec W (le_refl a.length)) ?_
  rintro m ⟨hm, hvm, hpm⟩
  refine Returns.bind (strippedLen_spec W (le_refl b.length)) ?_
  rintro n ⟨hn, hvn, hpn⟩
  rw [List.take_length] at hvm hvn
  have la := val_lt (ha.take m)
  have lb := val_lt (hb.take n)
  rw [List.length_take, Nat.min_eq_left (by omega)] at la lb
  split
  · rename_i hlt
    rw [sliceR_ok (Nat.zero_le _) hn]
    refine Returns.bind (P := fun s => s = b.take n) (by simp) ?_
    rintro r rfl
    have hbig : val W (b.take n) < val W (a.take m) :=
      lt_of_lt_of_le (lt_base_pow_pred lb hlt) (hpm (by omega))
    refine Returns.bind (onSlice_spec (k := fun o : Bool => -(o.toNat : Int))
      (δ := fun _ => -(val W (b.take n) : Int)) (Q := fun o => o = false)
      (Nat.zero_le _) hm ha ?_) ?_
    · intro s hs hw he
      refine (subInPlace_spec hw (hb.take n) (by rw [hs, List.length_take]; omega)).mono ?_
      rintro ⟨s', o⟩ hsp
      refine ⟨hsp, ?_⟩
      have hv : val W s = val W (a.take m) := by rw [he]; simp
      have := hsp.carry_zero (by rw [hv]; omega) (by
        rw [hv, hs]; push_cast
        have : (val W (a.take m) : Int) < (base W : Int)^m := by exact_mod_cast la
        simp only [Nat.sub_zero]; omega)
      cases o <;> simp at this ⊢
    · rintro ⟨a', o⟩ ⟨hat, rfl⟩
      refine Returns.bind (returns_assertR rfl) fun _ _ => ?_
      simp only [returns_ok]
      refine ⟨hat.len, hat.words, ?_⟩
      have e := hat.eq
      simp only [Bool.toNat_false] at e
      rw [hvn]
      simp only [Sign.toInt_pos]
      push_cast at e
      linear_combination e
  · split
    · rename_i hlt
      rw [sliceR_ok (Nat.zero_le _) (by omega : m ≤ b.length)]
      refine Returns.bind (P := fun s => s = b.take m) (by simp) ?_
      rintro r rfl
      have hmb : (b.take m).length = m := by rw [List.length_take]; omega
      refine Returns.bind (onSlice_spec (k := fun o : Bool => -(o.toNat : Int))
        (δ := fun _ => (val W (b.take m) : Int) - 2 * val W (a.take m)) (Q := fun _ => True)
        (Nat.zero_le _) hm ha ?_) ?_
      · intro s hs hw he
        have hv : val W s = val W (a.take m) := by rw [he]; simp
        refine (subSameLenSwap_spec (hb.take m) hw (by rw [hs, hmb]; rfl)).mono ?_
        rintro ⟨s', o⟩ hsp
        rw [hv] at hsp
        exact ⟨hsp, trivial⟩
      rintro ⟨a', o⟩ ⟨hat, -⟩
      rw [sliceR_ok hlt.le hn]
      refine Returns.bind (P := fun s => s = (b.take n).drop m) (by simp) ?_
      rintro rHi rfl
      have hlr : ((b.take n).drop m).length = n - m := by simp; omega
      have hwr : IsWords W ((b.take n).drop m) := (hb.take n).drop m
      have hz : val W (a.drop m) = 0 := val_drop_eq_zero hvm
      have hz' : val W ((a'.take n).drop m) = 0 := by
        rw [List.drop_take, hat.hi]; exact val_take_of_val_zero hz _
      have hla' : a'.length = a.length := hat.len
      have hsplit := val_split3 W (b.take n) (Nat.zero_le m) (by rw [List.length_take]; omega)
      have hsplit : val W (b.take n) = val W (b.take m) + base W ^ m * val W ((b.take n).drop m) := by
        have := val_take_add_drop W (b.take n) m
        rw [List.take_take, List.length_take, Nat.min_eq_left (by omega : m ≤ n),
          Nat.min_eq_left (by omega)] at this
        exact this
      have hpos : 0 < val W ((b.take n).drop m) := by
        rcases Nat.eq_zero_or_pos (val W ((b.take n).drop m)) with h0 | h0
        · rw [h0] at hsplit
          have h1 := hpn (by omega)
          have h2 := val_lt (hb.take m)
          rw [hmb] at h2
          have h3 := lt_base_pow_pred h2 hlt
          omega
        · exact h0
      refine Returns.bind (onSlice_spec' (k := fun _ => 0)
        (δ := fun _ => (val W ((b.take n).drop m) : Int)) (Q := fun s _ => s = (b.take n).drop m)
        hlt.le (by omega) hat.words ?_) ?_
      · intro s hs hw he
        refine Returns.bind (returns_assertR (by rw [hs, hlr])) fun _ _ => ?_
        simp only [returns_ok, and_true]
        refine ⟨by rw [hs, hlr], hwr, ?_⟩
        have : val W s = 0 := by rw [he]; exact hz'
        simp [this]
      rintro ⟨a'', u⟩ ⟨hat', hsl⟩
      have e1 := hat.eq
      have e2 := hat'.eq
      simp only at e1 e2 hsl
      have hsplit' : (val W (b.take n) : Int) = val W (b.take m) + (base W : Int) ^ m * val W ((b.take n).drop m) := by
        exact_mod_cast hsplit
      cases o with
      | true =>
        simp only [if_true]
        refine Returns.bind (onSlice_spec (k := fun o : Bool => -(o.toNat : Int))
          (δ := fun _ => -1) (Q := fun o => o = false)
          hlt.le (by rw [hat'.len]; omega) hat'.words ?_) ?_
        · intro s hs hw he
          have h1 := subOne_spec hw
          simp only [returns_ok]
          refine ⟨h1, ?_⟩
          have hlt2 := val_lt hw
          have hv : 0 < val W s := by rw [he, hsl]; exact hpos
          have := h1.carry_zero (by omega) (by
            have : (val W s : Int) < (base W : Int) ^ s.length := by exact_mod_cast hlt2
            omega)
          cases ho : (subOne W s).2 <;> simp [ho] at this ⊢
        rintro ⟨a3, o⟩ ⟨hat3, rfl⟩
        refine Returns.bind (returns_assertR rfl) fun _ _ => ?_
        simp only [returns_ok]
        refine ⟨by rw [hat3.len, hat'.len, hat.len], hat3.words, ?_⟩
        have e3 := hat3.eq
        simp only [Bool.toNat_false, Bool.toNat_true] at e1 e3
        push_cast at e1 e3
        rw [hvn, hsplit', hvm]
        rw [hvm] at e1
        simp only [Sign.toInt_neg]
        linear_combination -e3 - e2 - e1
      | false =>
        simp only [Bool.false_eq_true, if_false, returns_ok]
        refine ⟨by rw [hat'.len, hat.len], hat'.words, ?_⟩
        simp only [Bool.toNat_false] at e1
        push_cast at e1
        rw [hvn, hsplit', hvm]
        rw [hvm] at e1
        simp only [Sign.toInt_neg]
        linear_combination - e2 - e1
    · have hmn : m = n := by omega
      subst hmn
      refine (subSignLoop_spec ha hb hm hn hvm).mono ?_
      rintro ⟨p, s⟩ ⟨h1, h2, h3⟩
      exact ⟨h1, h2, by rw [h3, hvm, hvn]⟩

end Ibig
