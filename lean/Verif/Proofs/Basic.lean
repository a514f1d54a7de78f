import Mathlib.Tactic.Ring
import Mathlib.Tactic.Linarith
import Mathlib.Tactic.NormNum
import Mathlib.Tactic.Positivity
import Mathlib.Tactic.LinearCombination
import Verif.Model.Prim

/-! Helper lemmas: the `Returns` predicate, `val`, slices. -/
namespace Ibig

/-- `x` returns normally (no panic) and the result satisfies `P`. -/
def Returns {α : Type} (x : R α) (P : α → Prop) : Prop := ∃ a, x = .ok a ∧ P a

theorem Returns.bind {α β : Type} {x : R α} {f : α → R β} {P : α → Prop} {Q : β → Prop}
    (hx : Returns x P) (hf : ∀ a, P a → Returns (f a) Q) : Returns (x >>= f) Q := by
  obtain ⟨a, rfl, ha⟩ := hx
  exact hf a ha

theorem Returns.mono {α : Type} {x : R α} {P Q : α → Prop}
    (hx : Returns x P) (h : ∀ a, P a → Q a) : Returns x Q := by
  obtain ⟨a, rfl, ha⟩ := hx
  exact ⟨a, rfl, h a ha⟩

@[simp] theorem returns_ok {α : Type} {a : α} {P : α → Prop} : Returns (.ok a) P ↔ P a := by
  constructor
  · rintro ⟨b, h, hb⟩; cases h; exact hb
  · intro h; exact ⟨a, rfl, h⟩

@[simp] theorem returns_pure {α : Type} {a : α} {P : α → Prop} :
    Returns (pure a : R α) P ↔ P a := returns_ok

@[simp] theorem returns_error {α : Type} {e : Panic} {P : α → Prop} :
    Returns (.error e : R α) P ↔ False := by
  constructor
  · rintro ⟨b, h, _⟩; cases h
  · exact False.elim

theorem returns_assertR {p : Prop} [Decidable p] (h : p) : Returns (assertR p) fun _ => p := by
  simp [assertR, h]

@[simp] theorem assertR_true {p : Prop} [Decidable p] (h : p) : assertR p = .ok () := by
  simp [assertR, h]

theorem base_pos (W : Nat) : 0 < base W := Nat.two_pow_pos W

theorem two_le_base {W : Nat} (h : 1 ≤ W) : 2 ≤ base W := by
  unfold base
  calc 2 = 2 ^ 1 := rfl
    _ ≤ 2 ^ W := Nat.pow_le_pow_right (by norm_num) h

theorem base_ge {W k : Nat} (h : k ≤ W) : 2 ^ k ≤ base W := Nat.pow_le_pow_right (by norm_num) h

@[simp] theorem val_nil (W : Nat) : val W [] = 0 := rfl
@[simp] theorem val_cons (W x : Nat) (xs : List Nat) :
    val W (x :: xs) = x + base W * val W xs := rfl

theorem val_append (W : Nat) (a b : List Nat) :
    val W (a ++ b) = val W a + base W ^ a.length * val W b := by
  induction a with
  | nil => simp
  | cons x xs ih => simp [ih, pow_succ]; ring

@[simp] theorem val_replicate_zero (W n : Nat) : val W (List.replicate n 0) = 0 := by
  induction n with
  | zero => rfl
  | succ n ih => simp [List.replicate_succ, ih]

@[simp] theorem isWords_nil (W : Nat) : IsWords W [] := by simp [IsWords]
@[simp] theorem isWords_cons {W x : Nat} {xs : List Nat} :
    IsWords W (x :: xs) ↔ x < base W ∧ IsWords W xs := by simp [IsWords]
@[simp] theorem isWords_append {W : Nat} {a b : List Nat} :
    IsWords W (a ++ b) ↔ IsWords W a ∧ IsWords W b := by
  simp [IsWords, or_imp, forall_and]
theorem isWords_replicate_zero (W n : Nat) : IsWords W (List.replicate n 0) := by
  intro x hx; rw [List.eq_of_mem_replicate hx]; exact base_pos W
theorem IsWords.take {W : Nat} {l : List Nat} (h : IsWords W l) (n : Nat) : IsWords W (l.take n) :=
  fun x hx => h x (List.mem_of_mem_take hx)
theorem IsWords.drop {W : Nat} {l : List Nat} (h : IsWords W l) (n : Nat) : IsWords W (l.drop n) :=
  fun x hx => h x (List.mem_of_mem_drop hx)

theorem val_lt {W : Nat} {l : List Nat} (h : IsWords W l) : val W l < base W ^ l.length := by
  induction l with
  | nil => simp
  | cons x xs ih =>
    simp only [isWords_cons] at h
    have := ih h.2
    simp only [val_cons, List.length_cons, pow_succ]
    nlinarith [h.1, base_pos W]

theorem base_pow_pos (W n : Nat) : 0 < base W ^ n := Nat.pow_pos (base_pos W)

theorem val_take_add_drop (W : Nat) (l : List Nat) (n : Nat) :
    val W l = val W (l.take n) + base W ^ (min n l.length) * val W (l.drop n) := by
  conv_lhs => rw [← List.take_append_drop n l]
  rw [val_append, List.length_take]

theorem returns_splitR {l : List Nat} {n : Nat} (h : n ≤ l.length) :
    Returns (splitR l n) fun p => l = p.1 ++ p.2 ∧ p.1.length = n := by
  simp [splitR, h]

theorem splitR_append {a b : List Nat} {n : Nat} (h : a.length = n) :
    splitR (a ++ b) n = .ok (a, b) := by
  simp [splitR, ← h]

/-- Uniqueness of base-`B` numerals of equal length. -/
theorem val_inj {W : Nat} {a b : List Nat} (ha : IsWords W a) (hb : IsWords W b)
    (hl : a.length = b.length) (h : val W a = val W b) : a = b := by
  induction a generalizing b with
  | nil => cases b with
    | nil => rfl
    | cons => simp at hl
  | cons x xs ih =>
    cases b with
    | nil => simp at hl
    | cons y ys =>
      simp only [isWords_cons] at ha hb
      simp only [val_cons] at h
      have hxy : x = y := by
        have h1 := congrArg (· % base W) h
        simp only [Nat.add_mul_mod_self_left] at h1
        rwa [Nat.mod_eq_of_lt ha.1, Nat.mod_eq_of_lt hb.1] at h1
      subst hxy
      have : val W xs = val W ys := by
        have := Nat.add_left_cancel h
        exact Nat.eq_of_mul_eq_mul_left (base_pos W) this
      rw [ih ha.2 hb.2 (by simpa using hl) this]

/-- Signed addition with carry out: `val c' + k·B^|c| = val c + δ`. -/
structure AddSpec (W : Nat) (c c' : List Nat) (k δ : Int) : Prop where
  len : c'.length = c.length
  words : IsWords W c'
  eq : (val W c' : Int) + k * (base W : Int) ^ c.length = val W c + δ

theorem AddSpec.trans {W : Nat} {c c' c'' : List Nat} {k k' δ δ' : Int}
    (h : AddSpec W c c' k δ) (h' : AddSpec W c' c'' k' δ') :
    AddSpec W c c'' (k + k') (δ + δ') where
  len := h'.len.trans h.len
  words := h'.words
  eq := by
    have e1 := h.eq
    have e2 := h'.eq
    rw [h.len] at e2
    linear_combination e1 + e2

/-- An operation on `c[i..j]` adds `δ·B^i` to the whole, with the carry at position `j`. -/
structure AddAt (W : Nat) (c c' : List Nat) (i j : Nat) (k δ : Int) : Prop where
  len : c'.length = c.length
  words : IsWords W c'
  eq : (val W c' : Int) + k * (base W : Int) ^ j = val W c + δ * (base W : Int) ^ i
  lo : c'.take i = c.take i
  hi : c'.drop j = c.drop j

theorem sliceR_ok {l : List Nat} {i j : Nat} (h1 : i ≤ j) (h2 : j ≤ l.length) :
    sliceR l i j = .ok ((l.take j).drop i) := by simp [sliceR, h1, h2]

theorem val_split3 (W : Nat) (c : List Nat) {i j : Nat} (h1 : i ≤ j) (h2 : j ≤ c.length) :
    val W c = val W (c.take i) + base W ^ i * val W ((c.take j).drop i)
      + base W ^ j * val W (c.drop j) := by
  have e : c = c.take i ++ ((c.take j).drop i ++ c.drop j) := by
    have : c.take i = (c.take j).take i := by rw [List.take_take, Nat.min_eq_left h1]
    rw [this, ← List.append_assoc, List.take_append_drop, List.take_append_drop]
  conv_lhs => rw [e]
  rw [val_append, val_append]
  have l1 : (c.take i).length = i := by simp; omega
  have l2 : ((c.take j).drop i).length = j - i := by simp; omega
  rw [l1, l2]
  have : base W ^ j = base W ^ i * base W ^ (j - i) := by rw [← pow_add]; congr 1; omega
  rw [this]; ring

theorem onSlice_spec' {W : Nat} {α : Type} {c : List Nat} {i j : Nat}
    {f : List Nat → R (List Nat × α)} {k δ : α → Int} {Q : List Nat → α → Prop}
    (h1 : i ≤ j) (h2 : j ≤ c.length) (hc : IsWords W c)
    (hf : ∀ s, s.length = j - i → IsWords W s → s = (c.take j).drop i →
      Returns (f s) fun r => AddSpec W s r.1 (k r.2) (δ r.2) ∧ Q r.1 r.2) :
    Returns (onSlice c i j f) fun r => AddAt W c r.1 i j (k r.2) (δ r.2) ∧
      Q ((r.1.take j).drop i) r.2 := by
  unfold onSlice
  rw [sliceR_ok h1 h2]
  have l2 : ((c.take j).drop i).length = j - i := by simp; omega
  have l1 : (c.take i).length = i := by simp; omega
  refine Returns.bind (P := fun s => s = (c.take j).drop i) (by simp) ?_
  rintro s rfl
  refine Returns.bind (hf _ l2 ((hc.take j).drop i) rfl) ?_
  rintro ⟨s', k'⟩ ⟨hs, hq⟩
  simp only [returns_ok]
  have l3 := hs.len
  simp only at l3
  have l4 : (c.take i ++ s').length = j := by rw [List.length_append]; omega
  refine ⟨⟨?_, ?_, ?_, ?_, ?_⟩, ?_⟩
  · have := hs.len
    simp only [List.length_append, List.length_take, List.length_drop] at *
    omega
  · have := hs.words
    simp only [isWords_append]
    exact ⟨⟨hc.take i, this⟩, hc.drop j⟩
  · have e := hs.eq
    rw [l2] at e
    rw [val_split3 W c h1 h2, List.append_assoc, val_append, val_append, l1, hs.len, l2]
    have : (base W : Int) ^ j = base W ^ i * base W ^ (j - i) := by rw [← pow_add]; congr 1; omega
    push_cast
    rw [this]
    linear_combination (base W : Int) ^ i * e
  · rw [List.append_assoc, List.take_append_of_le_length (by omega), List.take_of_length_le (by omega)]
  · rw [List.drop_append_of_le_length (by omega), List.drop_of_length_le (by omega)]; rfl
  · rw [List.take_append_of_le_length (by omega), List.take_of_length_le (by omega),
      List.drop_append_of_le_length (by omega), List.drop_of_length_le (by omega)]
    exact hq

theorem onSlice_spec {W : Nat} {α : Type} {c : List Nat} {i j : Nat}
    {f : List Nat → R (List Nat × α)} {k δ : α → Int} {Q : α → Prop}
    (h1 : i ≤ j) (h2 : j ≤ c.length) (hc : IsWords W c)
    (hf : ∀ s, s.length = j - i → IsWords W s → s = (c.take j).drop i →
      Returns (f s) fun r => AddSpec W s r.1 (k r.2) (δ r.2) ∧ Q r.2) :
    Returns (onSlice c i j f) fun r => AddAt W c r.1 i j (k r.2) (δ r.2) ∧ Q r.2 :=
  onSlice_spec' (Q := fun _ a => Q a) h1 h2 hc hf

theorem getR_ok {l : List Nat} {i : Nat} (h : i < l.length) : getR l i = .ok l[i] := by
  simp [getR, h]

theorem val_take_succ (W : Nat) {l : List Nat} {n : Nat} (h : n < l.length) :
    val W (l.take (n + 1)) = val W (l.take n) + base W ^ n * l[n] := by
  rw [← List.take_append_getElem h, val_append]
  simp [Nat.min_eq_left h.le]

theorem AddSpec.carry_zero {W : Nat} {c c' : List Nat} {k δ : Int} (h : AddSpec W c c' k δ)
    (h0 : 0 ≤ (val W c : Int) + δ) (h1 : (val W c : Int) + δ < (base W : Int) ^ c.length) :
    k = 0 := by
  have e := h.eq
  have l := val_lt h.words
  rw [h.len] at l
  have l' : (val W c' : Int) < (base W : Int) ^ c.length := by exact_mod_cast l
  have p : (0 : Int) < (base W : Int) ^ c.length := by exact_mod_cast base_pow_pos W c.length
  have q : (0 : Int) ≤ val W c' := Int.natCast_nonneg _
  by_contra hk
  rcases lt_or_gt_of_ne hk with hk | hk
  · nlinarith
  · nlinarith

theorem AddSpec.eq_of_carry_zero {W : Nat} {c c' : List Nat} {k δ : Int} (h : AddSpec W c c' k δ)
    (hk : k = 0) : (val W c' : Int) = val W c + δ := by
  have := h.eq; subst hk; linarith

end Ibig
