import Verif.Spec.Agreement
import Verif.Proofs.FmtDigits
import Verif.Spec.Fmt
import Mathlib.Data.Nat.Digits.Lemmas
/-! Numerals and their order. -/
namespace Ibig

theorem IsCanonicalNumeral.count {r n : Nat} {ds : List Nat} (h : IsCanonicalNumeral r n ds) :
    DigitCount r n ds.length where
  pos := List.length_pos_iff.mpr h.nonempty
  lt := by rw [← h.value]; exact digitsValue_lt h.digits
  ge := by
    obtain ⟨d, ds, rfl⟩ := List.exists_cons_of_ne_nil h.nonempty
    by_cases hd : d = 0
    · subst hd
      have := h.noLeadingZero rfl
      simp only [List.cons.injEq, true_and] at this
      subst this; left; rfl
    · right
      rw [← h.value]
      simpa using digitsValue_ge (r := r) (ds := ds) hd

theorem IsPrinted.length_eq {upper : Bool} {s ds : List Nat} (h : IsPrinted upper s ds) : s.length = ds.length :=
  List.Forall₂.length_eq h

/-- the order of equally long numerals is lexicographic -/
theorem digitsValue_lt_iff {r : Nat} : ∀ {a b : List Nat}, (∀ d ∈ a, d < r) → (∀ d ∈ b, d < r) →
    a.length = b.length → (digitsValue r a < digitsValue r b ↔ a < b) := by
  intro a
  induction a with
  | nil =>
    intro b _ _ hl
    have : b = [] := List.eq_nil_of_length_eq_zero hl.symm
    subst this; simp
  | cons d ds ih =>
    intro b ha hb hl
    obtain ⟨e, es, rfl⟩ : ∃ e es, b = e :: es := by
      cases b with
      | nil => simp at hl
      | cons e es => exact ⟨e, es, rfl⟩
    simp only [List.length_cons, Nat.add_right_cancel_iff] at hl
    simp only [List.mem_cons, forall_eq_or_imp] at ha hb
    have h1 := digitsValue_lt ha.2
    have h2 := digitsValue_lt hb.2
    rw [digitsValue_cons, digitsValue_cons, List.cons_lt_cons_iff, ← ih ha.2 hb.2 hl, hl] at *
    rcases Nat.lt_trichotomy d e with h | h | h
    · have : (d + 1) * r ^ es.length ≤ e * r ^ es.length := Nat.mul_le_mul_right _ h
      constructor
      · intro _; exact Or.inl h
      · intro _; nlinarith
    · subst h; simp
    · have : (e + 1) * r ^ es.length ≤ d * r ^ es.length := Nat.mul_le_mul_right _ h
      constructor
      · intro _; nlinarith
      · rintro (h' | h') <;> omega

theorem DigitCount.lt_of_lt {r n m j k : Nat} (hr : 2 ≤ r) (h : DigitCount r n j) (h' : DigitCount r m k)
    (hjk : j < k) : n < m := by
  have := h.pos
  rcases h'.ge with h1 | h1
  · omega
  · exact lt_of_lt_of_le h.lt (le_trans (Nat.pow_le_pow_right (by omega) (by omega)) h1)

/-- the order of numerals -/
theorem IsCanonicalNumeral.lt_iff {r n m : Nat} (hr : 2 ≤ r) {a b : List Nat} (ha : IsCanonicalNumeral r n a)
    (hb : IsCanonicalNumeral r m b) : n < m ↔ Precedes a b := by
  rcases Nat.lt_trichotomy a.length b.length with h | h | h
  · exact iff_of_true (ha.count.lt_of_lt hr hb.count h) (Or.inl h)
  · rw [← ha.value, ← hb.value, digitsValue_lt_iff ha.digits hb.digits h]
    exact ⟨fun h' => Or.inr ⟨h, h'⟩, fun h' => h'.elim (fun h' => absurd h (Nat.ne_of_lt h')) (·.2)⟩
  · refine iff_of_false ?_ ?_
    · have := hb.count.lt_of_lt hr ha.count h; omega
    · rintro (h' | h') <;> omega

theorem digit_chars_mono : ∀ upper : Bool, ∀ d < 36, ∀ e < 36,
    ((if upper then upperDigits else lowerDigits)[d]! < (if upper then upperDigits else lowerDigits)[e]! ↔ d < e) ∧
    ((if upper then upperDigits else lowerDigits)[d]! = (if upper then upperDigits else lowerDigits)[e]! ↔ d = e) := by
  decide +kernel

theorem IsPrinted.lt_iff {upper : Bool} : ∀ {s ds t es : List Nat}, IsPrinted upper s ds → IsPrinted upper t es →
    (∀ d ∈ ds, d < 36) → (∀ d ∈ es, d < 36) → (s < t ↔ ds < es) := by
  intro s ds t es hs
  induction hs generalizing t es with
  | nil =>
    intro ht _ _
    cases ht with
    | nil => simp
    | cons h1 h2 => simp
  | @cons c d s ds h1 h2 ih =>
    intro ht hd he
    cases ht with
    | nil => simp
    | @cons c' e t es h3 h4 =>
      simp only [List.mem_cons, forall_eq_or_imp] at hd he
      have hc : c = (if upper then upperDigits else lowerDigits)[d]! := by simp [getElem!_def, h1]
      have hc' : c' = (if upper then upperDigits else lowerDigits)[e]! := by simp [getElem!_def, h3]
      rw [List.cons_lt_cons_iff, List.cons_lt_cons_iff, ih h4 hd.2 he.2, hc, hc',
        (digit_chars_mono upper d hd.1 e he.1).1, (digit_chars_mono upper d hd.1 e he.1).2]

/-- the order of numbers is the order of their texts -/
theorem IsNumeralText.lt_iff {r n m : Nat} (h2 : 2 ≤ r) (h36 : r ≤ 36) {upper : Bool} {s t : List Nat}
    (hs : IsNumeralText r n upper s) (ht : IsNumeralText r m upper t) : n < m ↔ Precedes s t := by
  obtain ⟨ds, hds, ps⟩ := hs
  obtain ⟨es, hes, pt⟩ := ht
  rw [hds.lt_iff h2 hes]
  unfold Precedes
  rw [ps.length_eq, pt.length_eq, ps.lt_iff pt (fun d hd => lt_of_lt_of_le (hds.digits d hd) h36)
    (fun d hd => lt_of_lt_of_le (hes.digits d hd) h36)]

theorem IsNumeralText.count {r n : Nat} {upper : Bool} {s : List Nat} (hs : IsNumeralText r n upper s) :
    DigitCount r n s.length := by
  obtain ⟨ds, hds, ps⟩ := hs
  rw [ps.length_eq]; exact hds.count

/-- shortest bytes -/
theorem shortest_count {v : Nat} {l : List Nat} (hb : ∀ x ∈ l, x < 256) (hl : Nat.ofDigits 256 l = v)
    (hmin : ∀ l' : List Nat, (∀ x ∈ l', x < 256) → Nat.ofDigits 256 l' = v → l.length ≤ l'.length) :
    v < 256 ^ l.length ∧ (v ≠ 0 → 256 ^ l.length ≤ 256 * v) ∧ (v = 0 → l = []) := by
  refine ⟨?_, ?_, ?_⟩
  · rw [← hl]; exact Nat.ofDigits_lt_base_pow_length (by decide) (fun x hx => hb x hx)
  · intro h0
    have h1 := hmin (Nat.digits 256 v) (fun x hx => Nat.digits_lt_base (by decide) hx) (Nat.ofDigits_digits _ _)
    exact le_trans (Nat.pow_le_pow_right (by decide) h1) (Nat.base_pow_length_digits_le 256 v (by decide) h0)
  · intro h0
    have := hmin [] (by simp) (by simp [h0])
    exact List.eq_nil_of_length_eq_zero (by simpa using this)

theorem digitsValue_reverse (r : Nat) (l : List Nat) : digitsValue r l.reverse = Nat.ofDigits r l := by
  induction l with
  | nil => rfl
  | cons d ds ih =>
    rw [List.reverse_cons, digitsValue_append, ih, Nat.ofDigits_cons]
    simp [digitsValue]; ring

/-- the order of the shortest byte strings -/
theorem shortest_lt_iff {v w : Nat} {l m : List Nat} (l3 : ∀ x ∈ l, x < 256) (l4 : Nat.ofDigits 256 l = v)
    (l5 : ∀ l' : List Nat, (∀ x ∈ l', x < 256) → Nat.ofDigits 256 l' = v → l.length ≤ l'.length)
    (m3 : ∀ x ∈ m, x < 256) (m4 : Nat.ofDigits 256 m = w)
    (m5 : ∀ l' : List Nat, (∀ x ∈ l', x < 256) → Nat.ofDigits 256 l' = w → m.length ≤ l'.length) :
    v < w ↔ Precedes l.reverse m.reverse := by
  have key : ∀ {v w : Nat} {l m : List Nat}, v < 256 ^ l.length → (w ≠ 0 → 256 ^ m.length ≤ 256 * w) →
      (w = 0 → m = []) → l.length < m.length → v < w := by
    intro v w l m h1 h2 h3 hlm
    have hw : w ≠ 0 := by
      intro h; rw [h3 h] at hlm; simp at hlm
    have h4 := h2 hw
    rw [show m.length = m.length - 1 + 1 by omega, pow_succ] at h4
    have h5 : 256 ^ l.length ≤ 256 ^ (m.length - 1) := Nat.pow_le_pow_right (by decide) (by omega)
    omega
  obtain ⟨a1, a2, a3⟩ := shortest_count l3 l4 l5
  obtain ⟨b1, b2, b3⟩ := shortest_count m3 m4 m5
  unfold Precedes
  rw [List.length_reverse, List.length_reverse]
  rcases Nat.lt_trichotomy l.length m.length with h | h | h
  · exact iff_of_true (key a1 b2 b3 h) (Or.inl h)
  · rw [← l4, ← m4, ← digitsValue_reverse, ← digitsValue_reverse,
      digitsValue_lt_iff (by simpa using l3) (by simpa using m3) (by simpa using h)]
    exact ⟨fun h' => Or.inr ⟨h, h'⟩, fun h' => h'.elim (fun h' => absurd h (Nat.ne_of_lt h')) (·.2)⟩
  · refine iff_of_false ?_ ?_
    · have := key b1 a2 a3 h; omega
    · rintro (h' | h') <;> omega

end Ibig
