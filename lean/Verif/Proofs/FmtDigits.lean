import Verif.Proofs.DigitWriter
/-! The digits of a number, padded to a given count. -/
namespace Ibig

/-- the last `k` digits of `v` in radix `r`, most significant first -/
def digitsPad (r : Nat) : Nat → Nat → List Nat
  | 0, _ => []
  | k + 1, v => digitsPad r k (v / r) ++ [v % r]

theorem digitsPad_length (r k v : Nat) : (digitsPad r k v).length = k := by
  induction k generalizing v with
  | zero => rfl
  | succ k ih => simp [digitsPad, ih]

theorem digitsPad_lt {r : Nat} (hr : 0 < r) (k v : Nat) : ∀ d ∈ digitsPad r k v, d < r := by
  induction k generalizing v with
  | zero => simp [digitsPad]
  | succ k ih =>
    intro d hd
    simp only [digitsPad, List.mem_append, List.mem_singleton] at hd
    rcases hd with h | rfl
    · exact ih _ d h
    · exact Nat.mod_lt _ hr

theorem digitsPad_value (r k v : Nat) : digitsValue r (digitsPad r k v) = v % r ^ k := by
  induction k generalizing v with
  | zero => simp [digitsPad, digitsValue, Nat.mod_one]
  | succ k ih =>
    rw [digitsPad, digitsValue_append, ih, List.length_singleton, pow_one, pow_succ, Nat.mul_comm (r ^ k) r,
      Nat.mod_mul]
    simp only [digitsValue, List.foldl_cons, List.foldl_nil]
    ring

theorem digitsPad_add (r a b v : Nat) :
    digitsPad r (a + b) v = digitsPad r a (v / r ^ b) ++ digitsPad r b v := by
  induction b generalizing v with
  | zero => simp [digitsPad]
  | succ b ih =>
    rw [← Nat.add_assoc, digitsPad, ih, digitsPad, List.append_assoc, Nat.div_div_eq_div_mul, pow_succ,
      Nat.mul_comm r]

theorem digitsPad_cons (r k v : Nat) : digitsPad r (k + 1) v = v / r ^ k % r :: digitsPad r k v := by
  rw [Nat.add_comm, digitsPad_add]
  rfl

theorem digitsPad_mod (r k v : Nat) : digitsPad r k (v % r ^ k) = digitsPad r k v := by
  induction k generalizing v with
  | zero => rfl
  | succ k ih =>
    rw [digitsPad, digitsPad]
    rw [Nat.mod_mod_of_dvd _ (dvd_pow_self r (by omega)), ← ih (v / r), pow_succ, Nat.mul_comm (r ^ k) r,
      Nat.mod_mul_right_div_self]

theorem digitsPad_congr {r k v w : Nat} (h : v % r ^ k = w % r ^ k) : digitsPad r k v = digitsPad r k w := by
  rw [← digitsPad_mod, h, digitsPad_mod]

/-- joining the digits of two parts -/
theorem digitsPad_join {r a b x c : Nat} (hr : 0 < r) (hc : c < r ^ b) :
    digitsPad r a x ++ digitsPad r b c = digitsPad r (a + b) (x * r ^ b + c) := by
  have hp : 0 < r ^ b := Nat.pow_pos hr
  rw [digitsPad_add]
  congr 1
  · rw [Nat.add_comm, Nat.add_mul_div_right _ _ hp, Nat.div_eq_of_lt hc, Nat.zero_add]
  · apply digitsPad_congr
    rw [Nat.add_comm, Nat.add_mul_mod_self_right]

/-- enough digits, and not too many -/
structure DigitCount (r n k : Nat) : Prop where
  pos : 1 ≤ k
  lt : n < r ^ k
  ge : k = 1 ∨ r ^ (k - 1) ≤ n

theorem DigitCount.canonical {r n k : Nat} (hr : 2 ≤ r) (h : DigitCount r n k) :
    IsCanonicalNumeral r n (digitsPad r k n) where
  digits := digitsPad_lt (by omega) k n
  value := by rw [digitsPad_value, Nat.mod_eq_of_lt h.lt]
  nonempty := by
    intro hc
    have := digitsPad_length r k n
    rw [hc] at this
    have := h.pos
    simp at *; omega
  noLeadingZero := by
    obtain ⟨k, rfl⟩ : ∃ j, k = j + 1 := ⟨k - 1, by have := h.pos; omega⟩
    rw [digitsPad_cons]
    simp only [List.head?_cons, Option.some.injEq]
    intro h0
    rw [h0]
    rcases h.ge with h1 | h1
    · have : k = 0 := by omega
      subst this; rfl
    · exfalso
      rw [Nat.add_sub_cancel] at h1
      have hp : 0 < r ^ k := Nat.pow_pos (by omega)
      have h2 : 1 ≤ n / r ^ k := (Nat.one_le_div_iff hp).mpr h1
      have h3 : n / r ^ k < r := by
        rw [Nat.div_lt_iff_lt_mul hp, Nat.mul_comm, ← pow_succ]; exact h.lt
      rw [Nat.mod_eq_of_lt h3] at h0
      omega

/-- The canonical numeral is unique. -/
theorem IsCanonicalNumeral.unique {r n : Nat} (hr : 2 ≤ r) {a b : List Nat} (ha : IsCanonicalNumeral r n a)
    (hb : IsCanonicalNumeral r n b) : a = b := by
  have key : ∀ (a : List Nat), (∀ d ∈ a, d < r) → a = digitsPad r a.length (digitsValue r a) := by
    intro a
    induction a with
    | nil => intro _; rfl
    | cons d ds ih =>
      intro h
      simp only [List.mem_cons, forall_eq_or_imp] at h
      have hlt := digitsValue_lt h.2
      have hp : 0 < r ^ ds.length := Nat.pow_pos (by omega)
      rw [List.length_cons, digitsPad_cons, digitsValue_cons]
      congr 1
      · rw [Nat.add_comm, Nat.add_mul_div_right _ _ hp, Nat.div_eq_of_lt hlt, Nat.zero_add, Nat.mod_eq_of_lt h.1]
      · rw [digitsPad_congr (w := digitsValue r ds) (by rw [Nat.add_comm, Nat.add_mul_mod_self_right])]
        exact ih h.2
  have hlen : ∀ {a b : List Nat}, IsCanonicalNumeral r n a → IsCanonicalNumeral r n b → a.length ≤ b.length := by
    intro a b ha hb
    by_contra hc
    obtain ⟨d, ds, rfl⟩ := List.exists_cons_of_ne_nil ha.nonempty
    have hb0 : 0 < b.length := List.length_pos_iff.mpr hb.nonempty
    rw [List.length_cons] at hc
    have hd : d ≠ 0 := by
      rintro rfl
      have := ha.noLeadingZero rfl
      simp only [List.cons.injEq, true_and] at this
      subst this
      simp only [List.length_nil] at hc; omega
    have h1 := digitsValue_ge (r := r) (ds := ds) hd
    have h2 := digitsValue_lt hb.digits
    rw [ha.value] at h1
    rw [hb.value] at h2
    have h3 : r ^ b.length ≤ r ^ ds.length := Nat.pow_le_pow_right (by omega) (by omega)
    omega
  have hl := le_antisymm (hlen ha hb) (hlen hb ha)
  rw [key a ha.digits, key b hb.digits, hl, ha.value, hb.value]

end Ibig
