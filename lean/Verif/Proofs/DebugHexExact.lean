import Verif.Proofs.Radix
import Verif.Spec.Fmt
/-!
# Hexadecimal and decimal texts differ
-/
namespace Ibig

/-- Digits that mean the same in radix 10 and 16 are a single digit. -/
theorem digits_ten_sixteen {ds : List Nat} (h0 : ds.head? ≠ some 0) (h : digitsValue 16 ds = digitsValue 10 ds) :
    digitsValue 10 ds ≤ ds.headD 0 := by
  have hle : ∀ l : List Nat, digitsValue 10 l ≤ digitsValue 16 l := by
    intro l
    induction l with
    | nil => exact le_refl _
    | cons d l ih =>
      rw [digitsValue_cons, digitsValue_cons]
      have : 10 ^ l.length ≤ 16 ^ l.length := Nat.pow_le_pow_left (by norm_num) _
      exact Nat.add_le_add (Nat.mul_le_mul_left _ this) ih
  rcases ds with _ | ⟨d, l⟩
  · exact Nat.zero_le _
  · rcases l with _ | ⟨e, l⟩
    · simp [digitsValue]
    · exfalso
      have hd : 1 ≤ d := by
        rcases Nat.eq_zero_or_pos d with rfl | hd
        · exact absurd rfl h0
        · exact hd
      rw [digitsValue_cons 16 d, digitsValue_cons 10 d] at h
      have h1 := hle (e :: l)
      have h2 : 10 ^ (e :: l).length < 16 ^ (e :: l).length := Nat.pow_lt_pow_left (by norm_num) (by simp)
      have h3 : d * 10 ^ (e :: l).length < d * 16 ^ (e :: l).length := Nat.mul_lt_mul_of_pos_left h2 hd
      omega

/-- A decimal text has only decimal digits, and these mean the same in every text. -/
theorem printed_decimal {upper : Bool} : ∀ {text ds es : List Nat}, IsPrinted false text ds → (∀ d ∈ ds, d < 10) →
    IsPrinted upper text es → es = ds := by
  intro text
  induction text with
  | nil =>
    intro ds es h1 _ h2
    cases h1; cases h2; rfl
  | cons c text ih =>
    intro ds es h1 hd h2
    rcases h1 with _ | ⟨h1, t1⟩
    rcases h2 with _ | ⟨h2, t2⟩
    rename_i d ds e es
    rw [ih t1 (fun x hx => hd x (List.mem_cons_of_mem _ hx)) t2]
    congr 1
    have hd10 : d < 10 := hd d List.mem_cons_self
    have he : e < 36 := by
      have := (List.getElem?_eq_some_iff.mp h2).1
      cases upper
      · exact this
      · exact this
    have key : ∀ upper : Bool, ∀ d < 10, ∀ e < 36,
        (if upper then upperDigits else lowerDigits)[e]? = lowerDigits[d]? → e = d := by decide +kernel
    exact key upper d hd10 e he (h2.trans h1.symm)

/-- Without a width, the hexadecimal and the decimal text of a number of several digits differ. -/
theorem hex_ne_decimal {f : FmtFlags} (hw : f.width = none) {upper : Bool} {n : Nat} (hn : 10 ≤ n) {text : List Nat}
    {pre : List Nat} (hp : pre = [] ∨ pre.head? = some '0'.toNat)
    (h1 : Prints f 16 upper false n pre (.ok text)) (h2 : Prints f 10 false false n [] (.ok text)) : False := by
  obtain ⟨t1, d1, e1, ⟨l1, c1, p1⟩, q1⟩ := h1
  obtain ⟨t2, d2, e2, ⟨l2, c2, p2⟩, q2⟩ := h2
  cases e1
  cases e2
  unfold Padded at q1 q2
  rw [hw] at q1 q2
  simp only at q1 q2
  rw [q1] at q2
  simp only [List.append_assoc, List.nil_append] at q2
  have q3 := List.append_cancel_left q2
  have hz : l2.head? ≠ some 0 := by
    intro h
    have h3 := c2.noLeadingZero h
    have h4 := c2.value
    rw [h3] at h4
    simp [digitsValue] at h4
    omega
  rcases hp with rfl | hp
  · rw [List.nil_append] at q3
    rw [q3] at p1
    have h3 := printed_decimal p2 c2.digits p1
    rw [h3] at c1
    have h4 := digits_ten_sixteen hz (c1.value.trans c2.value.symm)
    rw [c2.value] at h4
    rcases hl : l2 with _ | ⟨d, l⟩
    · exact c2.nonempty hl
    · have h5 := c2.digits d (by rw [hl]; exact List.mem_cons_self)
      rw [hl] at h4
      simp only [List.headD_cons] at h4
      omega
  · rcases pre with _ | ⟨c, pre⟩
    · simp at hp
    · simp only [List.head?_cons, Option.some.injEq] at hp
      subst hp
      rw [← q3] at p2
      rcases l2 with _ | ⟨d, l⟩
      · exact c2.nonempty rfl
      · rcases p2 with _ | ⟨p2, -⟩
        have hd10 : d < 10 := c2.digits d List.mem_cons_self
        have key : ∀ d < 10, lowerDigits[d]? = some '0'.toNat → d = 0 := by decide +kernel
        exact hz (by rw [key d hd10 p2]; rfl)

end Ibig
