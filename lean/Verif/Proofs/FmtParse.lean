import Verif.Proofs.FmtEntry
/-! Reading back what was printed. -/
namespace Ibig

theorem isDigit_of_printed {r : Nat} {upper : Bool} {text ds : List Nat} (h : IsPrinted upper text ds)
    (hd : ∀ d ∈ ds, d < r) : IsNumeral r text ds := by
  unfold IsPrinted at h
  unfold IsNumeral
  induction h with
  | nil => exact List.Forall₂.nil
  | cons h1 h2 ih =>
    simp only [List.mem_cons, forall_eq_or_imp] at hd
    refine List.Forall₂.cons ⟨hd.1, ?_⟩ (ih hd.2)
    cases upper
    · exact Or.inl (by simpa using h1)
    · exact Or.inr (by simpa using h1)

theorem isNumeral_zeros {r : Nat} (hr : 1 ≤ r) (z : Nat) {text ds : List Nat} (h : IsNumeral r text ds) :
    IsNumeral r (List.replicate z '0'.toNat ++ text) (List.replicate z 0 ++ ds) := by
  induction z with
  | zero => simpa using h
  | succ z ih =>
    rw [List.replicate_succ, List.replicate_succ, List.cons_append, List.cons_append]
    exact List.Forall₂.cons ⟨by omega, Or.inl rfl⟩ ih

theorem digitsValue_zeros (r z : Nat) (ds : List Nat) :
    digitsValue r (List.replicate z 0 ++ ds) = digitsValue r ds := by
  induction z with
  | zero => rfl
  | succ z ih => rw [List.replicate_succ, List.cons_append, digitsValue_cons, ih]; simp

theorem numeral_head {r : Nat} (hr : r ≤ 36) {c : Nat} {t ds : List Nat} (h : IsNumeral r (c :: t) ds) : 48 ≤ c := by
  unfold IsNumeral at h
  rw [List.forall₂_cons_left_iff] at h
  obtain ⟨d, ds', h1, -, -⟩ := h
  rw [isDigit_iff hr] at h1
  unfold digitFromByte at h1
  by_contra hc
  have : digitByteValue c = none := by
    unfold digitByteValue; rw [if_neg (by omega), if_neg (by omega), if_neg (by omega)]
  rw [this] at h1
  cases h1

theorem splitPlus_numeral {r : Nat} (hr : r ≤ 36) {t ds : List Nat} (h : IsNumeral r t ds) : splitPlus t = t := by
  cases t with
  | nil => rfl
  | cons c t =>
    have := numeral_head hr h
    simp only [splitPlus]
    rw [if_neg (by rw [show '+'.toNat = 43 from rfl]; omega)]

theorem splitSign_numeral {r : Nat} (hr : r ≤ 36) {t ds : List Nat} (h : IsNumeral r t ds) :
    splitSign t = (false, t) := by
  cases t with
  | nil => rfl
  | cons c t =>
    have := numeral_head hr h
    simp only [splitSign]
    rw [if_neg (by rw [show '-'.toNat = 45 from rfl]; omega), if_neg (by rw [show '+'.toNat = 43 from rfl]; omega)]

/-- The printed text, when it has no fill characters. -/
theorem Prints.text {f : FmtFlags} {r n : Nat} {upper neg : Bool} {pre : List Nat} {x : R (List Nat)} (hr : 1 ≤ r)
    (h : Prints f r upper neg n pre x) (hf : f.width = none ∨ f.zero = true) :
    ∃ t ds, x = .ok (signText neg f.plus ++ (pre ++ t)) ∧ t ≠ [] ∧ IsNumeral r t ds ∧ digitsValue r ds = n := by
  obtain ⟨text, digits, rfl, ⟨ds, h1, h2⟩, h3⟩ := h
  have hnum := isDigit_of_printed h2 h1.digits
  have hne : digits ≠ [] := by
    rintro rfl
    unfold IsPrinted at h2
    rw [List.forall₂_nil_left_iff] at h2
    exact h1.nonempty h2
  unfold Padded at h3
  have hz : ∃ z, text = signText neg f.plus ++ pre ++ List.replicate z '0'.toNat ++ digits := by
    cases hw : f.width with
    | none => rw [hw] at h3; exact ⟨0, by simpa using h3⟩
    | some w =>
      rw [hw] at h3 hf
      have hf : f.zero = true := by simpa using hf
      simp only at h3
      rw [if_pos hf] at h3
      exact h3.2
  obtain ⟨z, hz⟩ := hz
  refine ⟨List.replicate z '0'.toNat ++ digits, List.replicate z 0 ++ ds, ?_, by simp [hne],
    isNumeral_zeros hr z hnum, by rw [digitsValue_zeros, h1.value]⟩
  rw [hz]
  simp only [List.append_assoc]

theorem splitPlus_sign {plus : Bool} {t : List Nat} (h : splitPlus t = t) : splitPlus (signText false plus ++ t) = t := by
  cases plus
  · exact h
  · rfl

theorem splitSign_sign {neg plus : Bool} {t : List Nat} (h : splitSign t = (false, t)) :
    splitSign (signText neg plus ++ t) = (neg, t) := by
  cases neg
  · cases plus
    · exact h
    · rfl
  · rfl

theorem splitRadix_pre {t : FmtTrait} {s ds : List Nat} (h : IsNumeral (traitRadix t) s ds) :
    splitRadix ((traitPrefix t).toList.map Char.toNat ++ s) = (traitRadix t, s) := by
  cases t with
  | display =>
    simp only [traitPrefix, traitRadix, String.toList_empty, List.map_nil, List.nil_append] at h ⊢
    rcases s with _ | ⟨c, _ | ⟨d, s⟩⟩
    · rfl
    · rfl
    · unfold IsNumeral at h
      rw [List.forall₂_cons_left_iff] at h
      obtain ⟨_, ds', -, h, -⟩ := h
      rw [List.forall₂_cons_left_iff] at h
      obtain ⟨e, ds'', h1, -, -⟩ := h
      rw [isDigit_iff (by norm_num)] at h1
      have hne : ∀ v, digitFromByte v 10 = none → d ≠ v := by
        rintro v hv rfl
        rw [hv] at h1; cases h1
      have n1 := hne 'b'.toNat (by decide)
      have n2 := hne 'o'.toNat (by decide)
      have n3 := hne 'x'.toNat (by decide)
      simp only [splitRadix, n1, n2, n3, and_false, if_false]
  | binary => rfl
  | octal => rfl
  | lowerHex => rfl
  | upperHex => rfl

theorem neg_iff {cfg : Cfg} {x : IBig} (hx : x.WF cfg) : decide (x.sign = .neg) = decide (x.value cfg < 0) := by
  have h := IBig.value_nonneg_iff hx
  rw [decide_eq_decide]
  cases hs : x.sign
  · rw [hs] at h
    have := h.mp rfl
    constructor
    · intro h; cases h
    · intro h; omega
  · rw [hs] at h
    constructor
    · intro _
      by_contra hc
      have := h.mpr (by omega)
      cases this
    · intro _; rfl

end Ibig
