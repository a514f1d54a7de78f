import Mathlib.Tactic.IntervalCases
import Verif.Spec.Radix
import Verif.Model.Parse
import Verif.Proofs.Pow
/-! Digits, numerals and the radix table. -/
namespace Ibig

/-! ### Digits -/

theorem isDigit_iff {radix c d : Nat} (hr : radix ≤ 36) : IsDigit radix c d ↔ digitFromByte c radix = some d := by
  have key : ∀ d < 36, ∀ c, (lowerDigits[d]? = some c ∨ upperDigits[d]? = some c) ↔ digitByteValue c = some d := by
    intro d hd c
    by_cases hc : c < 128
    · have table : ∀ d < 36, ∀ c < 128, (lowerDigits[d]? = some c ∨ upperDigits[d]? = some c) ↔
          digitByteValue c = some d := by decide +kernel
      exact table d hd c hc
    · have small : ∀ c ∈ lowerDigits ++ upperDigits, c < 128 := by decide +kernel
      constructor
      · rintro (h | h)
        · exact absurd (small c (List.mem_append_left _ (List.mem_of_getElem? h))) hc
        · exact absurd (small c (List.mem_append_right _ (List.mem_of_getElem? h))) hc
      · intro h
        unfold digitByteValue at h
        rw [if_neg (by omega), if_neg (by omega), if_neg (by omega)] at h
        cases h
  unfold IsDigit digitFromByte
  constructor
  · rintro ⟨h1, h2⟩
    rw [(key d (by omega) c).mp h2]
    simp [h1]
  · intro h
    split at h
    · rename_i res hres
      split at h
      · rename_i hlt
        cases h
        exact ⟨hlt, (key d (by omega) c).mpr hres⟩
      · cases h
    · cases h

/-- The digits of a text, if all characters are digits. -/
def digitsOf (radix : Nat) : List Nat → Option (List Nat)
  | [] => some []
  | c :: s =>
    match digitFromByte c radix, digitsOf radix s with
    | some d, some ds => some (d :: ds)
    | _, _ => none

theorem digitsOf_append (radix : Nat) (a b : List Nat) :
    digitsOf radix (a ++ b) = (match digitsOf radix a, digitsOf radix b with
      | some x, some y => some (x ++ y)
      | _, _ => none) := by
  induction a with
  | nil => simp only [List.nil_append, digitsOf]; cases digitsOf radix b <;> rfl
  | cons c s ih =>
    simp only [List.cons_append, digitsOf, ih]
    cases digitFromByte c radix <;> cases digitsOf radix s <;> cases digitsOf radix b <;> rfl

theorem isNumeral_iff {radix : Nat} (hr : radix ≤ 36) {s ds : List Nat} :
    IsNumeral radix s ds ↔ digitsOf radix s = some ds := by
  unfold IsNumeral
  induction s generalizing ds with
  | nil => simp [digitsOf, eq_comm]
  | cons c s ih =>
    simp only [digitsOf, List.forall₂_cons_left_iff, isDigit_iff hr, ih]
    constructor
    · rintro ⟨d, u, h1, h2, rfl⟩; rw [h1, h2]
    · intro h
      split at h
      · rename_i d u h1 h2; cases h; exact ⟨d, u, h1, h2, rfl⟩
      · cases h

theorem hasBadDigit_iff {radix : Nat} (hr : radix ≤ 36) {s : List Nat} :
    HasBadDigit radix s ↔ digitsOf radix s = none := by
  unfold HasBadDigit
  simp only [isDigit_iff hr]
  induction s with
  | nil => simp [digitsOf]
  | cons c s ih =>
    simp only [List.mem_cons, exists_eq_or_imp, ih, digitsOf]
    cases digitFromByte c radix <;> cases digitsOf radix s <;> simp

theorem digitsOf_length {radix : Nat} {s ds : List Nat} (h : digitsOf radix s = some ds) :
    ds.length = s.length := by
  induction s generalizing ds with
  | nil => cases h; rfl
  | cons c s ih =>
    simp only [digitsOf] at h
    split at h
    · rename_i d u h1 h2; cases h; simp [ih h2]
    · cases h

theorem digitsOf_lt {radix : Nat} {s ds : List Nat} (h : digitsOf radix s = some ds) :
    ∀ d ∈ ds, d < radix := by
  induction s generalizing ds with
  | nil => cases h; simp
  | cons c s ih =>
    simp only [digitsOf] at h
    split at h
    · rename_i d u h1 h2
      cases h
      simp only [List.mem_cons, forall_eq_or_imp]
      refine ⟨?_, ih h2⟩
      unfold digitFromByte at h1
      split at h1
      · split at h1
        · cases h1; assumption
        · cases h1
      · cases h1
    · cases h

/-! ### Positional values -/

theorem foldl_digits (r : Nat) (ds : List Nat) (a : Nat) :
    ds.foldl (fun a d => a * r + d) a = a * r ^ ds.length + digitsValue r ds := by
  unfold digitsValue
  induction ds generalizing a with
  | nil => simp
  | cons d ds ih =>
    simp only [List.foldl_cons, List.length_cons]
    rw [ih, ih (0 * r + d)]
    ring

@[simp] theorem digitsValue_nil (r : Nat) : digitsValue r [] = 0 := rfl

theorem digitsValue_append (r : Nat) (a b : List Nat) :
    digitsValue r (a ++ b) = digitsValue r a * r ^ b.length + digitsValue r b := by
  conv_lhs => unfold digitsValue
  rw [List.foldl_append, foldl_digits]
  rfl

theorem digitsValue_cons (r d : Nat) (ds : List Nat) :
    digitsValue r (d :: ds) = d * r ^ ds.length + digitsValue r ds := by
  have := digitsValue_append r [d] ds
  simpa [digitsValue] using this

theorem digitsValue_lt {r : Nat} {ds : List Nat} (h : ∀ d ∈ ds, d < r) :
    digitsValue r ds < r ^ ds.length := by
  induction ds with
  | nil => simp
  | cons d ds ih =>
    simp only [List.mem_cons, forall_eq_or_imp] at h
    have := ih h.2
    rw [digitsValue_cons, List.length_cons, pow_succ']
    calc d * r ^ ds.length + digitsValue r ds < d * r ^ ds.length + r ^ ds.length := by omega
      _ = (d + 1) * r ^ ds.length := by ring
      _ ≤ _ := Nat.mul_le_mul_right _ h.1

theorem digitsValue_ge {r d : Nat} {ds : List Nat} (h : d ≠ 0) :
    r ^ ds.length ≤ digitsValue r (d :: ds) := by
  rw [digitsValue_cons]
  calc r ^ ds.length = 1 * r ^ ds.length := by ring
    _ ≤ d * r ^ ds.length := Nat.mul_le_mul_right _ (by omega)
    _ ≤ _ := Nat.le_add_right _ _

/-! ### Valid radixes -/

theorem isRadixValid_iff {r : Nat} : isRadixValid r = true ↔ 2 ≤ r ∧ r ≤ 36 := by
  unfold isRadixValid maxRadix; simp only [Bool.and_eq_true, decide_eq_true_eq]

theorem radix_cases {r : Nat} (h : isRadixValid r = true) :
    (isRadixPow2 r = true ∧ r = 2 ^ logRadix r ∧ 1 ≤ logRadix r ∧ logRadix r ≤ 5) ∨
    (isRadixPow2 r = false ∧ 3 ≤ r ∧ r ≤ 36) := by
  rw [isRadixValid_iff] at h
  obtain ⟨h1, h2⟩ := h
  have key : ∀ r ∈ List.range 37, 2 ≤ r →
      (isRadixPow2 r = true ∧ r = 2 ^ logRadix r ∧ 1 ≤ logRadix r ∧ logRadix r ≤ 5) ∨
      (isRadixPow2 r = false ∧ 3 ≤ r ∧ r ≤ 36) := by decide
  exact key r (List.mem_range.mpr (by omega)) h1

theorem rangeLoop_spec {W r : Nat} (hr : 2 ≤ r) (fuel k : Nat) (hk : r ^ k < base W) (hf : W + 1 ≤ k + fuel) :
    Returns (rangeLoop W r fuel k (r ^ k)) fun p => k ≤ p.1 ∧ p.2 = r ^ p.1 ∧ r ^ p.1 < base W ∧
      base W ≤ r ^ (p.1 + 1) := by
  induction fuel generalizing k with
  | zero =>
    exfalso
    have h1 : 2 ^ k ≤ r ^ k := Nat.pow_le_pow_left hr k
    have h2 : base W ≤ 2 ^ k := Nat.pow_le_pow_right (by norm_num) (by omega)
    omega
  | succ fuel ih =>
    unfold rangeLoop
    rw [← pow_succ]
    split
    · rename_i h
      refine (ih (k + 1) h (by omega)).mono ?_
      rintro p ⟨h1, h2, h3, h4⟩
      exact ⟨by omega, h2, h3, h4⟩
    · rename_i h
      rw [returns_ok]
      exact ⟨le_rfl, rfl, hk, Nat.not_lt.mp h⟩

/-- What the table holds for a power of two. -/
structure RadixInfo.Pow2 (info : RadixInfo) (W r : Nat) : Prop where
  digits : info.digitsPerWord = W / logRadix r
  fdr : info.fastDivRadix.Valid W r

/-- What the table holds for any other radix. -/
structure RadixInfo.NonPow2 (info : RadixInfo) (W r : Nat) : Prop where
  one : 1 ≤ info.digitsPerWord
  range : info.rangePerWord = r ^ info.digitsPerWord
  lt : r ^ info.digitsPerWord < base W
  ge : base W ≤ r ^ (info.digitsPerWord + 1)
  fdr : info.fastDivRadix.Valid W r
  fdRange : info.fastDivRange.Valid W (info.rangePerWord * 2 ^ leadingZeros W info.rangePerWord)

theorem radix_lt_base {W r : Nat} (hW : 16 ≤ W) (h : r ≤ 36) : r < base W :=
  lt_of_lt_of_le (by omega : r < 2 ^ 16) (base_ge hW)

theorem forRadix_pow2 {W r : Nat} (hW : 16 ≤ W) (h : isRadixValid r = true) (h2 : isRadixPow2 r = true) :
    Returns (RadixInfo.forRadix W r) fun info => info.Pow2 W r := by
  have hr := isRadixValid_iff.mp h
  unfold RadixInfo.forRadix
  refine Returns.bind (FastDivideSmall.new_spec (by omega) (radix_lt_base hW hr.2)) ?_
  intro fd hfd
  rw [if_pos h2, returns_ok]
  exact ⟨rfl, hfd⟩

theorem forRadix_nonPow2 {W r : Nat} (hW : 16 ≤ W) (h : isRadixValid r = true) (h2 : isRadixPow2 r = false) :
    Returns (RadixInfo.forRadix W r) fun info => info.NonPow2 W r := by
  have hr := isRadixValid_iff.mp h
  have hrB := radix_lt_base hW hr.2
  unfold RadixInfo.forRadix
  refine Returns.bind (FastDivideSmall.new_spec (by omega) hrB) ?_
  intro fd hfd
  rw [if_neg (by simp [h2])]
  have hl : Returns (rangeLoop W r (W + 1) 0 1) fun p => 0 ≤ p.1 ∧ p.2 = r ^ p.1 ∧ r ^ p.1 < base W ∧
      base W ≤ r ^ (p.1 + 1) := by
    have := rangeLoop_spec (W := W) hr.1 (W + 1) 0 (by have := two_le_base (by omega : 1 ≤ W); simp only [pow_zero]; omega) (by omega)
    simpa using this
  refine Returns.bind hl ?_
  rintro ⟨k, p⟩ ⟨-, h4, h5, h6⟩
  simp only at h4 h5 h6 ⊢
  subst h4
  have hk : 1 ≤ k := by
    rcases Nat.eq_zero_or_pos k with rfl | hk
    · simp only [Nat.zero_add, pow_one] at h6; omega
    · exact hk
  have hp0 : r ^ k ≠ 0 := by have := Nat.pow_pos (n := k) (by omega : 0 < r); omega
  obtain ⟨n1, n2, n3⟩ := normalize_word (by omega : 1 ≤ W) hp0 h5
  rw [Nat.mod_eq_of_lt n2]
  refine Returns.bind (FastDivideNormalized.new_spec (by omega) n2 n3) ?_
  intro fd2 hfd2
  rw [returns_ok]
  exact ⟨hk, rfl, h5, h6, hfd, hfd2⟩

theorem radixInfo_pow2 {W r : Nat} (hW : 16 ≤ W) (h : isRadixValid r = true) (h2 : isRadixPow2 r = true) :
    Returns (radixInfo W r) fun info => info.Pow2 W r := by
  unfold radixInfo
  exact Returns.bind (returns_assertR h) fun _ _ => forRadix_pow2 hW h h2

theorem radixInfo_nonPow2 {W r : Nat} (hW : 16 ≤ W) (h : isRadixValid r = true) (h2 : isRadixPow2 r = false) :
    Returns (radixInfo W r) fun info => info.NonPow2 W r := by
  unfold radixInfo
  exact Returns.bind (returns_assertR h) fun _ _ => forRadix_nonPow2 hW h h2

theorem maxWordDigits_spec {W : Nat} (hW : 16 ≤ W) :
    Returns (maxWordDigits W) fun n => base W ≤ 3 ^ n := by
  unfold maxWordDigits
  refine Returns.bind (forRadix_nonPow2 (r := 3) hW (by decide) (by decide)) ?_
  intro info hi
  rw [returns_ok]
  exact hi.ge

end Ibig
