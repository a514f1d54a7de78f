import Verif.Model.ModularFmt
import Verif.Proofs.Modular
import Verif.Proofs.FmtEntry
/-! Lemmas about the formatting of rings and their elements. -/
namespace Ibig

/-- The digit values behind `coreDigitsRev`. -/
def revDigits (radix : Nat) : Nat → Nat → List Nat
  | 0, _ => []
  | fuel + 1, n => if n / radix = 0 then [n % radix] else n % radix :: revDigits radix fuel (n / radix)

theorem digitsValue_snoc (r : Nat) (l : List Nat) (d : Nat) :
    digitsValue r (l ++ [d]) = digitsValue r l * r + d := by
  unfold digitsValue; rw [List.foldl_append]; rfl

theorem revDigits_spec {r : Nat} (hr : 2 ≤ r) : ∀ (fuel n : Nat), n < r ^ fuel → 0 < fuel →
    IsCanonicalNumeral r n (revDigits r fuel n).reverse
  | 0, _, _, h => absurd h (lt_irrefl 0)
  | fuel + 1, n, h, _ => by
    unfold revDigits
    have hd : n % r < r := Nat.mod_lt _ (by omega)
    have hdm := Nat.div_add_mod' n r
    split
    · rename_i h0
      have e : n % r = n := by rw [h0] at hdm; omega
      rw [e] at hd ⊢
      exact ⟨by simpa using hd, by simp [digitsValue], by simp, by simp⟩
    · rename_i h0
      have hq : n / r < r ^ fuel := by
        rw [Nat.div_lt_iff_lt_mul (by omega), ← pow_succ]; exact h
      have hf : 0 < fuel := by
        rcases Nat.eq_zero_or_pos fuel with rfl | h
        · rw [pow_zero] at hq; exact absurd (Nat.lt_one_iff.mp hq) h0
        · exact h
      obtain ⟨a1, a2, a3, a4⟩ := revDigits_spec hr fuel (n / r) hq hf
      rw [List.reverse_cons]
      refine ⟨?_, ?_, by simp, ?_⟩
      · intro d hd'
        rcases List.mem_append.mp hd' with h | h
        · exact a1 d h
        · rw [List.mem_singleton.mp h]; exact hd
      · rw [digitsValue_snoc, a2, hdm]
      · intro hh
        exfalso
        rw [List.head?_append_of_ne_nil _ a3] at hh
        have := a4 hh
        rw [this] at a2
        simp only [digitsValue, List.foldl_cons, List.foldl_nil, Nat.zero_mul, Nat.zero_add] at a2
        exact h0 a2.symm

theorem coreChar {upper : Bool} {d : Nat} (h : d < 36) :
    (if upper then upperDigits else lowerDigits)[d]? =
      some (if d < 10 then 48 + d else if upper then 65 + (d - 10) else 97 + (d - 10)) := by
  have : ∀ u : Bool, ∀ d : Fin 36, (if u then upperDigits else lowerDigits)[d.val]? =
      some (if d.val < 10 then 48 + d.val else if u then 65 + (d.val - 10) else 97 + (d.val - 10)) := by
    decide +kernel
  exact this upper ⟨d, h⟩

theorem coreDigits_printed {r : Nat} (hr : 0 < r) (h36 : r ≤ 36) (upper : Bool) : ∀ (fuel n : Nat),
    IsPrinted upper (coreDigitsRev r upper fuel n) (revDigits r fuel n)
  | 0, _ => List.Forall₂.nil
  | fuel + 1, n => by
    unfold coreDigitsRev revDigits
    have hd : n % r < 36 := lt_of_lt_of_le (Nat.mod_lt _ hr) h36
    simp only
    split
    · exact List.Forall₂.cons (coreChar hd) List.Forall₂.nil
    · exact List.Forall₂.cons (coreChar hd) (coreDigits_printed hr h36 upper fuel _)

theorem coreDigits_numeral {r : Nat} (h2 : 2 ≤ r) (h36 : r ≤ 36) (upper : Bool) {fuel n : Nat}
    (h : n < 2 ^ fuel) :
    IsNumeralText r n upper (coreDigitsRev r upper (fuel + 1) n).reverse := by
  refine ⟨_, revDigits_spec h2 (fuel + 1) n ?_ (by omega), ?_⟩
  · calc n < 2 ^ fuel := h
      _ ≤ 2 ^ (fuel + 1) := Nat.pow_le_pow_right (by norm_num) (by omega)
      _ ≤ r ^ (fuel + 1) := Nat.pow_le_pow_left h2 _
  · unfold IsPrinted
    rw [List.forall₂_reverse_iff]
    exact coreDigits_printed (by omega) h36 upper _ _

theorem padIntegral_padded (f : FmtFlags) (pre digits : List Nat) :
    Padded f (signText false f.plus) (if f.alternate then pre else []) digits (padIntegral f pre digits) := by
  have hs : signText false f.plus = if f.plus then [43] else [] := by unfold signText; cases f.plus <;> rfl
  unfold Padded padIntegral
  rw [hs]
  generalize (if f.plus then [43] else []) ++ (if f.alternate then pre else []) = t
  rcases hw : f.width with _ | w
  · rfl
  simp only
  split
  · rename_i h
    refine ⟨by rw [List.length_append] at *; omega, ?_⟩
    split
    · exact ⟨0, by simp⟩
    · refine ⟨0, 0, by simp, ?_⟩
      unfold AlignOK
      rcases f.align with _ | _ | _ | _ <;> simp
  · rename_i h
    split
    · refine ⟨?_, w - (t.length + digits.length), rfl⟩
      simp only [List.length_append, List.length_replicate]; omega
    · have hl : leftFill f (w - (t.length + digits.length)) ≤ w - (t.length + digits.length) := by
        unfold leftFill; rcases f.align with _ | _ | _ | _ <;> simp; omega
      refine ⟨?_, _, _, rfl, ?_⟩
      · simp only [List.length_append, List.length_replicate]; omega
      · unfold AlignOK leftFill
        rcases f.align with _ | _ | _ | _ <;> simp
        omega

theorem primFmt_prints {W : Nat} (t : FmtTrait) {n : Nat} (hn : n < base W) (f : FmtFlags) :
    Prints f (traitRadix t) (decide (t = .upperHex)) false n
      (if f.alternate then (traitPrefix t).toList.map Char.toNat else []) (.ok (primFmt W t n f)) := by
  have hr : t.radix = traitRadix t := by cases t <;> rfl
  have hp : t.pre = (traitPrefix t).toList.map Char.toNat := by cases t <;> rfl
  rw [← hr, ← hp]
  refine ⟨_, _, rfl, ?_, padIntegral_padded f t.pre _⟩
  exact coreDigits_numeral (by cases t <;> decide) (by cases t <;> decide) _ hn

/-- The flags and the number determine the text. -/
theorem Padded.unique {f : FmtFlags} {sign pre digits s t : List Nat} (hs : Padded f sign pre digits s)
    (ht : Padded f sign pre digits t) : s = t := by
  unfold Padded at hs ht
  rcases hw : f.width with _ | w
  · rw [hw] at hs ht; exact hs.trans ht.symm
  rw [hw] at hs ht
  simp only at hs ht
  obtain ⟨l1, h1⟩ := hs
  obtain ⟨l2, h2⟩ := ht
  cases hz : f.zero
  · rw [hz] at h1 h2
    simp only [Bool.false_eq_true, if_false] at h1 h2
    obtain ⟨a, b, rfl, h1⟩ := h1
    obtain ⟨c, d, rfl, h2⟩ := h2
    have hab : a = c ∧ b = d := by
      simp only [List.length_append, List.length_replicate] at l1 l2
      generalize f.align = al at h1 h2
      unfold AlignOK at h1 h2
      rcases al with _ | _ | _ | _ <;> simp only at h1 h2 <;> omega
    rw [hab.1, hab.2]
  · rw [hz] at h1 h2
    simp only [if_true] at h1 h2
    obtain ⟨a, rfl⟩ := h1
    obtain ⟨b, rfl⟩ := h2
    have hab : a = b := by simp only [List.length_append, List.length_replicate] at l1 l2; omega
    rw [hab]

end Ibig
