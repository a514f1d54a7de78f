import Verif.Proofs.Parse
import Verif.Spec.Parse
/-! The parsing entry points against the specification of reading. -/
namespace Ibig

theorem readsUBig {cfg : Cfg} (hv : cfg.Valid) {r : Nat} (hval : isRadixValid r = true) (s : List Nat)
    (hlen : s.length < 2 ^ (cfg.U - 1)) : ReadsUBig cfg r s (UBig.fromStrRadixNoSign cfg s r) := by
  have hr := isRadixValid_iff.mp hval
  have hz := stripZeros_digits (r := r) (by omega) s
  rw [stripZeros_eq] at hz
  refine ⟨?_, ?_, ?_, ?_⟩
  · rintro rfl
    unfold UBig.fromStrRadixNoSign
    rw [assertR_true hval]; rfl
  · intro ds hne hds hf
    have h := fromStrRadixNoSign_spec hv hval hne hlen
    rw [isNumeral_iff hr.2] at hds
    rw [hds] at hz
    unfold PSpec at h
    cases hd : digitsOf r (dropZeros s) with
    | none => rw [hd] at hz; cases hz
    | some ds' =>
      rw [hd] at hz h
      simp only [Option.map_some, Option.some.injEq] at hz
      rw [hz] at hf ⊢
      exact h.1 hf
  · intro ds hds hf
    have hne : s ≠ [] := by
      rintro rfl
      rw [isNumeral_iff hr.2] at hds
      cases hds
      exact hf (fits_word hv (by simpa using base_pos _))
    have h := fromStrRadixNoSign_spec hv hval hne hlen
    rw [isNumeral_iff hr.2] at hds
    rw [hds] at hz
    unfold PSpec at h
    cases hd : digitsOf r (dropZeros s) with
    | none => rw [hd] at hz; cases hz
    | some ds' =>
      rw [hd] at hz h
      simp only [Option.map_some, Option.some.injEq] at hz
      rw [hz] at hf
      exact h.2 hf
  · intro hbad
    have hne : s ≠ [] := by rintro rfl; obtain ⟨c, hc, -⟩ := hbad; cases hc
    have h := fromStrRadixNoSign_spec hv hval hne hlen
    rw [hasBadDigit_iff hr.2] at hbad
    rw [hbad] at hz
    unfold PSpec at h
    cases hd : digitsOf r (dropZeros s) with
    | none => rw [hd] at h; exact h
    | some ds' => rw [hd] at hz; cases hz

theorem ReadsUBig.withSign {cfg : Cfg} (hv : cfg.Valid) {r : Nat} {s : List Nat} {x : R (PRes UBig)}
    (h : ReadsUBig cfg r s x) (sign : Sign) :
    ReadsIBig cfg r (decide (sign = .neg)) s
      (tryP x fun mag => .ok (.ok (.fromSignMagnitude sign mag))) := by
  refine ⟨?_, ?_, ?_, ?_⟩
  · intro he; rw [h.empty he]; rfl
  · intro ds hne hds hf
    obtain ⟨c, rfl, c1, c2⟩ := h.numeral ds hne hds hf
    obtain ⟨d1, d2⟩ := IBig.fromSignMagnitude_spec hv sign c1
    refine ⟨_, rfl, d1, ?_⟩
    rw [d2, c2]
    unfold signed
    cases sign <;> simp [Sign.toInt]
  · intro ds hds hf
    rw [h.tooLarge ds hds hf]; rfl
  · intro hb
    rcases h.bad hb with hb | ⟨hb, hb'⟩
    · rw [hb]; exact Or.inl rfl
    · rw [hb]; exact Or.inr ⟨rfl, hb'⟩

theorem stripPlus_eq (s : List Nat) : stripPrefixOr [43] s = splitPlus s := by
  cases s with
  | nil => rfl
  | cons c s =>
    unfold stripPrefixOr stripPrefix splitPlus
    rw [show '+'.toNat = 43 from rfl]
    by_cases h : c = 43
    · subst h; simp [List.isPrefixOf]
    · have : (43 == c) = false := by simp; omega
      simp [List.isPrefixOf, this, h]

theorem parseSign_eq (s : List Nat) : (decide ((parseSign s).1 = .neg), (parseSign s).2) = splitSign s := by
  cases s with
  | nil => rfl
  | cons c s =>
    unfold parseSign
    rw [stripPlus_eq]
    unfold stripPrefix splitSign splitPlus
    rw [show '+'.toNat = 43 from rfl, show '-'.toNat = 45 from rfl]
    by_cases h : c = 45
    · subst h; simp [List.isPrefixOf]
    · have h1 : (45 == c) = false := by simp; omega
      simp only [List.isPrefixOf, h1, Bool.false_and, if_neg h]
      by_cases h' : c = 43 <;> simp [h']

theorem splitPlus_length (s : List Nat) : (splitPlus s).length ≤ s.length := by
  cases s with
  | nil => simp [splitPlus]
  | cons c s => simp only [splitPlus]; split <;> simp

theorem splitSign_length (s : List Nat) : (splitSign s).2.length ≤ s.length := by
  cases s with
  | nil => simp [splitSign]
  | cons c s => simp only [splitSign]; split_ifs <;> simp

theorem splitRadix_length (s : List Nat) : (splitRadix s).2.length ≤ s.length := by
  unfold splitRadix
  split
  · split_ifs <;> simp <;> omega
  · simp

theorem checkRadix_ok {r : Nat} (h : isRadixValid r = true) : checkRadixValid r = .ok () := by
  unfold checkRadixValid; simp [h]

theorem noSignPrefix_eq (cfg : Cfg) (s : List Nat) : UBig.fromStrWithRadixPrefixNoSign cfg s =
    UBig.fromStrRadixNoSign cfg (splitRadix s).2 (splitRadix s).1 := by
  unfold UBig.fromStrWithRadixPrefixNoSign
  rcases s with _ | ⟨c, _ | ⟨d, s⟩⟩
  · rfl
  · have : ∀ x, stripPrefix [48, x] [c] = none := by
      intro x; unfold stripPrefix; simp [List.isPrefixOf]
    simp only [this]; rfl
  · have : ∀ x, stripPrefix [48, x] (c :: d :: s) = if c = 48 ∧ d = x then some s else none := by
      intro x
      unfold stripPrefix
      by_cases h1 : c = 48 <;> by_cases h2 : d = x
      · subst h1 h2; simp [List.isPrefixOf]
      · have : (x == d) = false := by simpa using fun e => h2 e.symm
        simp [List.isPrefixOf, this, h2]
      · have : (48 == c) = false := by simpa using fun e => h1 e.symm
        simp [List.isPrefixOf, this, h1]
      · have : (48 == c) = false := by simpa using fun e => h1 e.symm
        simp [List.isPrefixOf, this, h1]
    simp only [this]
    unfold splitRadix
    rw [show '0'.toNat = 48 from rfl, show 'b'.toNat = 98 from rfl, show 'o'.toNat = 111 from rfl,
      show 'x'.toNat = 120 from rfl]
    by_cases h1 : c = 48 ∧ d = 98
    · simp only [if_pos h1]
    · by_cases h2 : c = 48 ∧ d = 111
      · simp only [if_neg h1, if_pos h2]
      · by_cases h3 : c = 48 ∧ d = 120
        · simp only [if_neg h1, if_neg h2, if_pos h3]
        · simp only [if_neg h1, if_neg h2, if_neg h3]

theorem splitRadix_valid (s : List Nat) : isRadixValid (splitRadix s).1 = true := by
  unfold splitRadix
  split
  · split_ifs <;> rfl
  · rfl

end Ibig
