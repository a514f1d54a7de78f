import Verif.Model.Macros
import Verif.Props.Parse
import Verif.Proofs.PrimOps
/-! # C46 (the macros `ubig!` and `ibig!`): theorems

`s` is the text of the token.  The tokens in question (identifiers and literals of integers) do not contain
a `+`. -/
namespace Ibig

/-- The digits of a token: one underscore in front does not count. -/
def tokenText : List Nat → List Nat
  | [] => []
  | c :: s => if c = '_'.toNat then s else c :: s

theorem stripUnderscore_eq (s : List Nat) : stripPrefixOr [95] s = tokenText s := by
  unfold stripPrefixOr stripPrefix tokenText
  rcases s with _ | ⟨c, s⟩
  · rfl
  · by_cases h : c = 95
    · subst h; simp
    · have h' : ¬(95 = c) := fun e => h e.symm
      simp [h, h', List.isPrefixOf]

theorem tokenText_length (s : List Nat) : (tokenText s).length ≤ s.length := by
  unfold tokenText
  rcases s with _ | ⟨c, s⟩
  · exact le_refl _
  · simp only; split <;> simp

theorem tokenText_mem {s : List Nat} {c : Nat} (h : c ∈ tokenText s) : c ∈ s := by
  unfold tokenText at h
  rcases s with _ | ⟨d, s⟩
  · exact h
  · simp only at h
    split at h
    · exact List.mem_cons_of_mem _ h
    · exact h

theorem splitPlus_of_not_mem {s : List Nat} (h : '+'.toNat ∉ s) : splitPlus s = s := by
  unfold splitPlus
  rcases s with _ | ⟨c, s⟩
  · rfl
  · simp only
    rw [if_neg]
    rintro rfl
    exact h List.mem_cons_self

theorem expectP_yields {cfg : Cfg} {radix : Nat} {text : List Nat} {x : R (PRes UBig)}
    (h : ReadsUBig cfg radix text x) {ds : List Nat} (hne : text ≠ []) (hd : IsNumeral radix text ds) :
    Yields cfg (expectP x) (digitsValue radix ds) := by
  constructor
  · intro hf
    obtain ⟨c, rfl, h1, h2⟩ := h.numeral ds hne hd hf
    exact ⟨c, rfl, h1, h2⟩
  · intro hf
    rw [h.tooLarge ds hd hf]
    rfl

theorem expectP_panics {cfg : Cfg} {radix : Nat} {text : List Nat} {x : R (PRes UBig)}
    (h : ReadsUBig cfg radix text x) (hb : text = [] ∨ HasBadDigit radix text) :
    ∃ p, expectP x = .error p := by
  rcases hb with hb | hb
  · rw [h.empty hb]; exact ⟨_, rfl⟩
  · rcases h.bad hb with e | ⟨e, -⟩ <;> rw [e] <;> exact ⟨_, rfl⟩

theorem ibigOfUbig_yields {cfg : Cfg} (hv : cfg.Valid) (minus : Bool) {x : R UBig} {n : Nat}
    (h : Yields cfg x n) : IYields cfg (ibigOfUbig cfg minus x) (signed minus n) := by
  have e : (signed minus n).natAbs = n := by unfold signed; split <;> simp
  unfold IYields
  rw [e]
  refine ⟨fun hf => ?_, fun hf => ?_⟩
  · obtain ⟨u, rfl, h1, h2⟩ := h.1 hf
    obtain ⟨i1, i2⟩ := IBig.ofUBig_spec hv h1
    rw [h2] at i2
    cases minus
    · exact ⟨_, rfl, i1, i2⟩
    · obtain ⟨c, e1, c1, c2⟩ := IBig.negOwn_spec hv .val i1
      refine ⟨c, e1, c1, ?_⟩
      rw [c2, i2]; rfl
  · rw [h.2 hf]; rfl

/-- C46: `ubig!(token)` and `ibig!(token)`, `ibig!(-token)` for an identifier: the token without one leading
underscore is read as a number, with `0b`, `0o`, `0x` prefixes. -/
theorem C46_ident {cfg : Cfg} (hv : cfg.Valid) {s : List Nat} (hs : s.length < 2 ^ (cfg.U - 1))
    (hp : '+'.toNat ∉ s) (minus : Bool) {ds : List Nat} (hne : (splitRadix (tokenText s)).2 ≠ [])
    (hd : IsNumeral (splitRadix (tokenText s)).1 (splitRadix (tokenText s)).2 ds) :
    Yields cfg (ubigIdent cfg s) (digitsValue (splitRadix (tokenText s)).1 ds) ∧
    IYields cfg (ibigIdent cfg minus s) (signed minus (digitsValue (splitRadix (tokenText s)).1 ds)) := by
  have hl := tokenText_length s
  have h := (C42_from_str_with_radix_prefix hv (s := tokenText s) (by omega)).1
  rw [splitPlus_of_not_mem (fun e => hp (tokenText_mem e))] at h
  have hy : Yields cfg (ubigIdent cfg s) (digitsValue (splitRadix (tokenText s)).1 ds) := by
    unfold ubigIdent
    rw [stripUnderscore_eq]
    exact expectP_yields h hne hd
  exact ⟨hy, ibigOfUbig_yields hv minus hy⟩

/-- `ibig!(- _0x2ff)` -/
example := C46_ident cfg64_valid (s := asciiBytes "_0x2ff") (by decide +kernel) (by decide +kernel) true
  (ds := [2, 15, 15]) (by decide +kernel) ((isNumeral_iff (by decide +kernel)).mpr (by decide +kernel))

/-- C46: the macros panic when the token is not a number. -/
theorem C46_ident_invalid {cfg : Cfg} (hv : cfg.Valid) {s : List Nat} (hs : s.length < 2 ^ (cfg.U - 1))
    (hp : '+'.toNat ∉ s) (minus : Bool)
    (hb : (splitRadix (tokenText s)).2 = [] ∨
      HasBadDigit (splitRadix (tokenText s)).1 (splitRadix (tokenText s)).2) :
    (∃ p, ubigIdent cfg s = .error p) ∧ (∃ p, ibigIdent cfg minus s = .error p) := by
  have hl := tokenText_length s
  have h := (C42_from_str_with_radix_prefix hv (s := tokenText s) (by omega)).1
  rw [splitPlus_of_not_mem (fun e => hp (tokenText_mem e))] at h
  obtain ⟨p, hy⟩ : ∃ p, ubigIdent cfg s = .error p := by
    unfold ubigIdent
    rw [stripUnderscore_eq]
    exact expectP_panics h hb
  refine ⟨⟨p, hy⟩, p, ?_⟩
  unfold ibigIdent
  rw [hy]; rfl

/-- `ubig!(_12a)` -/
example := C46_ident_invalid cfg64_valid (s := asciiBytes "_12a") (by decide +kernel) (by decide +kernel) false
  (Or.inr ((hasBadDigit_iff (by decide +kernel)).mpr (by decide +kernel)))

/-- C46: the forms with `base radix`: the token without one leading underscore is read in that radix, without
prefixes. -/
theorem C46_base {cfg : Cfg} (hv : cfg.Valid) {radix : Nat} (h2 : 2 ≤ radix) (h36 : radix ≤ 36) {s : List Nat}
    (hs : s.length < 2 ^ (cfg.U - 1)) (hp : '+'.toNat ∉ s) (minus : Bool) {ds : List Nat}
    (hne : tokenText s ≠ []) (hd : IsNumeral radix (tokenText s) ds) :
    Yields cfg (ubigBase cfg s radix) (digitsValue radix ds) ∧
    IYields cfg (ibigBase cfg minus s radix) (signed minus (digitsValue radix ds)) := by
  have hl := tokenText_length s
  have h := C20_ubig_from_str_radix hv h2 h36 (s := tokenText s) (by omega)
  rw [splitPlus_of_not_mem (fun e => hp (tokenText_mem e))] at h
  have hy : Yields cfg (ubigBase cfg s radix) (digitsValue radix ds) := by
    unfold ubigBase
    rw [stripUnderscore_eq]
    exact expectP_yields h hne hd
  exact ⟨hy, ibigOfUbig_yields hv minus hy⟩

/-- `ibig!(- _0b102 base 32)` -/
example := C46_base cfg64_valid (radix := 32) (by decide) (by decide) (s := asciiBytes "_0b102") (by decide +kernel)
  (by decide +kernel) true (ds := [0, 11, 1, 0, 2]) (by decide +kernel)
  ((isNumeral_iff (by decide +kernel)).mpr (by decide +kernel))

/-- C46: the forms with `base radix` panic when the radix is out of range or the token is not a number in that
radix (in particular when there is an underscore inside it). -/
theorem C46_base_invalid {cfg : Cfg} (hv : cfg.Valid) {radix : Nat} {s : List Nat}
    (hs : s.length < 2 ^ (cfg.U - 1)) (hp : '+'.toNat ∉ s) (minus : Bool)
    (hb : ¬(2 ≤ radix ∧ radix ≤ 36) ∨ tokenText s = [] ∨ HasBadDigit radix (tokenText s)) :
    (∃ p, ubigBase cfg s radix = .error p) ∧ (∃ p, ibigBase cfg minus s radix = .error p) := by
  have hl := tokenText_length s
  obtain ⟨p, hy⟩ : ∃ p, ubigBase cfg s radix = .error p := by
    unfold ubigBase
    rw [stripUnderscore_eq]
    by_cases hr : 2 ≤ radix ∧ radix ≤ 36
    · have h := C20_ubig_from_str_radix hv hr.1 hr.2 (s := tokenText s) (by omega)
      rw [splitPlus_of_not_mem (fun e => hp (tokenText_mem e))] at h
      exact expectP_panics h (hb.resolve_left (not_not_intro hr))
    · rw [((C41_from_str_radix hv radix (s := tokenText s) (by omega)).1).mpr hr]
      exact ⟨_, rfl⟩
  refine ⟨⟨p, hy⟩, p, ?_⟩
  unfold ibigBase
  rw [hy]; rfl

/-- `ubig!(_1_000 base 32)` -/
example := C46_base_invalid cfg64_valid (radix := 32) (s := asciiBytes "_1_000") (by decide +kernel)
  (by decide +kernel) false (Or.inr (Or.inr ((hasBadDigit_iff (by decide +kernel)).mpr (by decide +kernel))))

/-- C46: `ubig!(literal)`, `ibig!(literal)`, `ibig!(-literal)`: the value of the literal, for every `u128`. -/
theorem C46_literal {cfg : Cfg} (hv : cfg.Valid) {n : Nat} (hn : n < 2 ^ 128) (minus : Bool) :
    (∃ c, ubigLiteral cfg n = .ok c ∧ c.WF cfg ∧ c.value cfg = n) ∧
    (∃ c, ibigLiteral cfg minus n = .ok c ∧ c.WF cfg ∧ c.value cfg = signed minus n) := by
  have hy := (UBig.fromUnsigned_spec hv (bits := 128) (by norm_num) (by norm_num) hn)
  have hi := ibigOfUbig_yields hv minus hy.1
  have e : (signed minus n).natAbs = n := by unfold signed; split <;> simp
  refine ⟨hy.1.1 hy.2, hi.1 ?_⟩
  rw [e]; exact hy.2

/-- The largest `u128`. -/
example := C46_literal cfg64_valid (n := 2 ^ 128 - 1) (by decide) true

/-- The examples of the documentation: `ubig!(_0b102 base 32)` equals `ubig!(b102 base 32)`;
`ibig!(-0x2ff)`. -/
example : tokenText (asciiBytes "_0b102") = asciiBytes "0b102" ∧
    IsNumeral 32 (asciiBytes "0b102") [0, 11, 1, 0, 2] ∧ IsNumeral 32 (asciiBytes "b102") [11, 1, 0, 2] ∧
    digitsValue 32 [0, 11, 1, 0, 2] = digitsValue 32 [11, 1, 0, 2] ∧
    splitRadix (tokenText (asciiBytes "_0x2ff")) = (16, asciiBytes "2ff") ∧
    HasBadDigit 32 (asciiBytes "1_000") ∧ '+'.toNat ∉ asciiBytes "_0b102" :=
  ⟨by decide +kernel, (isNumeral_iff (by norm_num)).mpr (by decide +kernel),
    (isNumeral_iff (by norm_num)).mpr (by decide +kernel), by decide +kernel, by decide +kernel,
    (hasBadDigit_iff (by norm_num)).mpr (by decide +kernel), by decide +kernel⟩

example : (ubigIdent cfg64 (asciiBytes "_314159265358979323846264338327950288419716939937")).map (·.value cfg64) =
    .ok 314159265358979323846264338327950288419716939937 := by decide +kernel

end Ibig
