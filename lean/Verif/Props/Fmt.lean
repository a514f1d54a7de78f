import Verif.Proofs.FmtParse
import Verif.Props.Parse
/-! # C21, C22, C23, C41, C42 (formatting): theorems

`be` is the endianness of the target; the statements hold for both. -/
namespace Ibig

/-! ### C23: all flags -/

/-- C23: `in_radix(radix)` formatted with any flags: the numeral in lower case, or upper case with `#`, without
prefix. -/
theorem C23_in_radix {cfg : Cfg} (hv : cfg.Valid) (be : Bool) {radix : Nat} (h2 : 2 ≤ radix) (h36 : radix ≤ 36)
    (f : FmtFlags) {x : UBig} (hx : x.WF cfg) {y : IBig} (hy : y.WF cfg) :
    Prints f radix f.alternate false (x.value cfg) [] (x.inRadixFmt cfg be radix f) ∧
    Prints f radix f.alternate (decide (y.value cfg < 0)) (y.value cfg).natAbs [] (y.inRadixFmt cfg be radix f) := by
  have hval : isRadixValid radix = true := isRadixValid_iff.mpr ⟨h2, h36⟩
  have hc : (if radix ≤ 10 then DigitCase.noLetters else if f.alternate then .upper else .lower) =
      (if f.alternate then .upper else .lower) ∨
      (if radix ≤ 10 then DigitCase.noLetters else if f.alternate then .upper else .lower) = .noLetters ∧ radix ≤ 10 := by
    by_cases h : radix ≤ 10
    · right; exact ⟨if_pos h, h⟩
    · left; exact if_neg h
  constructor
  · unfold UBig.inRadixFmt InRadix.fmt
    rw [checkRadix_ok hval]
    exact fmtFull_prints hv be .pos hx hval (by simp) f f.alternate hc
  · unfold IBig.inRadixFmt InRadix.fmt
    rw [checkRadix_ok hval, IBig.natAbs_value, ← neg_iff hy]
    exact fmtFull_prints hv be y.sign hy.mag hval (by simp) f f.alternate hc

/-- Radix 7, width 24, centred, sign always shown. -/
example := C23_in_radix cfg64_valid false (radix := 7) (by decide) (by decide)
  ⟨some 24, 42, some .center, true, false, false⟩ exA_wf exNegB_wf

/-- C23: `Display`, `Debug`, `Binary`, `Octal`, `LowerHex`, `UpperHex` with any flags. -/
theorem C23_traits {cfg : Cfg} (hv : cfg.Valid) (be : Bool) (t : FmtTrait) (f : FmtFlags) {x : UBig}
    (hx : x.WF cfg) {y : IBig} (hy : y.WF cfg) :
    let pre := if f.alternate then (traitPrefix t).toList.map Char.toNat else []
    Prints f (traitRadix t) (decide (t = .upperHex)) false (x.value cfg) pre (x.fmt cfg be t f) ∧
    Prints f (traitRadix t) (decide (t = .upperHex)) (decide (y.value cfg < 0)) (y.value cfg).natAbs pre
      (y.fmt cfg be t f) := by
  have hr : t.radix = traitRadix t := by cases t <;> rfl
  have hval : isRadixValid (traitRadix t) = true := by cases t <;> rfl
  have hp : t.pre = (traitPrefix t).toList.map Char.toNat := by cases t <;> rfl
  have hc : t.digitCase = (if decide (t = .upperHex) then .upper else .lower) ∨
      t.digitCase = .noLetters ∧ traitRadix t ≤ 10 := by
    cases t <;> simp [FmtTrait.digitCase, traitRadix]
  have hl : (if f.alternate then (traitPrefix t).toList.map Char.toNat else []).length ≤ 2 := by
    rw [← hp]
    split
    · cases t <;> decide
    · simp
  simp only
  constructor
  · unfold UBig.fmt
    rw [hr, hp]
    exact fmtFull_prints hv be .pos hx hval hl f _ hc
  · unfold IBig.fmt
    rw [hr, hp, IBig.natAbs_value, ← neg_iff hy]
    exact fmtFull_prints hv be y.sign hy.mag hval hl f _ hc

/-- `{:#x}` with width 24, centred. -/
example := C23_traits cfg64_valid true .lowerHex ⟨some 24, 42, some .center, false, true, false⟩ exA_wf exNegB_wf

/-! ### C21: the plain format -/

/-- The numeral a format prints is unique, so the theorems below determine the text. -/
theorem C21_unique {radix n : Nat} (h2 : 2 ≤ radix) {upper : Bool} {s t : List Nat}
    (hs : IsNumeralText radix n upper s) (ht : IsNumeralText radix n upper t) : s = t := by
  obtain ⟨ds, a1, a2⟩ := hs
  obtain ⟨es, b1, b2⟩ := ht
  have := a1.unique h2 b1
  subst this
  clear a1 b1
  unfold IsPrinted at a2 b2
  induction a2 generalizing t with
  | nil => rw [List.forall₂_nil_right_iff] at b2; exact b2.symm
  | cons h1 _ ih =>
    rw [List.forall₂_cons_right_iff] at b2
    obtain ⟨c, t', h3, h4, rfl⟩ := b2
    rw [h1] at h3
    rw [Option.some.inj h3, ih h4]

/-- C21: without width and `+`, `in_radix` prints `-` if negative, then the canonical numeral. -/
theorem C21_in_radix {cfg : Cfg} (hv : cfg.Valid) (be : Bool) {radix : Nat} (h2 : 2 ≤ radix) (h36 : radix ≤ 36)
    {f : FmtFlags} (hw : f.width = none) (hp : f.plus = false) {x : UBig} (hx : x.WF cfg) {y : IBig} (hy : y.WF cfg) :
    (∃ digits, IsNumeralText radix (x.value cfg) f.alternate digits ∧ x.inRadixFmt cfg be radix f = .ok digits) ∧
    (∃ digits, IsNumeralText radix (y.value cfg).natAbs f.alternate digits ∧
      y.inRadixFmt cfg be radix f = .ok ((if y.value cfg < 0 then ['-'.toNat] else []) ++ digits)) := by
  obtain ⟨⟨t1, d1, a1, a2, a3⟩, ⟨t2, d2, b1, b2, b3⟩⟩ := C23_in_radix hv be h2 h36 f hx hy
  unfold Padded at a3 b3
  rw [hw, hp] at a3 b3
  refine ⟨⟨d1, a2, by rw [a1, a3]; simp [signText]⟩, ⟨d2, b2, ?_⟩⟩
  rw [b1, b3]
  simp [signText]

/-- Radix 36 in upper case, of a 300-word number and of a negative integer. -/
example := C21_in_radix cfg64_valid false (radix := 36) (by decide) (by decide)
  (f := ⟨none, 32, none, false, true, false⟩) rfl rfl exLong_wf exNegB_wf

/-- C21: without flags, `Display` and `Debug` print decimal, `Binary`, `Octal`, `LowerHex`, `UpperHex` print in
radix 2, 8, 16, 16. -/
theorem C21_traits {cfg : Cfg} (hv : cfg.Valid) (be : Bool) (t : FmtTrait) {x : UBig} (hx : x.WF cfg) {y : IBig}
    (hy : y.WF cfg) :
    (∃ digits, IsNumeralText (traitRadix t) (x.value cfg) (decide (t = .upperHex)) digits ∧
      x.fmt cfg be t .default = .ok digits) ∧
    (∃ digits, IsNumeralText (traitRadix t) (y.value cfg).natAbs (decide (t = .upperHex)) digits ∧
      y.fmt cfg be t .default = .ok ((if y.value cfg < 0 then ['-'.toNat] else []) ++ digits)) := by
  obtain ⟨⟨t1, d1, a1, a2, a3⟩, ⟨t2, d2, b1, b2, b3⟩⟩ := C23_traits hv be t .default hx hy
  simp only [Padded, FmtFlags.default] at a3 b3
  refine ⟨⟨d1, a2, by rw [a1, a3]; simp [signText]⟩, ⟨d2, b2, ?_⟩⟩
  rw [b1, b3]
  simp [signText]

/-- Decimal digits of a 300-word number and of a negative integer. -/
example := C21_traits cfg64_valid false .display exLong_wf exNegB_wf

/-- The decimal digits of `2^128 - 1` are the only ones. -/
example {s : List Nat} (hs : IsNumeralText 10 (exA.value cfg64) false s) :
    exA.fmt cfg64 false .display .default = .ok s := by
  obtain ⟨⟨digits, h1, h2⟩, -⟩ := C21_traits cfg64_valid false .display exA_wf exNegB_wf
  rw [h2, C21_unique (by decide) hs h1]

example : (UBig.fmt cfg64 false .display exA .default = .ok (asciiBytes "340282366920938463463374607431768211455")) ∧
    (IBig.fmt cfg64 true .lowerHex exNegB ⟨some 24, 42, some .center, false, true, false⟩ =
      .ok (asciiBytes "**-0x10000000000000005**")) ∧
    IsCanonicalNumeral 10 340 [3, 4, 0] ∧ FmtFlags.default.width = none ∧ FmtFlags.default.plus = false := by
  refine ⟨by decide +kernel, by decide +kernel, ⟨by decide, by decide, by decide, by decide⟩, rfl, rfl⟩

example : exA.WF cfg64 ∧ exNegB.WF cfg64 := ⟨exA_wf, exNegB_wf⟩

/-! ### C22: print, then parse -/

/-- C22: the text printed in a radix (in either case, with or without `+`, also zero-padded) reads back as the
same number. The text is assumed to be a possible Rust string (at most `isize::MAX` bytes). -/
theorem C22_ubig {cfg : Cfg} (hv : cfg.Valid) (be : Bool) {radix : Nat} (h2 : 2 ≤ radix) (h36 : radix ≤ 36)
    {f : FmtFlags} (hf : f.width = none ∨ f.zero = true) {x : UBig} (hx : x.WF cfg) :
    ∃ text, x.inRadixFmt cfg be radix f = .ok text ∧ (text.length < 2 ^ (cfg.U - 1) →
      ∃ c, UBig.fromStrRadix cfg text radix = .ok (.ok c) ∧ c.WF cfg ∧ c.value cfg = x.value cfg) := by
  have hp := (C23_in_radix hv be h2 h36 f hx (y := ⟨.pos, x⟩) ⟨hx, by simp⟩).1
  obtain ⟨t, ds, e, hne, hnum, hval⟩ := hp.text (by omega) hf
  refine ⟨_, e, ?_⟩
  intro hlen
  have hread := C20_ubig_from_str_radix hv h2 h36 hlen
  rw [List.nil_append, splitPlus_sign (splitPlus_numeral h36 hnum)] at hread
  obtain ⟨c, h1, h3, h4⟩ := hread.numeral ds hne hnum (by rw [hval]; exact UBig.WF.fits hv hx)
  exact ⟨c, by rw [List.nil_append]; exact h1, h3, h4.trans hval⟩

/-- Radix 7, padded with zeros to 100 characters. -/
example := C22_ubig cfg64_valid false (radix := 7) (by decide) (by decide)
  (f := ⟨some 100, 32, none, true, false, true⟩) (Or.inr rfl) exA_wf

/-- C22 for signed numbers. -/
theorem C22_ibig {cfg : Cfg} (hv : cfg.Valid) (be : Bool) {radix : Nat} (h2 : 2 ≤ radix) (h36 : radix ≤ 36)
    {f : FmtFlags} (hf : f.width = none ∨ f.zero = true) {x : IBig} (hx : x.WF cfg) :
    ∃ text, x.inRadixFmt cfg be radix f = .ok text ∧ (text.length < 2 ^ (cfg.U - 1) →
      ∃ c, IBig.fromStrRadix cfg text radix = .ok (.ok c) ∧ c.WF cfg ∧ c.value cfg = x.value cfg) := by
  have hp := (C23_in_radix hv be h2 h36 f hx.mag hx).2
  obtain ⟨t, ds, e, hne, hnum, hval⟩ := hp.text (by omega) hf
  refine ⟨_, e, ?_⟩
  intro hlen
  have hread := C20_ibig_from_str_radix hv h2 h36 hlen
  rw [List.nil_append, splitSign_sign (splitSign_numeral h36 hnum)] at hread
  obtain ⟨c, h1, h3, h4⟩ := hread.numeral ds hne hnum (by
    rw [hval, IBig.natAbs_value]; exact UBig.WF.fits hv hx.mag)
  refine ⟨c, by rw [List.nil_append]; exact h1, h3, h4.trans ?_⟩
  rw [hval]
  unfold signed
  by_cases hn : x.value cfg < 0
  · rw [if_pos (decide_eq_true hn)]; omega
  · rw [if_neg (by simpa using hn)]; omega

/-- Radix 36 of a negative integer. -/
example := C22_ibig cfg64_valid false (radix := 36) (by decide) (by decide) (f := .default) (Or.inl rfl) exNegB_wf

example : IBig.inRadixFmt cfg64 false exNegB 36 ⟨some 20, 32, none, false, true, true⟩ =
    .ok (asciiBytes "-0000003W5E11264SGSL") ∧ (asciiBytes "-0000003W5E11264SGSL").length < 2 ^ (cfg64.U - 1) := by
  decide +kernel

/-! ### C41: the radix -/

/-- C41: `in_radix` panics because of the radix exactly when the radix is outside `2..=36`. -/
theorem C41_in_radix {cfg : Cfg} (hv : cfg.Valid) (be : Bool) (radix : Nat) (f : FmtFlags) {x : UBig} (hx : x.WF cfg)
    {y : IBig} (hy : y.WF cfg) :
    (x.inRadixFmt cfg be radix f = .error .radixOutOfRange ↔ ¬(2 ≤ radix ∧ radix ≤ 36)) ∧
    (y.inRadixFmt cfg be radix f = .error .radixOutOfRange ↔ ¬(2 ≤ radix ∧ radix ≤ 36)) := by
  by_cases h : 2 ≤ radix ∧ radix ≤ 36
  · obtain ⟨⟨t1, d1, a1, a2, a3⟩, ⟨t2, d2, b1, b2, b3⟩⟩ := C23_in_radix hv be h.1 h.2 f hx hy
    rw [a1, b1]
    simp [h]
  · have hval : isRadixValid radix = false := by
      rw [Bool.eq_false_iff]; exact fun e => h (isRadixValid_iff.mp e)
    have hc : checkRadixValid radix = .error .radixOutOfRange := by unfold checkRadixValid; simp [hval]
    unfold UBig.inRadixFmt IBig.inRadixFmt
    rw [hc]
    exact ⟨⟨fun _ => h, fun _ => rfl⟩, ⟨fun _ => h, fun _ => rfl⟩⟩

/-- Radix 37. -/
example : exA.inRadixFmt cfg64 false 37 .default = .error .radixOutOfRange :=
  (C41_in_radix cfg64_valid false 37 .default exA_wf exNegB_wf).1.mpr (by decide)

/-! ### C42: printing with `#` and reading back -/

/-- C42: what `{:#b}`, `{:#o}`, `{:#x}`, `{:#X}` and `{:#}` print is read back by `from_str_with_radix_prefix`. -/
theorem C42_round_trip {cfg : Cfg} (hv : cfg.Valid) (be : Bool) (t : FmtTrait) {f : FmtFlags}
    (hf : f.width = none ∨ f.zero = true) (ha : f.alternate = true) {x : UBig} (hx : x.WF cfg) {y : IBig}
    (hy : y.WF cfg) :
    (∃ text, x.fmt cfg be t f = .ok text ∧ (text.length < 2 ^ (cfg.U - 1) →
      ∃ c, UBig.fromStrWithRadixPrefix cfg text = .ok (.ok c) ∧ c.WF cfg ∧ c.value cfg = x.value cfg)) ∧
    (∃ text, y.fmt cfg be t f = .ok text ∧ (text.length < 2 ^ (cfg.U - 1) →
      ∃ c, IBig.fromStrWithRadixPrefix cfg text = .ok (.ok c) ∧ c.WF cfg ∧ c.value cfg = y.value cfg)) := by
  have hr36 : traitRadix t ≤ 36 := by cases t <;> simp [traitRadix]
  have hr1 : 1 ≤ traitRadix t := by cases t <;> simp [traitRadix]
  have hpre0 : ∀ s ds, IsNumeral (traitRadix t) s ds →
      splitPlus ((traitPrefix t).toList.map Char.toNat ++ s) = (traitPrefix t).toList.map Char.toNat ++ s ∧
      splitSign ((traitPrefix t).toList.map Char.toNat ++ s) =
        (false, (traitPrefix t).toList.map Char.toNat ++ s) := by
    intro s ds h
    cases t with
    | display => exact ⟨splitPlus_numeral hr36 h, splitSign_numeral hr36 h⟩
    | binary => exact ⟨rfl, rfl⟩
    | octal => exact ⟨rfl, rfl⟩
    | lowerHex => exact ⟨rfl, rfl⟩
    | upperHex => exact ⟨rfl, rfl⟩
  obtain ⟨h1, h2⟩ := C23_traits hv be t f hx hy
  rw [if_pos ha] at h1 h2
  constructor
  · obtain ⟨s, ds, e, hne, hnum, hval⟩ := h1.text hr1 hf
    refine ⟨_, e, ?_⟩
    intro hlen
    have hread := (C42_from_str_with_radix_prefix hv hlen).1
    rw [splitPlus_sign (hpre0 s ds hnum).1, splitRadix_pre hnum] at hread
    obtain ⟨c, k1, k3, k4⟩ := hread.numeral ds hne hnum (by simp only; rw [hval]; exact UBig.WF.fits hv hx)
    exact ⟨c, k1, k3, k4.trans hval⟩
  · obtain ⟨s, ds, e, hne, hnum, hval⟩ := h2.text hr1 hf
    refine ⟨_, e, ?_⟩
    intro hlen
    have hread := (C42_from_str_with_radix_prefix hv hlen).2
    rw [splitSign_sign (hpre0 s ds hnum).2, splitRadix_pre hnum] at hread
    obtain ⟨c, k1, k3, k4⟩ := hread.numeral ds hne hnum (by
      simp only; rw [hval, IBig.natAbs_value]; exact UBig.WF.fits hv hy.mag)
    refine ⟨c, k1, k3, k4.trans ?_⟩
    simp only
    rw [hval]
    unfold signed
    by_cases hn : y.value cfg < 0
    · rw [if_pos (decide_eq_true hn)]; omega
    · rw [if_neg (by simpa using hn)]; omega

/-- `{:#o}` of a 300-word number and of a negative integer. -/
example := C42_round_trip cfg64_valid false .octal (f := ⟨none, 32, none, false, true, false⟩) (Or.inl rfl) rfl
  exLong_wf exNegB_wf

example : IBig.fmt cfg64 false .upperHex exNegB ⟨none, 32, none, false, true, false⟩ =
    .ok (asciiBytes "-0x10000000000000005") := by decide +kernel

end Ibig
