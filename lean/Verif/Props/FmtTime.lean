import Verif.Proofs.FmtLargeCost
import Verif.Props.ParseTime
import Verif.Props.Fmt
/-!
C65: the time of formatting.

`Timed.UBig.fmt` and so on (Model/FmtTime.lean) run the functions and count steps, like `Timed.UBig.mul` (C60).
Writing one character of the text is a step.
-/
namespace Ibig

/-- C65: counting steps does not change what the functions return. -/
theorem C65_same_result (cfg : Cfg) (be : Bool) (f : FmtFlags) (x : UBig) (y : IBig) :
    (∀ t, (Timed.UBig.fmt cfg be t x f).result = UBig.fmt cfg be t x f) ∧
    (∀ t, (Timed.IBig.fmt cfg be t y f).result = IBig.fmt cfg be t y f) ∧
    (∀ r, (Timed.UBig.inRadixFmt cfg be x r f).result = UBig.inRadixFmt cfg be x r f) ∧
    (∀ r, (Timed.IBig.inRadixFmt cfg be y r f).result = IBig.inRadixFmt cfg be y r f) :=
  ⟨fun _ => Timed.fmtFull_result _ _ _ _ _ _ _ _, fun _ => Timed.fmtFull_result _ _ _ _ _ _ _ _,
   fun r => Timed.UBig.inRadixFmt_result cfg be x r f, fun r => Timed.IBig.inRadixFmt_result cfg be y r f⟩

namespace Timed
variable {cfg : Cfg}

/-- from a bound on the steps of the counting function to a statement about the function -/
theorem Spends.run {x : Timed (List Nat)} {y : R (List Nat)} {B : ℝ} {P : List Nat → Prop}
    (h : Spends x B (fun text => - (9 * text.length)) P) (hr : x.result = y)
    {text : List Nat} (ha : y = .ok text) : ∃ k : ℕ, x = .ok (text, k) ∧ (k : ℝ) ≤ 9 * text.length + B := by
  obtain ⟨k, hk⟩ := Timed.of_result (hr.trans ha)
  have := (h text k hk).1
  exact ⟨k, hk, by linarith⟩

theorem spends_checked {x : Timed (List Nat)} {B : ℝ} {Φ : List Nat → ℝ} {P : List Nat → Prop} (radix : Nat)
    (h : isRadixValid radix = true → Spends x B Φ P) :
    Spends (do checkRadixValid radix; x) (B + 1) Φ P := by
  refine Costs.spend (B := 1) (P := fun _ => isRadixValid radix = true) ?_ fun _ hv => (h hv).le (by linarith)
  by_cases hr : isRadixValid radix = true
  · exact (Takes.costs (takes_word1 _)).mono (by norm_num) fun _ _ => hr
  · have : checkRadixValid radix = (throwT .radixOutOfRange : Timed Unit) := by
      unfold checkRadixValid Ibig.checkRadixValid
      rw [if_pos (by simpa using hr)]
      rfl
    rw [this]
    exact Costs.error

end Timed

/-- The number of digits of a number of `b` bits. -/
theorem IsNumeralText.length_le {radix n b : Nat} {upper : Bool} {digits : List Nat} (h2 : 2 ≤ radix)
    (h : IsNumeralText radix n upper digits) (hb : 1 ≤ b) (hn : n < 2 ^ b) : digits.length ≤ b := by
  obtain ⟨ds, hc, hp⟩ := h
  have hl : digits.length = ds.length := hp.length_eq
  rcases ds with _ | ⟨d, ds⟩
  · exact absurd rfl hc.nonempty
  rw [hl, List.length_cons]
  by_cases hd : d = 0
  · subst hd
    have := hc.noLeadingZero rfl
    simp only [List.cons.injEq, true_and] at this
    subst this
    simpa using hb
  · have h1 := digitsValue_ge (r := radix) (ds := ds) hd
    rw [hc.value] at h1
    have h3 : 2 ^ ds.length < 2 ^ b :=
      lt_of_le_of_lt ((Nat.pow_le_pow_left h2 _).trans h1) hn
    have := (Nat.pow_lt_pow_iff_right (by norm_num : 1 < 2)).mp h3
    omega

/-- C65: printing a number of `n` words in any radix, with any flags, takes at most `9 L + 4700 n^1.47 + 6301` steps,
where `L` is the number of characters printed (it can be large because of the width asked for). -/
theorem C65_in_radix {cfg : Cfg} (hv : cfg.Valid) (be : Bool) {radix : Nat} (h2 : 2 ≤ radix) (h36 : radix ≤ 36)
    (f : FmtFlags) {x : UBig} (hx : x.WF cfg) {y : IBig} (hy : y.WF cfg) {n : Nat} (hn : 1 ≤ n) :
    (x.value cfg < 2 ^ (n * cfg.W) → ∃ (text : List Nat) (k : ℕ), x.inRadixFmt cfg be radix f = .ok text ∧
      Timed.UBig.inRadixFmt cfg be x radix f = .ok (text, k) ∧
      (k : ℝ) ≤ 9 * text.length + 4700 * (n : ℝ) ^ (147 / 100 : ℝ) + 6301) ∧
    ((y.value cfg).natAbs < 2 ^ (n * cfg.W) → ∃ (text : List Nat) (k : ℕ), y.inRadixFmt cfg be radix f = .ok text ∧
      Timed.IBig.inRadixFmt cfg be y radix f = .ok (text, k) ∧
      (k : ℝ) ≤ 9 * text.length + 4700 * (n : ℝ) ^ (147 / 100 : ℝ) + 6301) := by
  obtain ⟨⟨t1, d1, a1, -, -⟩, ⟨t2, d2, b1, -, -⟩⟩ := C23_in_radix hv be h2 h36 f hx hy
  rw [← Timed.mul_rpow47]
  constructor
  · intro hlt
    have hl := Timed.phi_mono (Timed.UBig.len_le hv hx hn hlt)
    obtain ⟨k, h1, h3⟩ := (Timed.spends_checked radix fun hr => Timed.spends_fmtFull hv be .pos hx hr _ _ f).run
      (Timed.UBig.inRadixFmt_result cfg be x radix f) a1
    unfold Timed.phi at hl h3
    exact ⟨t1, k, a1, h1, by linarith⟩
  · intro hlt
    rw [IBig.natAbs_value] at hlt
    have hl := Timed.phi_mono (Timed.UBig.len_le hv hy.1 hn hlt)
    obtain ⟨k, h1, h3⟩ := (Timed.spends_checked radix fun hr => Timed.spends_fmtFull hv be y.sign hy.1 hr _ _ f).run
      (Timed.IBig.inRadixFmt_result cfg be y radix f) b1
    unfold Timed.phi at hl h3
    exact ⟨t2, k, b1, h1, by linarith⟩

/-- `2^128 - 1` in radix 7. -/
example := (C65_in_radix cfg64_valid false (radix := 7) (by decide) (by decide) .default exA_wf exNegB_wf (n := 2)
  (by norm_num)).1 (by decide +kernel)

/-- C65: the same for the formatting traits. -/
theorem C65_traits {cfg : Cfg} (hv : cfg.Valid) (be : Bool) (t : FmtTrait) (f : FmtFlags) {x : UBig} (hx : x.WF cfg)
    {y : IBig} (hy : y.WF cfg) {n : Nat} (hn : 1 ≤ n) :
    (x.value cfg < 2 ^ (n * cfg.W) → ∃ (text : List Nat) (k : ℕ), x.fmt cfg be t f = .ok text ∧
      Timed.UBig.fmt cfg be t x f = .ok (text, k) ∧
      (k : ℝ) ≤ 9 * text.length + 4700 * (n : ℝ) ^ (147 / 100 : ℝ) + 6300) ∧
    ((y.value cfg).natAbs < 2 ^ (n * cfg.W) → ∃ (text : List Nat) (k : ℕ), y.fmt cfg be t f = .ok text ∧
      Timed.IBig.fmt cfg be t y f = .ok (text, k) ∧
      (k : ℝ) ≤ 9 * text.length + 4700 * (n : ℝ) ^ (147 / 100 : ℝ) + 6300) := by
  obtain ⟨⟨t1, d1, a1, -, -⟩, ⟨t2, d2, b1, -, -⟩⟩ := C23_traits hv be t f hx hy
  have hr : isRadixValid t.radix = true := by cases t <;> rfl
  rw [← Timed.mul_rpow47]
  constructor
  · intro hlt
    have hl := Timed.phi_mono (Timed.UBig.len_le hv hx hn hlt)
    obtain ⟨k, h1, h3⟩ := (Timed.spends_fmtFull hv be .pos hx hr _ _ f).run
      ((C65_same_result cfg be f x y).1 t) a1
    unfold Timed.phi at hl h3
    exact ⟨t1, k, a1, h1, by linarith⟩
  · intro hlt
    rw [IBig.natAbs_value] at hlt
    have hl := Timed.phi_mono (Timed.UBig.len_le hv hy.1 hn hlt)
    obtain ⟨k, h1, h3⟩ := (Timed.spends_fmtFull hv be y.sign hy.1 hr _ _ f).run
      ((C65_same_result cfg be f x y).2.1 t) b1
    unfold Timed.phi at hl h3
    exact ⟨t2, k, b1, h1, by linarith⟩

/-- `-(2^64 + 5)` in decimal. -/
example := (C65_traits cfg64_valid false .display .default exA_wf exNegB_wf (n := 2) (by norm_num)).2
  (by decide +kernel)

/-- C65: in the radixes 2, 4, 8, 16 and 32 the time is linear in the length of the text: at most `9 L + 33` steps. -/
theorem C65_power_of_two {cfg : Cfg} (hv : cfg.Valid) (be : Bool) {i : Nat} (hi : 1 ≤ i) (hi5 : i ≤ 5)
    (f : FmtFlags) {x : UBig} (hx : x.WF cfg) {y : IBig} (hy : y.WF cfg) :
    (∃ (text : List Nat) (k : ℕ), x.inRadixFmt cfg be (2 ^ i) f = .ok text ∧
      Timed.UBig.inRadixFmt cfg be x (2 ^ i) f = .ok (text, k) ∧ k ≤ 9 * text.length + 33) ∧
    (∃ (text : List Nat) (k : ℕ), y.inRadixFmt cfg be (2 ^ i) f = .ok text ∧
      Timed.IBig.inRadixFmt cfg be y (2 ^ i) f = .ok (text, k) ∧ k ≤ 9 * text.length + 33) := by
  have hp : isRadixPow2 (2 ^ i) = true ∧ 2 ≤ 2 ^ i ∧ 2 ^ i ≤ 36 := by
    rcases (by omega : i = 1 ∨ i = 2 ∨ i = 3 ∨ i = 4 ∨ i = 5) with rfl | rfl | rfl | rfl | rfl <;> decide
  obtain ⟨hp, h2, h36⟩ := hp
  have key : ∀ (sign : Sign) (mag : UBig) (pre : List Nat) (dc : DigitCase),
      Timed.Spends (Timed.fmtFull cfg be sign mag (2 ^ i) pre dc f) 32
      (fun text => - (9 * text.length)) (fun _ => True) := by
    intro sign mag pre dc
    unfold Timed.fmtFull
    rw [if_pos hp]
    exact Timed.spends_fmtPow2 hv be sign mag _ pre dc f
  obtain ⟨⟨t1, d1, a1, -, -⟩, ⟨t2, d2, b1, -, -⟩⟩ := C23_in_radix hv be h2 h36 f hx hy
  constructor
  · obtain ⟨k, h1, h3⟩ := (Timed.spends_checked (2 ^ i) fun _ => key .pos x _ _).run
      (Timed.UBig.inRadixFmt_result cfg be x (2 ^ i) f) a1
    refine ⟨t1, k, a1, h1, ?_⟩
    have h4 : (k : ℝ) ≤ ((9 * t1.length + 33 : ℕ) : ℝ) := by push_cast; linarith
    exact_mod_cast h4
  · obtain ⟨k, h1, h3⟩ := (Timed.spends_checked (2 ^ i) fun _ => key y.sign y.mag _ _).run
      (Timed.IBig.inRadixFmt_result cfg be y (2 ^ i) f) b1
    refine ⟨t2, k, b1, h1, ?_⟩
    have h4 : (k : ℝ) ≤ ((9 * t2.length + 33 : ℕ) : ℝ) := by push_cast; linarith
    exact_mod_cast h4

/-- A 300-word number in hexadecimal. -/
example := C65_power_of_two cfg64_valid false (i := 4) (by decide) (by decide) .default exLong_wf exNegB_wf

/-- C65: `to_string` (and `format!` with `{:x}` and so on, without flags) takes `O(n^1.47)` steps for a number of
`n` words: at most `12000 n^1.47`. -/
theorem C65_to_string {cfg : Cfg} (hv : cfg.Valid) (be : Bool) (t : FmtTrait) {x : UBig} (hx : x.WF cfg)
    {y : IBig} (hy : y.WF cfg) {n : Nat} (hn : 1 ≤ n) :
    (x.value cfg < 2 ^ (n * cfg.W) → ∃ (text : List Nat) (k : ℕ), x.fmt cfg be t .default = .ok text ∧
      Timed.UBig.fmt cfg be t x .default = .ok (text, k) ∧ (k : ℝ) ≤ 12000 * (n : ℝ) ^ (147 / 100 : ℝ)) ∧
    ((y.value cfg).natAbs < 2 ^ (n * cfg.W) → ∃ (text : List Nat) (k : ℕ), y.fmt cfg be t .default = .ok text ∧
      Timed.IBig.fmt cfg be t y .default = .ok (text, k) ∧ (k : ℝ) ≤ 12000 * (n : ℝ) ^ (147 / 100 : ℝ)) := by
  obtain ⟨h1, h2⟩ := C65_traits hv be t .default hx hy hn
  obtain ⟨⟨d1, c1, e1⟩, ⟨d2, c2, e2⟩⟩ := C21_traits hv be t hx hy
  have hr : 2 ≤ traitRadix t := by cases t <;> decide
  have hW : cfg.W ≤ 64 := by rcases hv.word with h | h | h <;> omega
  have hW1 : 1 ≤ cfg.W := by rcases hv.word with h | h | h <;> omega
  have hb : 1 ≤ n * cfg.W := Nat.mul_pos hn hW1
  have hbound : ∀ (L k : ℕ), L ≤ n * cfg.W + 1 → (k : ℝ) ≤ 9 * L + 4700 * (n : ℝ) ^ (147 / 100 : ℝ) + 6300 →
      (k : ℝ) ≤ 12000 * (n : ℝ) ^ (147 / 100 : ℝ) := by
    intro L k hL hk
    have hL' : L ≤ n * 64 + 1 := hL.trans (Nat.add_le_add_right (Nat.mul_le_mul_left _ hW) _)
    have hL'' : (L : ℝ) ≤ n * 64 + 1 := by exact_mod_cast hL'
    rw [← Timed.mul_rpow47] at hk ⊢
    have h3 := Timed.one_le_rpow47 hn
    have h4 : (1 : ℝ) ≤ n := by exact_mod_cast hn
    nlinarith
  constructor
  · intro hlt
    obtain ⟨text, k, a1, a2, a3⟩ := h1 hlt
    refine ⟨text, k, a1, a2, hbound _ _ ?_ a3⟩
    rw [e1] at a1
    cases a1
    have := c1.length_le hr hb hlt
    omega
  · intro hlt
    obtain ⟨text, k, a1, a2, a3⟩ := h2 hlt
    refine ⟨text, k, a1, a2, hbound _ _ ?_ a3⟩
    rw [e2] at a1
    cases a1
    have := c2.length_le hr hb hlt
    rw [List.length_append]
    split
    · rw [List.length_singleton]; omega
    · rw [List.length_nil]; omega

example : (Timed.UBig.fmt cfg64 false .display exA .default).steps = some 228 := by decide +kernel
example : (Timed.IBig.fmt cfg64 true .lowerHex exNegB ⟨some 24, 42, some .center, false, true, false⟩).steps =
    some 136 := by decide +kernel
/-- A number of 300 words, printed in decimal. -/
example : ∃ (text : List Nat) (k : ℕ), exLong.fmt cfg64 false .display .default = .ok text ∧
    Timed.UBig.fmt cfg64 false .display exLong .default = .ok (text, k) ∧
    (k : ℝ) ≤ 12000 * ((300 : ℕ) : ℝ) ^ (147 / 100 : ℝ) :=
  (C65_to_string cfg64_valid false .display exLong_wf exNegB_wf (n := 300) (by norm_num)).1
    (lt_of_lt_of_le (UBig.value_lt_len exLong_wf) (Nat.pow_le_pow_right (by norm_num) (by decide +kernel)))

end Ibig
