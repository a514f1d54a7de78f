import Verif.Proofs.ParsePower
import Verif.Proofs.ParseEntry
import Verif.Props.PowTime
import Verif.Props.Parse
/-!
C64: the time of parsing.

`Timed.UBig.fromStrRadix` and so on (Model/ParseTime.lean) run the functions and count steps, like `Timed.UBig.mul` (C60).
Looking at one byte of the text is a step.
-/
namespace Ibig

/-- C64: counting steps does not change what the functions return. -/
theorem C64_same_result (cfg : Cfg) (s : List Nat) :
    (∀ r, (Timed.UBig.fromStrRadix cfg s r).result = UBig.fromStrRadix cfg s r) ∧
    (∀ r, (Timed.IBig.fromStrRadix cfg s r).result = IBig.fromStrRadix cfg s r) ∧
    (Timed.UBig.fromStr cfg s).result = UBig.fromStr cfg s ∧
    (Timed.IBig.fromStr cfg s).result = IBig.fromStr cfg s ∧
    (Timed.UBig.fromStrWithRadixPrefix cfg s).result = UBig.fromStrWithRadixPrefix cfg s ∧
    (Timed.IBig.fromStrWithRadixPrefix cfg s).result = IBig.fromStrWithRadixPrefix cfg s :=
  ⟨Timed.UBig.fromStrRadix_result cfg s, Timed.IBig.fromStrRadix_result cfg s,
   Timed.UBig.fromStrRadix_result cfg s 10, Timed.IBig.fromStrRadix_result cfg s 10,
   Timed.UBig.fromStrWithRadixPrefix_result cfg s, Timed.IBig.fromStrWithRadixPrefix_result cfg s⟩

namespace Timed
variable {cfg : Cfg}

theorem parseSign_length (s : List Nat) : (Ibig.parseSign s).2.length ≤ s.length := by
  have e2 : (Ibig.parseSign s).2 = (splitSign s).2 := congrArg Prod.snd (parseSign_eq s)
  rw [e2]
  exact splitSign_length s

theorem costs_ubig_radix {B : ℝ} {r : Nat} {s : List Nat}
    (h : ∀ t : List Nat, t.length ≤ s.length → Costs (UBig.fromStrRadixNoSign cfg t r) B (OkP fun _ => True)) :
    Costs (UBig.fromStrRadix cfg s r) (B + 2) (fun _ => True) := by
  unfold UBig.fromStrRadix
  refine Costs.step (Takes.costs (takes_word1 _)) fun _ _ => ?_
  refine Costs.step (Costs.pass (P := fun t => t = Ibig.stripPrefixOr [43] s) (Post.ok rfl)) ?_
  rintro _ rfl
  rw [stripPlus_eq]
  exact (h _ (splitPlus_length s)).mono (by push_cast; linarith) (fun _ _ => trivial)

theorem costs_ibig_radix {B : ℝ} {r : Nat} {s : List Nat}
    (h : ∀ t : List Nat, t.length ≤ s.length → Costs (UBig.fromStrRadixNoSign cfg t r) B (OkP fun _ => True)) :
    Costs (IBig.fromStrRadix cfg s r) (B + 3) (fun _ => True) := by
  unfold IBig.fromStrRadix
  refine Costs.step (Takes.costs (takes_word1 _)) fun _ _ => ?_
  refine Costs.step (Costs.pass (P := fun t => t = Ibig.parseSign s) (Post.ok rfl)) ?_
  rintro _ rfl
  refine Costs.mono (P := OkP fun _ => True) ?_ (le_refl _) (fun _ _ => trivial)
  refine Costs.tryP (h _ (parseSign_length s)) (by push_cast; linarith) fun m _ => ?_
  exact (Costs.pure (fun _ _ => trivial)).mono (by push_cast; linarith) (fun _ h => h)

theorem costs_prefix {B : ℝ} (hB : 0 ≤ B) {s : List Nat} {n : Nat} (hs : s.length ≤ n)
    (h : ∀ r, isRadixValid r = true → ∀ t : List Nat, t.length ≤ n →
      Costs (UBig.fromStrRadixNoSign cfg t r) B (OkP fun _ => True)) :
    Costs (UBig.fromStrWithRadixPrefixNoSign cfg s) (B + 3) (OkP fun _ => True) := by
  have hp : ∀ (c t : List Nat), Ibig.stripPrefix c s = some t → t.length ≤ n := by
    intro c t ht
    unfold Ibig.stripPrefix at ht
    split at ht
    · cases ht
      rw [List.length_drop]
      omega
    · cases ht
  unfold UBig.fromStrWithRadixPrefixNoSign
  refine Costs.step (Costs.pass (P := fun t => t = Ibig.stripPrefix [48, 98] s) (Post.ok rfl)) ?_
  rintro _ rfl
  cases h1 : Ibig.stripPrefix [48, 98] s with
  | some t => exact (h 2 (by decide) t (hp _ _ h1)).mono (by push_cast; linarith) (fun _ h => h)
  | none =>
    refine Costs.step (Costs.pass (P := fun t => t = Ibig.stripPrefix [48, 111] s) (Post.ok rfl)) ?_
    rintro _ rfl
    cases h2 : Ibig.stripPrefix [48, 111] s with
    | some t => exact (h 8 (by decide) t (hp _ _ h2)).mono (by push_cast; linarith) (fun _ h => h)
    | none =>
      refine Costs.step (Costs.pass (P := fun t => t = Ibig.stripPrefix [48, 120] s) (Post.ok rfl)) ?_
      rintro _ rfl
      cases h3 : Ibig.stripPrefix [48, 120] s with
      | some t => exact (h 16 (by decide) t (hp _ _ h3)).mono (by push_cast; linarith) (fun _ h => h)
      | none => exact (h 10 (by decide) s hs).mono (by push_cast; linarith) (fun _ h => h)

theorem costs_ubig_prefix {B : ℝ} (hB : 0 ≤ B) {s : List Nat}
    (h : ∀ r, isRadixValid r = true → ∀ t : List Nat, t.length ≤ s.length →
      Costs (UBig.fromStrRadixNoSign cfg t r) B (OkP fun _ => True)) :
    Costs (UBig.fromStrWithRadixPrefix cfg s) (B + 5) (fun _ => True) := by
  unfold UBig.fromStrWithRadixPrefix
  refine Costs.step (Costs.pass (P := fun t => t = Ibig.stripPrefixOr [43] s) (Post.ok rfl)) ?_
  rintro _ rfl
  rw [stripPlus_eq]
  exact (costs_prefix hB (splitPlus_length s) h).mono (by push_cast; linarith) (fun _ _ => trivial)

theorem costs_ibig_prefix {B : ℝ} (hB : 0 ≤ B) {s : List Nat}
    (h : ∀ r, isRadixValid r = true → ∀ t : List Nat, t.length ≤ s.length →
      Costs (UBig.fromStrRadixNoSign cfg t r) B (OkP fun _ => True)) :
    Costs (IBig.fromStrWithRadixPrefix cfg s) (B + 5) (fun _ => True) := by
  unfold IBig.fromStrWithRadixPrefix
  refine Costs.step (Costs.pass (P := fun t => t = Ibig.parseSign s) (Post.ok rfl)) ?_
  rintro _ rfl
  refine Costs.mono (P := OkP fun _ => True) ?_ (le_refl _) (fun _ _ => trivial)
  refine Costs.tryP (costs_prefix hB (parseSign_length s) h) (by push_cast; linarith) fun m _ => ?_
  exact (Costs.pure (fun _ _ => trivial)).mono (by push_cast; linarith) (fun _ h => h)

/-- from a bound on the steps of the counting function to a statement about the function -/
theorem Costs.run {α : Type} {x : Timed α} {y : R α} {B : ℝ} {P : α → Prop} (h : Costs x B P) (hr : x.result = y)
    {a : α} (ha : y = .ok a) : ∃ k : ℕ, x = .ok (a, k) ∧ (k : ℝ) ≤ B := by
  obtain ⟨k, hk⟩ := Timed.of_result (hr.trans ha)
  exact ⟨k, hk, (h a k hk).1⟩

theorem mul_rpow47 (N : ℕ) : (N : ℝ) * (N : ℝ) ^ (47 / 100 : ℝ) = (N : ℝ) ^ (147 / 100 : ℝ) := by
  rcases Nat.eq_zero_or_pos N with rfl | h
  · rw [Nat.cast_zero, Real.zero_rpow (by norm_num), Real.zero_rpow (by norm_num), mul_zero]
  · exact (rpow147 h).symm

end Timed

/-- C64: reading a text of `n` bytes takes at most `9 n + 175 N^1.47 + 14` steps, where `N` is the number of words in
which `n` digits are sure to fit: `d` digits fit in a word and `n ≤ N d`.  The result may be a number or a parse error. -/
theorem C64_from_str_radix {cfg : Cfg} (hv : cfg.Valid) {radix : Nat} (h2 : 2 ≤ radix) (h36 : radix ≤ 36)
    {s : List Nat} (hs : s.length < 2 ^ (cfg.U - 1)) {d N : Nat} (hd : radix ^ d < 2 ^ cfg.W) (hN : s.length ≤ N * d) :
    (∀ res, UBig.fromStrRadix cfg s radix = .ok res → ∃ k : ℕ, Timed.UBig.fromStrRadix cfg s radix = .ok (res, k) ∧
      (k : ℝ) ≤ 9 * s.length + 175 * (N : ℝ) ^ (147 / 100 : ℝ) + 14) ∧
    (∀ res, IBig.fromStrRadix cfg s radix = .ok res → ∃ k : ℕ, Timed.IBig.fromStrRadix cfg s radix = .ok (res, k) ∧
      (k : ℝ) ≤ 9 * s.length + 175 * (N : ℝ) ^ (147 / 100 : ℝ) + 14) := by
  have hval : isRadixValid radix = true := isRadixValid_iff.mpr ⟨h2, h36⟩
  have key : ∀ t : List Nat, t.length ≤ s.length → Timed.Costs (Timed.UBig.fromStrRadixNoSign cfg t radix)
      (9 * s.length + 175 * (N : ℝ) ^ (147 / 100 : ℝ) + 11) (Timed.OkP fun _ => True) := by
    intro t ht
    have ht' : (t.length : ℝ) ≤ s.length := by exact_mod_cast ht
    rw [← Timed.mul_rpow47]
    exact (Timed.costs_noSign_any hv hval (by omega) hd (N := N) (by omega)).mono (by linarith) (fun _ h => h)
  constructor
  · intro res hr
    obtain ⟨k, h1, h2⟩ := (Timed.costs_ubig_radix key).run (Timed.UBig.fromStrRadix_result cfg s radix) hr
    exact ⟨k, h1, by linarith⟩
  · intro res hr
    obtain ⟨k, h1, h2⟩ := (Timed.costs_ibig_radix key).run (Timed.IBig.fromStrRadix_result cfg s radix) hr
    exact ⟨k, h1, by linarith⟩

/-- C64: in the radixes 2, 4, 8, 16 and 32 the time is linear: at most `9 n + 14` steps. -/
theorem C64_power_of_two {cfg : Cfg} {i : Nat} (hi : 1 ≤ i) (hi5 : i ≤ 5) (s : List Nat) :
    (∀ res, UBig.fromStrRadix cfg s (2 ^ i) = .ok res → ∃ k : ℕ, Timed.UBig.fromStrRadix cfg s (2 ^ i) = .ok (res, k) ∧
      k ≤ 9 * s.length + 14) ∧
    (∀ res, IBig.fromStrRadix cfg s (2 ^ i) = .ok res → ∃ k : ℕ, Timed.IBig.fromStrRadix cfg s (2 ^ i) = .ok (res, k) ∧
      k ≤ 9 * s.length + 14) := by
  have hp : isRadixPow2 (2 ^ i) = true := by
    rcases (by omega : i = 1 ∨ i = 2 ∨ i = 3 ∨ i = 4 ∨ i = 5) with rfl | rfl | rfl | rfl | rfl <;> decide
  have key : ∀ t : List Nat, t.length ≤ s.length → Timed.Costs (Timed.UBig.fromStrRadixNoSign cfg t (2 ^ i))
      ((9 * s.length + 11 : ℕ) : ℝ) (Timed.OkP fun _ => True) := by
    intro t ht
    refine (Timed.Takes.costs (Timed.takes_noSign_pow2 hp t)).mono ?_ (fun _ h => h)
    exact_mod_cast (by omega)
  constructor
  · intro res hr
    obtain ⟨k, h1, h2⟩ := (Timed.costs_ubig_radix key).run (Timed.UBig.fromStrRadix_result cfg s _) hr
    refine ⟨k, h1, ?_⟩
    have : k ≤ 9 * s.length + 11 + 2 := by exact_mod_cast h2
    omega
  · intro res hr
    obtain ⟨k, h1, h2⟩ := (Timed.costs_ibig_radix key).run (Timed.IBig.fromStrRadix_result cfg s _) hr
    refine ⟨k, h1, ?_⟩
    have : k ≤ 9 * s.length + 11 + 3 := by exact_mod_cast h2
    omega

/-- A hexadecimal number. -/
example := C64_power_of_two (cfg := cfg64) (i := 4) (by decide) (by decide) (asciiBytes "+deadbeefdeadbeefdeadbeef")

/-- C64: all parsing functions take `O(n^1.47)` steps for a text of `n ≥ 1` bytes: at most `200 n^1.47`. -/
theorem C64_total {cfg : Cfg} (hv : cfg.Valid) {s : List Nat} (hs : s.length < 2 ^ (cfg.U - 1)) (h1 : 1 ≤ s.length) :
    (∀ radix res, UBig.fromStrRadix cfg s radix = .ok res → ∃ k : ℕ, Timed.UBig.fromStrRadix cfg s radix = .ok (res, k) ∧
      (k : ℝ) ≤ 200 * (s.length : ℝ) ^ (147 / 100 : ℝ)) ∧
    (∀ radix res, IBig.fromStrRadix cfg s radix = .ok res → ∃ k : ℕ, Timed.IBig.fromStrRadix cfg s radix = .ok (res, k) ∧
      (k : ℝ) ≤ 200 * (s.length : ℝ) ^ (147 / 100 : ℝ)) ∧
    (∀ res, UBig.fromStrWithRadixPrefix cfg s = .ok res → ∃ k : ℕ, Timed.UBig.fromStrWithRadixPrefix cfg s = .ok (res, k) ∧
      (k : ℝ) ≤ 200 * (s.length : ℝ) ^ (147 / 100 : ℝ)) ∧
    (∀ res, IBig.fromStrWithRadixPrefix cfg s = .ok res → ∃ k : ℕ, Timed.IBig.fromStrWithRadixPrefix cfg s = .ok (res, k) ∧
      (k : ℝ) ≤ 200 * (s.length : ℝ) ^ (147 / 100 : ℝ)) := by
  have key : ∀ radix, isRadixValid radix = true → ∀ t : List Nat, t.length ≤ s.length →
      Timed.Costs (Timed.UBig.fromStrRadixNoSign cfg t radix)
      (9 * s.length + 175 * (s.length : ℝ) ^ (147 / 100 : ℝ) + 11) (Timed.OkP fun _ => True) := by
    intro radix hval t ht
    have ht' : (t.length : ℝ) ≤ s.length := by exact_mod_cast ht
    have h36 := (isRadixValid_iff.mp hval).2
    rw [← Timed.mul_rpow47]
    refine (Timed.costs_noSign_any hv hval (by omega) (d := 1) (N := s.length) ?_ (by omega)).mono
      (by linarith) (fun _ h => h)
    rw [pow_one, ← base_eq]
    exact radix_lt_base hv.W16 h36
  have hbound : 9 * (s.length : ℝ) + 175 * (s.length : ℝ) ^ (147 / 100 : ℝ) + 11 + 5 ≤
      200 * (s.length : ℝ) ^ (147 / 100 : ℝ) := by
    rw [← Timed.mul_rpow47]
    have h2 := Timed.one_le_rpow47 h1
    have h3 : (1 : ℝ) ≤ s.length := by exact_mod_cast h1
    nlinarith
  have hB : (0 : ℝ) ≤ 9 * s.length + 175 * (s.length : ℝ) ^ (147 / 100 : ℝ) + 11 := by positivity
  have hvalid : ∀ {α : Type} (radix : Nat) (f : R α) (res : α),
      (do checkRadixValid radix; f) = (.ok res : R α) → isRadixValid radix = true := by
    intro α radix f res h
    by_contra hc
    unfold checkRadixValid at h
    rw [if_pos (by simpa using hc)] at h
    cases h
  refine ⟨?_, ?_, ?_, ?_⟩
  · intro radix res hr
    have hval := hvalid radix _ res hr
    obtain ⟨k, h1, h2⟩ := (Timed.costs_ubig_radix (key radix hval)).run (Timed.UBig.fromStrRadix_result cfg s radix) hr
    exact ⟨k, h1, by linarith⟩
  · intro radix res hr
    have hval := hvalid radix _ res hr
    obtain ⟨k, h1, h2⟩ := (Timed.costs_ibig_radix (key radix hval)).run (Timed.IBig.fromStrRadix_result cfg s radix) hr
    exact ⟨k, h1, by linarith⟩
  · intro res hr
    obtain ⟨k, h1, h2⟩ := (Timed.costs_ubig_prefix hB key).run (Timed.UBig.fromStrWithRadixPrefix_result cfg s) hr
    exact ⟨k, h1, by linarith⟩
  · intro res hr
    obtain ⟨k, h1, h2⟩ := (Timed.costs_ibig_prefix hB key).run (Timed.IBig.fromStrWithRadixPrefix_result cfg s) hr
    exact ⟨k, h1, by linarith⟩

/-- A decimal number. -/
example := (C64_total cfg64_valid (s := asciiBytes "-123456789012345678901234567890") (by decide +kernel)
  (by decide +kernel)).2.1 10

example : (Timed.UBig.fromStrRadix cfg64 (List.replicate 400 57) 10).steps = some 1556 := by decide +kernel
example : (Timed.UBig.fromStrRadix cfg64 (List.replicate 400 57) 16).steps = some 1336 := by decide +kernel
example : (Timed.UBig.fromStrWithRadixPrefix cfg16 (asciiBytes "+0xdeadbeef")).steps = some 47 := by decide +kernel
example : (Timed.IBig.fromStrRadix cfg16 (asciiBytes "-123456789012x") 10).steps = some 65 := by decide +kernel

theorem digitsOf_nines (n : ℕ) : digitsOf 10 (List.replicate n 57) = some (List.replicate n 9) := by
  induction n with
  | zero => rfl
  | succ n ih => rw [List.replicate_succ, digitsOf, ih]; rfl

/-- A text of 5000 nines, which is split: numbers of 19 digits fit in a word, so `N = 264`. -/
example : ∃ c k, Timed.UBig.fromStrRadix cfg64 (List.replicate 5000 57) 10 = .ok (.ok c, k) ∧
    (k : ℝ) ≤ 9 * ((List.replicate 5000 57).length : ℕ) + 175 * ((264 : ℕ) : ℝ) ^ (147 / 100 : ℝ) + 14 := by
  have hd : digitsOf 10 (List.replicate 5000 57) = some (List.replicate 5000 9) := digitsOf_nines 5000
  have hp : splitPlus (List.replicate 5000 57) = List.replicate 5000 57 := by rw [List.replicate_succ]; rfl
  have hr := C20_ubig_from_str_radix cfg64_valid (radix := 10) (by norm_num) (by norm_num)
    (s := List.replicate 5000 57) (by rw [List.length_replicate]; decide)
  rw [hp] at hr
  obtain ⟨c, hc, -⟩ := hr.numeral _ (by rw [List.replicate_succ]; exact List.cons_ne_nil _ _)
    ((isNumeral_iff (by norm_num)).mpr hd)
    (by
      refine (digitsValue_lt (r := 10) (digitsOf_lt hd)).trans_le ?_
      rw [List.length_replicate]
      exact le_trans (by decide +kernel : 10 ^ 5000 ≤ 2 ^ 20000) (Nat.pow_le_pow_right (by norm_num) (by decide)))
  obtain ⟨k, h1, h2⟩ := (C64_from_str_radix cfg64_valid (radix := 10) (by norm_num) (by norm_num)
    (s := List.replicate 5000 57) (by rw [List.length_replicate]; decide) (d := 19) (N := 264)
    (by norm_num [cfg64]) (by rw [List.length_replicate]; norm_num)).1 _ hc
  exact ⟨c, k, h1, h2⟩

end Ibig
