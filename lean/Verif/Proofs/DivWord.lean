import Verif.Proofs.Shift
import Verif.Proofs.FastDivide
import Verif.Model.DivWord
namespace Ibig

theorem fastDivLoop_spec {W d : Nat} {fd : FastDivideNormalized} (hfd : fd.Valid W d)
    {l : List Nat} {rem : Nat} (hl : IsWords W l) (hr : rem < d) :
    Returns (fastDivLoop W fd l rem) fun p => p.1.length = l.length ∧ IsWords W p.1 ∧ p.2 < d ∧
      val W p.1 * d + p.2 = val W l + rem * base W ^ l.length := by
  induction l with
  | nil => simp [fastDivLoop, hr]
  | cons w ws ih =>
    simp only [isWords_cons] at hl
    unfold fastDivLoop
    refine Returns.bind (ih hl.2) ?_
    rintro ⟨qs, r⟩ ⟨h1, h2, h3, h4⟩
    simp only at h1 h2 h3 h4
    have hdpos : 0 < d := by omega
    have hB := base_pos W
    have hlt : doubleWord W w r < d * base W := by
      unfold doubleWord
      have : base W * (r + 1) ≤ base W * d := Nat.mul_le_mul_left _ h3
      rw [Nat.mul_add] at this
      rw [Nat.mul_comm d]
      omega
    simp only
    rw [FastDivideNormalized.divRem_spec hfd hlt]
    refine Returns.bind (P := fun p => p = (doubleWord W w r / d, doubleWord W w r % d)) (by simp) ?_
    rintro _ rfl
    simp only [returns_ok]
    refine ⟨by simp [h1], ?_, Nat.mod_lt _ hdpos, ?_⟩
    · rw [isWords_cons]
      refine ⟨?_, h2⟩
      rw [Nat.div_lt_iff_lt_mul hdpos, Nat.mul_comm]; exact hlt
    · have hdm := Nat.div_add_mod (doubleWord W w r) d
      simp only [val_cons, List.length_cons, pow_succ]
      generalize doubleWord W w r / d = q at *
      generalize doubleWord W w r % d = r2 at *
      unfold doubleWord at hdm
      zify at *
      linear_combination hdm + (base W : Int) * h4

/-- normalizing a non-zero divisor word -/
theorem normalize_word {W d : Nat} (_hW : 1 ≤ W) (hd0 : d ≠ 0) (hd : d < base W) :
    leadingZeros W d < W ∧ d * 2 ^ leadingZeros W d < base W ∧
      base W ≤ 2 * (d * 2 ^ leadingZeros W d) := by
  have h1 := bitLen_le_iff.mpr hd
  have h2 := lt_two_pow_bitLen d
  have h3 := two_pow_le_of_bitLen hd0
  have h4 := bitLen_pos hd0
  have e : leadingZeros W d = W - bitLen d := rfl
  rw [e]
  have p : 0 < 2 ^ (W - bitLen d) := Nat.two_pow_pos _
  refine ⟨by omega, ?_, ?_⟩
  · calc d * 2 ^ (W - bitLen d) < 2 ^ bitLen d * 2 ^ (W - bitLen d) := Nat.mul_lt_mul_of_pos_right h2 p
      _ = base W := by rw [← pow_add]; unfold base; congr 1; omega
  · calc base W = 2 * (2 ^ (bitLen d - 1) * 2 ^ (W - bitLen d)) := by
          rw [← pow_add, ← pow_succ']; unfold base; congr 1; omega
      _ ≤ _ := Nat.mul_le_mul_left _ (Nat.mul_le_mul_right _ h3)

theorem fastDivByWord_spec {W d : Nat} {fd : FastDivideNormalized} (hW : 1 ≤ W) (hd0 : d ≠ 0)
    (hd : d < base W) (hfd : fd.Valid W (d * 2 ^ leadingZeros W d)) {l : List Nat} (hl : IsWords W l) :
    Returns (fastDivByWord W l d fd) fun p => p.1.length = l.length ∧ IsWords W p.1 ∧ p.2 < d ∧
      val W p.1 * d + p.2 = val W l := by
  obtain ⟨n1, n2, n3⟩ := normalize_word hW hd0 hd
  unfold fastDivByWord
  refine Returns.bind (shlInPlace_spec n1 hl) ?_
  rintro ⟨ws, rem⟩ ⟨h1, h2, h3, h4⟩
  simp only at h1 h2 h3 h4 ⊢
  set s := leadingZeros W d
  have hp : 0 < 2 ^ s := Nat.two_pow_pos s
  have hrem : rem < d * 2 ^ s := by
    have : 2 ^ s ≤ d * 2 ^ s := Nat.le_mul_of_pos_left _ (by omega)
    omega
  refine Returns.bind (fastDivLoop_spec hfd h2 hrem) ?_
  rintro ⟨qs, r⟩ ⟨g1, g2, g3, g4⟩
  simp only at g1 g2 g3 g4 ⊢
  simp only [returns_ok]
  rw [h1, h4] at g4
  -- the remainder is a multiple of 2^s
  have hdvd : 2 ^ s ∣ r := by
    have e : 2 ^ s ∣ val W qs * (d * 2 ^ s) + r := ⟨val W l, by rw [g4]; ring⟩
    exact (Nat.dvd_add_right ⟨val W qs * d, by ring⟩).mp e
  obtain ⟨r', rfl⟩ := hdvd
  rw [Nat.mul_div_cancel_left _ hp]
  refine ⟨g1.trans h1, g2, ?_, ?_⟩
  · rw [Nat.mul_comm] at g3
    exact Nat.lt_of_mul_lt_mul_right g3
  · have : (val W qs * d + r') * 2 ^ s = val W l * 2 ^ s := by rw [← g4]; ring
    exact Nat.eq_of_mul_eq_mul_right hp this

theorem trailingZerosAux_two_pow {W k : Nat} (h : k < W) : trailingZerosAux W (2 ^ k) = k := by
  induction k generalizing W with
  | zero => cases W with
    | zero => omega
    | succ W => simp [trailingZerosAux]
  | succ k ih => cases W with
    | zero => omega
    | succ W =>
      unfold trailingZerosAux
      have : ¬ 2 ^ (k + 1) % 2 = 1 := by rw [pow_succ]; omega
      rw [if_neg this, pow_succ, Nat.mul_div_cancel _ (by norm_num), ih (by omega)]
      omega

theorem isPow2Word_iff {W x : Nat} (hx : x < base W) :
    isPow2Word x = true ↔ ∃ k, k < W ∧ x = 2 ^ k := by
  unfold isPow2Word
  simp only [decide_eq_true_eq]
  constructor
  · rintro ⟨h0, h⟩
    refine ⟨Nat.log2 x, ?_, h.symm⟩
    rw [← h] at hx
    exact (Nat.pow_lt_pow_iff_right (by norm_num)).mp hx
  · rintro ⟨k, _, rfl⟩
    exact ⟨(Nat.two_pow_pos k).ne', by rw [Nat.log2_two_pow]⟩

theorem divByWord_spec {W d : Nat} (hW : 1 ≤ W) (hd0 : d ≠ 0) (hd : d < base W) {l : List Nat}
    (hl : IsWords W l) :
    Returns (divByWord W l d) fun p => p.1.length = l.length ∧ IsWords W p.1 ∧ p.2 < d ∧
      val W p.1 * d + p.2 = val W l := by
  unfold divByWord
  refine Returns.bind (returns_assertR hd0) fun _ _ => ?_
  split
  · rename_i h; subst h
    simp; omega
  split
  · rename_i h
    obtain ⟨k, hk, rfl⟩ := (isPow2Word_iff hd).mp h
    rw [trailingZerosAux_two_pow hk]
    exact shrInPlace_spec hk hl
  · obtain ⟨n1, n2, n3⟩ := normalize_word hW hd0 hd
    refine Returns.bind (FastDivideNormalized.new_spec hW n2 n3) ?_
    intro fd hfd
    exact fastDivByWord_spec hW hd0 hd hfd hl

theorem val_getLast (W : Nat) {l : List Nat} (h : l ≠ []) :
    val W l = val W l.dropLast + base W ^ (l.length - 1) * l.getLast h := by
  conv_lhs => rw [← List.dropLast_append_getLast h]
  rw [val_append, List.length_dropLast]; simp

theorem fastRemLoop_spec {W d : Nat} {fd : FastDivideNormalized} (hfd : fd.Valid W d)
    {l : List Nat} {rem : Nat} (hl : IsWords W l) (hr : rem < d) :
    Returns (fastRemLoop W fd l rem) fun p => p < d ∧
      ∃ q, q * d + p = val W l + rem * base W ^ l.length := by
  induction l with
  | nil => simp only [fastRemLoop, returns_ok]; exact ⟨hr, 0, by simp⟩
  | cons w ws ih =>
    simp only [isWords_cons] at hl
    unfold fastRemLoop
    refine Returns.bind (ih hl.2) ?_
    rintro r ⟨h3, q, h4⟩
    have hdpos : 0 < d := by omega
    have hlt : doubleWord W w r < d * base W := by
      unfold doubleWord
      have : base W * (r + 1) ≤ base W * d := Nat.mul_le_mul_left _ h3
      rw [Nat.mul_add] at this
      rw [Nat.mul_comm d]
      omega
    rw [FastDivideNormalized.divRem_spec hfd hlt]
    refine Returns.bind (P := fun p => p = (doubleWord W w r / d, doubleWord W w r % d)) (by simp) ?_
    rintro _ rfl
    simp only [returns_ok]
    refine ⟨Nat.mod_lt _ hdpos, q * base W + doubleWord W w r / d, ?_⟩
    have hdm := Nat.div_add_mod (doubleWord W w r) d
    simp only [val_cons, List.length_cons, pow_succ]
    generalize doubleWord W w r / d = q at *
    generalize doubleWord W w r % d = r2 at *
    unfold doubleWord at hdm
    zify at *
    linear_combination hdm + (base W : Int) * h4

theorem fastRemByNormalizedWord_spec {W d : Nat} {fd : FastDivideNormalized} (hfd : fd.Valid W d)
    {l : List Nat} (hl : IsWords W l) :
    Returns (fastRemByNormalizedWord W l fd) fun p => p = val W l % d := by
  have hdpos : 0 < d := by obtain ⟨_, h2, h3, _⟩ := hfd; omega
  unfold fastRemByNormalizedWord
  by_cases h : l = []
  · subst h; simp
  · rw [List.getLast?_eq_some_getLast h]
    simp only
    have hlast : l.getLast h < base W := hl _ (List.getLast_mem h)
    rw [FastDivideNormalized.divRemWord_spec hfd hlast]
    have hdl : IsWords W l.dropLast := fun x hx => hl x (List.dropLast_subset l hx)
    refine (fastRemLoop_spec hfd hdl (Nat.mod_lt (l.getLast h) hdpos)).mono ?_
    rintro r ⟨h1, q, h2⟩
    have hdm := Nat.div_add_mod (l.getLast h) d
    rw [val_getLast W h]
    rw [List.length_dropLast] at h2
    have e : val W l.dropLast + base W ^ (l.length - 1) * l.getLast h
      = r + d * (q + base W ^ (l.length - 1) * (l.getLast h / d)) := by
      generalize l.getLast h / d = q' at *
      generalize l.getLast h % d = r' at *
      rw [← hdm]
      zify at *
      linear_combination -h2
    rw [e, Nat.add_mul_mod_self_left, Nat.mod_eq_of_lt h1]

theorem remByWord_spec {W d : Nat} (hW : 1 ≤ W) (hd0 : d ≠ 0) (hd : d < base W) {l : List Nat}
    (hl : IsWords W l) : Returns (remByWord W l d) fun r => r = val W l % d := by
  unfold remByWord
  refine Returns.bind (returns_assertR hd0) fun _ _ => ?_
  cases l with
  | nil => simp
  | cons w ws =>
    simp only
    split
    · rename_i h
      obtain ⟨k, hk, rfl⟩ := (isPow2Word_iff hd).mp h
      simp only [returns_ok]
      rw [Nat.and_two_pow_sub_one_eq_mod, val_cons, base_split hk.le, Nat.mul_assoc,
        Nat.add_mul_mod_self_left]
    · obtain ⟨n1, n2, n3⟩ := normalize_word hW hd0 hd
      refine Returns.bind (FastDivideNormalized.new_spec hW n2 n3) ?_
      intro fd hfd
      refine Returns.bind (fastRemByNormalizedWord_spec hfd hl) ?_
      rintro _ rfl
      set s := leadingZeros W d
      have hp : 0 < 2 ^ s := Nat.two_pow_pos s
      have hsB : 2 ^ s ≤ base W := Nat.pow_le_pow_right (by norm_num) n1.le
      have hpos : 0 < d * 2 ^ s := Nat.mul_pos (by omega) hp
      have hlt : val W (w :: ws) % (d * 2 ^ s) * 2 ^ s < d * 2 ^ s * base W :=
        calc _ < d * 2 ^ s * 2 ^ s := Nat.mul_lt_mul_of_pos_right (Nat.mod_lt _ hpos) hp
          _ ≤ _ := Nat.mul_le_mul_left _ hsB
      rw [FastDivideNormalized.divRem_spec hfd hlt]
      refine Returns.bind (P := fun p => p = _) (by simp; rfl) ?_
      rintro _ rfl
      simp only [returns_ok]
      rw [Nat.mul_mod_mul_right, Nat.mul_div_cancel _ hp]; rfl

end Ibig
