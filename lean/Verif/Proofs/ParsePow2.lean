import Verif.Proofs.Radix
import Verif.Proofs.ExtGcd
/-! Parsing in a power-of-two radix. -/
namespace Ibig

/-- Outcome of a parsing step that cannot run out of space: the value satisfies `P` if all characters are
digits, otherwise `InvalidDigit`. -/
def PGood {α β : Type} (x : R (PRes α)) (o : Option β) (P : α → β → Prop) : Prop :=
  match o with
  | some v => ∃ a, x = .ok (.ok a) ∧ P a v
  | none => x = .ok (.error .invalidDigit)

theorem digitFromByte_lt {c r d : Nat} (h : digitFromByte c r = some d) : d < r := by
  unfold digitFromByte at h
  split at h
  · split at h
    · cases h; assumption
    · cases h
  · cases h

/-- One more digit in front of the loop. -/
theorem pgood_cons {α β : Type} {r c : Nat} {l : List Nat} {k : Nat → R (PRes α)} {o : Option β}
    {P : α → β → Prop}
    (hnone : digitFromByte c r = none → o = none)
    (hsome : ∀ d, digitFromByte c r = some d → d < r → PGood (k d) o P) :
    PGood (tryP (digitP c r) k) o P := by
  unfold digitP
  cases hd : digitFromByte c r with
  | none => rw [hnone hd]; rfl
  | some d => exact hsome d hd (digitFromByte_lt hd)

theorem pgood_digits {α : Type} {r c d : Nat} {l : List Nat} {x : R (PRes α)} {P Q : α → List Nat → Prop}
    (hd : digitFromByte c r = some d) (hx : PGood x (digitsOf r l) P) (h : ∀ a ds, digitsOf r l = some ds →
      P a ds → Q a (d :: ds)) : PGood x (digitsOf r (c :: l)) Q := by
  unfold digitsOf
  rw [hd]
  cases hl : digitsOf r l with
  | none => rw [hl] at hx; exact hx
  | some ds =>
    rw [hl] at hx
    obtain ⟨a, h1, h2⟩ := hx
    exact ⟨a, h1, h a ds hl h2⟩

theorem digitsOf_cons_none {r c : Nat} {l : List Nat} (h : digitFromByte c r = none) :
    digitsOf r (c :: l) = none := by
  unfold digitsOf; rw [h]

theorem PGood.bindR {α β γ : Type} {x : R γ} {f : γ → R (PRes α)} {o : Option β} {P : α → β → Prop}
    {Q : γ → Prop} (hx : Returns x Q) (hf : ∀ a, Q a → PGood (f a) o P) : PGood (x >>= f) o P := by
  obtain ⟨a, rfl, ha⟩ := hx
  exact hf a ha

theorem digitsOf_reverse (r : Nat) (l : List Nat) :
    digitsOf r l.reverse = (digitsOf r l).map List.reverse := by
  induction l with
  | nil => rfl
  | cons c l ih =>
    rw [List.reverse_cons, digitsOf_append, ih]
    simp only [digitsOf]
    cases digitFromByte c r <;> cases digitsOf r l <;> simp

theorem shl_or {W w d b k : Nat} (hw : w < 2 ^ b) (hd : d < 2 ^ k) (hb : b + k ≤ W) :
    (w ||| d * 2 ^ b % base W) = w + d * 2 ^ b ∧ w + d * 2 ^ b < 2 ^ (b + k) := by
  have h1 : d * 2 ^ b + 2 ^ b ≤ 2 ^ (b + k) := by
    rw [pow_add]
    calc d * 2 ^ b + 2 ^ b = (d + 1) * 2 ^ b := by ring
      _ ≤ 2 ^ k * 2 ^ b := Nat.mul_le_mul_right _ hd
      _ = _ := by ring
  have h2 : d * 2 ^ b < base W := by
    have := Nat.two_pow_pos b
    have h3 : 2 ^ (b + k) ≤ base W := base_ge hb
    omega
  rw [Nat.mod_eq_of_lt h2, Nat.or_comm, Nat.mul_comm d]
  rw [mul_pow_or hw]
  constructor
  · ring
  · rw [Nat.mul_comm d] at h1; omega

theorem pow2WordLoop_spec {W r : Nat} (hW : W ≤ 64) (hr : r = 2 ^ logRadix r) (hl1 : 1 ≤ logRadix r)
    (l : List Nat) (word bits : Nat)
    (hw : word < 2 ^ bits) (hb : bits + l.length * logRadix r ≤ W) :
    PGood (pow2WordLoop W r l word bits) (digitsOf r l) fun w ds =>
      w = word + 2 ^ bits * digitsValue r ds.reverse ∧ w < 2 ^ (bits + l.length * logRadix r) := by
  induction l generalizing word bits with
  | nil =>
    refine ⟨word, rfl, ?_⟩
    simp only [List.reverse_nil, digitsValue_nil, Nat.mul_zero, Nat.add_zero, List.length_nil, Nat.zero_mul]
    exact ⟨trivial, hw⟩
  | cons c l ih =>
    unfold pow2WordLoop
    simp only [List.length_cons, Nat.add_mul, Nat.one_mul] at hb ⊢
    refine pgood_cons (l := l) (fun h => digitsOf_cons_none h) ?_
    intro d hd hdr
    rw [show shlW W d bits = .ok (d * 2 ^ bits % base W) from by unfold shlW; rw [if_pos (by omega)]]
    refine PGood.bindR (Q := fun x => x = d * 2 ^ bits % base W) (returns_ok.mpr rfl) ?_
    rintro _ rfl
    rw [ckAdd_ok (by norm_num; omega)]
    refine PGood.bindR (Q := fun x => x = bits + logRadix r) (returns_ok.mpr rfl) ?_
    rintro _ rfl
    obtain ⟨e1, e2⟩ := shl_or (W := W) (k := logRadix r) hw (by rw [← hr]; exact hdr) (by omega)
    rw [e1]
    refine pgood_digits hd (ih _ _ e2 (by omega)) ?_
    rintro w ds hds ⟨h1, h2⟩
    refine ⟨?_, by rw [show bits + (l.length * logRadix r + logRadix r) = bits + logRadix r +
      l.length * logRadix r from by ring]; exact h2⟩
    rw [h1, List.reverse_cons, digitsValue_append, List.length_singleton, pow_one, digitsValue_cons,
      digitsValue_nil, List.length_nil, pow_add, ← hr]
    ring

theorem pow2Step_spec {cfg : Cfg} (hv : cfg.Valid) {r : Nat} (hr : r = 2 ^ logRadix r) (hl1 : 1 ≤ logRadix r)
    (hl5 : logRadix r ≤ 5) {d : Nat} (hd : d < r) {b : Buffer} {word bits : Nat} (hb : b.OK cfg)
    (hw : word < 2 ^ bits) (hbits : bits < cfg.W)
    (hroom : b.words.length * cfg.W + bits + logRadix r ≤ b.cap * cfg.W) :
    Returns (pow2Step cfg.W r d (b, word, bits)) fun s => s.1.OK cfg ∧ s.1.cap = b.cap ∧
      val cfg.W s.1.words + base cfg.W ^ s.1.words.length * s.2.1 =
        val cfg.W b.words + base cfg.W ^ b.words.length * (word + d * 2 ^ bits) ∧
      s.2.1 < 2 ^ s.2.2 ∧ s.2.2 < cfg.W ∧
      s.1.words.length * cfg.W + s.2.2 = b.words.length * cfg.W + bits + logRadix r := by
  have hW := hv.W16
  have hW64 := hv.W64
  have hd2 : d < 2 ^ logRadix r := by rw [← hr]; exact hd
  unfold pow2Step
  simp only
  rw [show shlW cfg.W d bits = .ok (d * 2 ^ bits % base cfg.W) from by unfold shlW; rw [if_pos hbits]]
  refine Returns.bind (P := fun x => x = d * 2 ^ bits % base cfg.W) (returns_ok.mpr rfl) ?_
  rintro _ rfl
  rw [ckAdd_ok (by norm_num; omega)]
  refine Returns.bind (P := fun x => x = bits + logRadix r) (returns_ok.mpr rfl) ?_
  rintro _ rfl
  split
  · rename_i hge
    have hsplit : base cfg.W = 2 ^ bits * 2 ^ (cfg.W - bits) := by
      rw [base_eq, ← pow_add]; congr 1; omega
    have hlow : d * 2 ^ bits % base cfg.W = 2 ^ bits * (d % 2 ^ (cfg.W - bits)) := by
      rw [hsplit, Nat.mul_comm d, Nat.mul_mod_mul_left]
    have hor : (word ||| d * 2 ^ bits % base cfg.W) = word + 2 ^ bits * (d % 2 ^ (cfg.W - bits)) := by
      rw [hlow, Nat.or_comm, mul_pow_or hw, Nat.add_comm]
    have hlt : word + 2 ^ bits * (d % 2 ^ (cfg.W - bits)) < base cfg.W := by
      have h1 := Nat.mod_lt d (Nat.two_pow_pos (cfg.W - bits))
      rw [hsplit]
      calc word + 2 ^ bits * (d % 2 ^ (cfg.W - bits)) < 2 ^ bits + 2 ^ bits * (d % 2 ^ (cfg.W - bits)) := by omega
        _ = 2 ^ bits * (d % 2 ^ (cfg.W - bits) + 1) := by ring
        _ ≤ _ := Nat.mul_le_mul_left _ h1
    rw [hor]
    have hlen : b.words.length < b.cap := by
      by_contra hcon
      have : b.cap * cfg.W ≤ b.words.length * cfg.W := Nat.mul_le_mul_right _ (by omega)
      omega
    refine Returns.bind (Buffer.push_spec hb hlt hlen) ?_
    rintro c ⟨c1, c2, c3⟩
    rw [ckSub_ok (by omega)]
    refine Returns.bind (P := fun x => x = cfg.W - bits) (returns_ok.mpr rfl) ?_
    rintro _ rfl
    rw [show shrW cfg.W d (cfg.W - bits) = .ok (d / 2 ^ (cfg.W - bits)) from by
      unfold shrW; rw [if_pos (by omega)]]
    refine Returns.bind (P := fun x => x = d / 2 ^ (cfg.W - bits)) (returns_ok.mpr rfl) ?_
    rintro _ rfl
    rw [returns_ok]
    simp only
    refine ⟨c1, c3, ?_, ?_, by omega, ?_⟩
    · rw [c2, val_append, List.length_append, List.length_singleton, val_cons, val_nil, pow_succ]
      have hdm := Nat.div_add_mod d (2 ^ (cfg.W - bits))
      have : word + d * 2 ^ bits = (word + 2 ^ bits * (d % 2 ^ (cfg.W - bits))) +
          base cfg.W * (d / 2 ^ (cfg.W - bits)) := by
        rw [hsplit]
        conv_lhs => rw [← hdm]
        ring
      rw [this]
      ring
    · rw [Nat.div_lt_iff_lt_mul (Nat.two_pow_pos _), ← pow_add]
      refine lt_of_lt_of_le hd2 (Nat.pow_le_pow_right (by norm_num) (by omega))
    · rw [c2, List.length_append, List.length_singleton, Nat.add_mul]
      omega
  · rename_i hlt
    obtain ⟨e1, e2⟩ := shl_or (W := cfg.W) (k := logRadix r) hw hd2 (by omega)
    rw [returns_ok]
    simp only
    rw [e1]
    exact ⟨hb, trivial, rfl, e2, by omega, by omega⟩

theorem pow2LargeLoop_spec {cfg : Cfg} (hv : cfg.Valid) {r : Nat} (hr : r = 2 ^ logRadix r)
    (hl1 : 1 ≤ logRadix r) (hl5 : logRadix r ≤ 5) (l : List Nat) {b : Buffer} {word bits : Nat}
    (hb : b.OK cfg) (hw : word < 2 ^ bits) (hbits : bits < cfg.W)
    (hroom : b.words.length * cfg.W + bits + l.length * logRadix r ≤ b.cap * cfg.W) :
    PGood (pow2LargeLoop cfg.W r l (b, word, bits)) (digitsOf r l) fun s ds => s.1.OK cfg ∧ s.1.cap = b.cap ∧
      val cfg.W s.1.words + base cfg.W ^ s.1.words.length * s.2.1 =
        val cfg.W b.words + base cfg.W ^ b.words.length * (word + 2 ^ bits * digitsValue r ds.reverse) ∧
      s.2.1 < 2 ^ s.2.2 ∧ s.2.2 < cfg.W ∧
      s.1.words.length * cfg.W + s.2.2 = b.words.length * cfg.W + bits + l.length * logRadix r := by
  induction l generalizing b word bits with
  | nil =>
    refine ⟨(b, word, bits), rfl, hb, rfl, ?_, hw, hbits, ?_⟩
    · simp
    · simp
  | cons c l ih =>
    unfold pow2LargeLoop
    simp only [List.length_cons, Nat.add_mul, Nat.one_mul] at hroom ⊢
    refine pgood_cons (l := l) (fun h => digitsOf_cons_none h) ?_
    intro d hd hdr
    refine PGood.bindR (pow2Step_spec hv hr hl1 hl5 hdr hb hw hbits (by omega)) ?_
    rintro ⟨b', word', bits'⟩ ⟨s1, s2, s3, s4, s5, s6⟩
    simp only at s1 s2 s3 s4 s5 s6
    refine pgood_digits hd (ih s1 s4 s5 (by rw [s2]; omega)) ?_
    rintro ⟨b2, word2, bits2⟩ ds hds ⟨t1, t2, t3, t4, t5, t6⟩
    simp only at t1 t2 t3 t4 t5 t6 ⊢
    refine ⟨t1, by rw [t2, s2], ?_, t4, t5, by omega⟩
    rw [t3, List.reverse_cons, digitsValue_append, List.length_singleton, pow_one, digitsValue_cons,
      digitsValue_nil, List.length_nil]
    have hp : base cfg.W ^ b'.words.length * 2 ^ bits' = base cfg.W ^ b.words.length * 2 ^ bits * r := by
      conv_rhs => rw [hr]
      rw [base_eq, ← pow_mul, ← pow_mul, ← pow_add, ← pow_add, ← pow_add]
      congr 1
      rw [Nat.mul_comm cfg.W, Nat.mul_comm cfg.W]
      exact s6
    calc val cfg.W b'.words + base cfg.W ^ b'.words.length * (word' + 2 ^ bits' * digitsValue r ds.reverse)
        = (val cfg.W b'.words + base cfg.W ^ b'.words.length * word') +
          (base cfg.W ^ b'.words.length * 2 ^ bits') * digitsValue r ds.reverse := by ring
      _ = _ := by rw [s3, hp]; ring

/-- As `Yields`, for a computation that may return a parse error. -/
def PYields (cfg : Cfg) (x : R (PRes UBig)) (n : Nat) : Prop :=
  (Fits cfg n → ∃ c, x = .ok (.ok c) ∧ c.WF cfg ∧ c.value cfg = n) ∧ (¬Fits cfg n → x = .error .tooLarge)

theorem Yields.okP {cfg : Cfg} {x : R UBig} {n : Nat} (h : Yields cfg x n) : PYields cfg (okP x) n := by
  constructor
  · intro hf
    obtain ⟨c, rfl, h1, h2⟩ := h.1 hf
    exact ⟨c, rfl, h1, h2⟩
  · intro hf
    rw [h.2 hf]; rfl

/-- The outcome of parsing the digits `t`. -/
def PSpec (cfg : Cfg) (r : Nat) (t : List Nat) (x : R (PRes UBig)) : Prop :=
  match digitsOf r t with
  | some ds => PYields cfg x (digitsValue r ds)
  | none => x = .ok (.error .invalidDigit) ∨ (x = .error .tooLarge ∧ ¬Fits cfg (r ^ t.length))

theorem PSpec.bindR {γ : Type} {cfg : Cfg} {r : Nat} {t : List Nat} {x : R γ} {f : γ → R (PRes UBig)}
    {Q : γ → Prop} (hx : Returns x Q) (hf : ∀ a, Q a → PSpec cfg r t (f a)) : PSpec cfg r t (x >>= f) := by
  obtain ⟨a, rfl, ha⟩ := hx
  exact hf a ha

theorem PGood.pspec {γ : Type} {cfg : Cfg} {r : Nat} {t : List Nat} {x : R (PRes γ)} {f : γ → R (PRes UBig)}
    {P : γ → List Nat → Prop} (hx : PGood x (digitsOf r t) P)
    (hf : ∀ a ds, digitsOf r t = some ds → P a ds → PYields cfg (f a) (digitsValue r ds)) :
    PSpec cfg r t (tryP x f) := by
  unfold PSpec
  cases ht : digitsOf r t with
  | none => rw [ht] at hx; rw [show x = _ from hx]; exact Or.inl rfl
  | some ds =>
    rw [ht] at hx
    obtain ⟨a, rfl, h⟩ := hx
    exact hf a ds ht h

theorem digitFromByte_zero {c r : Nat} (h : digitFromByte c r = some 0) : c = 48 := by
  unfold digitFromByte digitByteValue at h
  split_ifs at h <;> simp at h <;> omega

/-- A text without leading zero digits and too long for the limit is reported as too large. -/
theorem pspec_tooLarge {cfg : Cfg} {r : Nat} (hr : 1 ≤ r) {t : List Nat} (ht : t ≠ []) (h0 : t.head? ≠ some 48)
    (hf : ¬Fits cfg (r ^ (t.length - 1))) : PSpec cfg r t (.error .tooLarge) := by
  cases t with
  | nil => exact absurd rfl ht
  | cons c t =>
    simp only [List.length_cons, Nat.add_sub_cancel] at hf
    unfold PSpec
    cases hd : digitsOf r (c :: t) with
    | none =>
      refine Or.inr ⟨rfl, fun h => hf (h.mono ?_)⟩
      exact Nat.pow_le_pow_right hr (by simp)
    | some ds =>
      have hl := digitsOf_length hd
      unfold digitsOf at hd
      split at hd
      · rename_i d ds' h1 h2
        cases hd
        have hne : d ≠ 0 := by
          rintro rfl
          exact h0 (by simp [digitFromByte_zero h1])
        simp only [List.length_cons, Nat.add_right_cancel_iff] at hl
        have := digitsValue_ge (r := r) (ds := ds') hne
        rw [hl] at this
        exact ⟨fun h => absurd (h.mono this) hf, fun _ => rfl⟩
      · cases hd

theorem pow2Finish_spec {cfg : Cfg} (hv : cfg.Valid) {b : Buffer} {word bits : Nat} (hb : b.OK cfg)
    (hw : word < 2 ^ bits) (hbits : bits < cfg.W) (hroom : b.words.length * cfg.W + bits ≤ b.cap * cfg.W) :
    Yields cfg (pow2Finish cfg (b, word, bits)) (val cfg.W b.words + base cfg.W ^ b.words.length * word) := by
  unfold pow2Finish
  simp only
  split
  · have hlen : b.words.length < b.cap := by
      by_contra hcon
      have : b.cap * cfg.W ≤ b.words.length * cfg.W := Nat.mul_le_mul_right _ (by omega)
      omega
    have hwB : word < base cfg.W := lt_of_lt_of_le hw (base_ge (by omega))
    refine Yields.of_bind (Buffer.push_spec hb hwB hlen) ?_
    rintro c ⟨c1, c2, -⟩
    refine yields_ofBuffer hv c1 ?_
    rw [c2, val_append]; simp
  · have hb0 : bits = 0 := by omega
    subst hb0
    have hw0 : word = 0 := by simpa using hw
    subst hw0
    exact yields_ofBuffer hv hb (by simp)

theorem Cfg.Valid.maxBits_le {cfg : Cfg} (hv : cfg.Valid) : cfg.maxLen * cfg.W + 2 * cfg.W ≤ 2 ^ cfg.U := by
  have h1 := hv.bits
  have h2 := hv.even
  rcases hv.word with h | h | h <;> rcases hv.usize with h' | h' | h' <;> rw [h, h'] at h1 ⊢ <;>
    norm_num at h1 ⊢ <;> omega

theorem pow2ParseLarge_spec {cfg : Cfg} (hv : cfg.Valid) {r : Nat} (hval : isRadixValid r = true)
    (h2 : isRadixPow2 r = true) {t : List Nat} (ht : t ≠ []) (h0 : t.head? ≠ some 48) :
    PSpec cfg r t (pow2ParseLarge cfg r t) := by
  obtain ⟨hr, hl1, hl5⟩ : r = 2 ^ logRadix r ∧ 1 ≤ logRadix r ∧ logRadix r ≤ 5 := by
    rcases radix_cases hval with h | h
    · exact h.2
    · rw [h.1] at h2; cases h2
  have hr1 : 1 ≤ r := by have := (isRadixValid_iff.mp hval).1; omega
  have hW := hv.W16
  have hlen : 1 ≤ t.length := List.length_pos_of_ne_nil ht
  have hfit : cfg.maxLen * cfg.W ≤ (t.length - 1) * logRadix r → ¬Fits cfg (r ^ (t.length - 1)) := by
    intro h hf
    unfold Fits at hf
    rw [hr, ← pow_mul] at hf
    have := (Nat.pow_lt_pow_iff_right (by norm_num : 1 < 2)).mp hf
    rw [Nat.mul_comm] at this
    omega
  have hsub : (t.length - 1) * logRadix r + logRadix r = t.length * logRadix r := by
    rw [← Nat.succ_mul]; congr 1; omega
  unfold pow2ParseLarge
  refine PSpec.bindR (returns_assertR ⟨hval, h2⟩) ?_
  rintro _ -
  split
  · rename_i hbig
    refine pspec_tooLarge hr1 ht h0 (hfit ?_)
    have := hv.maxBits_le
    omega
  · rename_i hsmall
    rw [ckSub_ok (by omega)]
    refine PSpec.bindR (Q := fun x => x = t.length * logRadix r - 1) (returns_ok.mpr rfl) ?_
    rintro _ rfl
    set n := t.length * logRadix r with hn
    have hdm := Nat.div_add_mod (n - 1) cfg.W
    have hmod := Nat.mod_lt (n - 1) (by omega : 0 < cfg.W)
    rw [Nat.mul_comm] at hdm
    generalize (n - 1) / cfg.W = m at *
    by_cases halloc : m + 1 ≤ cfg.maxLen + 4
    · rw [Buffer.allocate_ok halloc]
      refine PSpec.bindR (Q := fun x => x = ⟨[], allocCap cfg (m + 1)⟩) (returns_ok.mpr rfl) ?_
      rintro b hb
      have hbok : b.OK cfg := by rw [hb]; exact ⟨by simp, by simp⟩
      have hbw : b.words = [] := by rw [hb]
      have hcap : m + 1 ≤ b.cap := by rw [hb]; exact le_allocCap halloc
      have hcapW : (m + 1) * cfg.W ≤ b.cap * cfg.W := Nat.mul_le_mul_right _ hcap
      rw [Nat.add_mul, Nat.one_mul] at hcapW
      have loop := pow2LargeLoop_spec hv hr hl1 hl5 t.reverse (word := 0) (bits := 0) hbok (by simp) (by omega)
        (by rw [hbw, List.length_reverse, ← hn]; simp only [List.length_nil, Nat.zero_mul]; omega)
      rw [digitsOf_reverse] at loop
      unfold PSpec
      cases hds : digitsOf r t with
      | none =>
        rw [hds] at loop
        have loop : pow2LargeLoop cfg.W r t.reverse (b, 0, 0) = .ok (.error .invalidDigit) := loop
        rw [loop]; exact Or.inl rfl
      | some ds =>
        rw [hds] at loop
        obtain ⟨⟨b', word', bits'⟩, e, s1, s2, s3, s4, s5, s6⟩ := loop
        simp only at s1 s2 s3 s4 s5 s6
        rw [e]
        show PYields cfg (okP (pow2Finish cfg (b', word', bits'))) _
        rw [List.length_reverse, hbw, ← hn, List.length_nil, Nat.zero_mul] at s6
        have fin := pow2Finish_spec hv s1 s4 s5 (by rw [s2]; omega)
        rw [s3, hbw] at fin
        simp only [val_nil, List.length_nil, pow_zero, Nat.one_mul, Nat.zero_add, List.reverse_reverse] at fin
        exact fin.okP
    · rw [Buffer.allocate_err (by omega)]
      refine pspec_tooLarge hr1 ht h0 (hfit ?_)
      have : (cfg.maxLen + 4) * cfg.W ≤ m * cfg.W := Nat.mul_le_mul_right _ (by omega)
      rw [Nat.add_mul] at this
      omega

theorem pow2ParseWord_spec {W r : Nat} (hW : 16 ≤ W) (hW64 : W ≤ 64) (hval : isRadixValid r = true)
    (h2 : isRadixPow2 r = true) {t : List Nat} (ht : t.length ≤ W / logRadix r) :
    PGood (pow2ParseWord W r t) (digitsOf r t) fun w ds => w = digitsValue r ds ∧ w < base W := by
  obtain ⟨hr, hl1, hl5⟩ : r = 2 ^ logRadix r ∧ 1 ≤ logRadix r ∧ logRadix r ≤ 5 := by
    rcases radix_cases hval with h | h
    · exact h.2
    · rw [h.1] at h2; cases h2
  unfold pow2ParseWord
  refine PGood.bindR (returns_assertR ⟨hval, h2⟩) ?_
  rintro _ -
  refine PGood.bindR (radixInfo_pow2 hW hval h2) ?_
  intro info hi
  refine PGood.bindR (returns_assertR (by rw [hi.digits]; exact ht)) ?_
  rintro _ -
  have hle : t.length * logRadix r ≤ W := by
    calc t.length * logRadix r ≤ W / logRadix r * logRadix r := Nat.mul_le_mul_right _ ht
      _ ≤ W := Nat.div_mul_le_self _ _
  have loop := pow2WordLoop_spec (W := W) hW64 hr hl1 t.reverse 0 0 (by simp)
    (by rw [List.length_reverse]; omega)
  rw [digitsOf_reverse] at loop
  cases hds : digitsOf r t with
  | none => rw [hds] at loop; exact loop
  | some ds =>
    rw [hds] at loop
    obtain ⟨w, e, s1, s2⟩ := loop
    refine ⟨w, e, ?_, ?_⟩
    · rw [s1]; simp
    · rw [List.length_reverse, Nat.zero_add] at s2
      exact lt_of_lt_of_le s2 (base_ge hle)

theorem pow2Parse_spec {cfg : Cfg} (hv : cfg.Valid) {r : Nat} (hval : isRadixValid r = true)
    (h2 : isRadixPow2 r = true) {t : List Nat} (h0 : t.head? ≠ some 48) :
    PSpec cfg r t (pow2Parse cfg r t) := by
  have hlog : logRadix r ≤ 5 := by
    rcases radix_cases hval with h | h
    · exact h.2.2.2
    · rw [h.1] at h2; cases h2
  unfold pow2Parse
  refine PSpec.bindR (returns_assertR ⟨hval, h2⟩) ?_
  rintro _ -
  refine PSpec.bindR (radixInfo_pow2 hv.W16 hval h2) ?_
  intro info hi
  split
  · rename_i hle
    rw [hi.digits] at hle
    refine (pow2ParseWord_spec hv.W16 hv.W64 hval h2 hle).pspec ?_
    rintro w ds - ⟨h1, h2⟩
    subst h1
    exact ⟨fun _ => ⟨_, rfl, h2, rfl⟩, fun h => absurd (fits_word hv h2) h⟩
  · rename_i hgt
    exact pow2ParseLarge_spec hv hval h2 (by rintro rfl; simp at hgt) h0

end Ibig
