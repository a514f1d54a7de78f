import Verif.Spec.Number
import Verif.Proofs.DivSimple
/-! Facts about buffers and the conversion of buffers to numbers. -/
namespace Ibig

theorem Cfg.Valid.W16 {cfg : Cfg} (h : cfg.Valid) : 16 ≤ cfg.W := by rcases h.word with h | h | h <;> omega
theorem Cfg.Valid.W64 {cfg : Cfg} (h : cfg.Valid) : cfg.W ≤ 64 := by rcases h.word with h | h | h <;> omega
theorem Cfg.Valid.W1 {cfg : Cfg} (h : cfg.Valid) : 1 ≤ cfg.W := by have := h.W16; omega
theorem Cfg.Valid.W4 {cfg : Cfg} (h : cfg.Valid) : 4 ≤ cfg.W := by have := h.W16; omega

theorem Cfg.Valid.W8 {cfg : Cfg} (h : cfg.Valid) : cfg.W = 8 * (cfg.W / 8) := by
  rcases h.word with h | h | h <;> omega

/-- A buffer in the middle of a computation. -/
structure Buffer.OK (cfg : Cfg) (b : Buffer) : Prop where
  words : IsWords cfg.W b.words
  fits : b.words.length ≤ b.cap

theorem Buffer.WF.ok {cfg : Cfg} {b : Buffer} (h : b.WF cfg) : b.OK cfg :=
  ⟨h.words, h.fits⟩

theorem fits_iff {cfg : Cfg} {n : Nat} : Fits cfg n ↔ n < base cfg.W ^ cfg.maxLen := by
  unfold Fits base
  rw [← pow_mul, Nat.mul_comm]

instance (cfg : Cfg) (n : Nat) : Decidable (Fits cfg n) := by unfold Fits; infer_instance

theorem Fits.mono {cfg : Cfg} {n m : Nat} (h : Fits cfg n) (hm : m ≤ n) : Fits cfg m :=
  lt_of_le_of_lt hm h

/-! ### Buffer operations -/

/-- The capacity of a new buffer for `n` words. -/
def allocCap (cfg : Cfg) (n : Nat) : Nat :=
  min (n + n / 8 + 2) (cfg.maxLen + 4) + cfg.spare (min (n + n / 8 + 2) (cfg.maxLen + 4))

theorem le_allocCap {cfg : Cfg} {n : Nat} (h : n ≤ cfg.maxLen + 4) : n ≤ allocCap cfg n := by
  unfold allocCap; omega

/-- There is room for two words more, unless the limit is near. -/
theorem min_le_allocCap (cfg : Cfg) (n : Nat) : min (n + n / 8 + 2) (cfg.maxLen + 4) ≤ allocCap cfg n :=
  Nat.le_add_right _ _

theorem allocCap_exact {cfg : Cfg} (h : ∀ n, cfg.spare n = 0) (n : Nat) :
    allocCap cfg n = min (n + n / 8 + 2) (cfg.maxLen + 4) := by
  unfold allocCap; rw [h, Nat.add_zero]

theorem Buffer.allocate_ok {cfg : Cfg} {n : Nat} (h : n ≤ cfg.maxLen + 4) :
    Buffer.allocate cfg n = .ok ⟨[], allocCap cfg n⟩ := by
  have : n ≤ cfg.maxCap := h
  simp only [Buffer.allocate, Nat.not_lt.mpr this, if_false, defaultCapacity, assertR_true this]
  rfl

theorem Buffer.allocate_err {cfg : Cfg} {n : Nat} (h : cfg.maxLen + 4 < n) :
    Buffer.allocate cfg n = .error .tooLarge := by
  have : cfg.maxCap < n := h
  simp [Buffer.allocate, this]

theorem Buffer.clone_spec {cfg : Cfg} {b : Buffer} (h : b.WF cfg) :
    Returns (b.clone cfg) fun c => c.WF cfg ∧ c.words = b.words := by
  have h1 := h.len
  unfold Buffer.clone Buffer.len
  rw [Buffer.allocate_ok (by omega)]
  refine Returns.bind (returns_ok.mpr rfl) ?_
  rintro _ rfl
  unfold Buffer.cloneFrom Buffer.len
  simp only
  refine Returns.bind (returns_assertR (le_allocCap (by omega))) ?_
  rintro _ -
  rw [returns_ok]
  exact ⟨⟨h.words, h.two, h.top, h.len,
    le_allocCap (n := b.words.length) (by omega),
    fun h0 => by simp only [allocCap_exact h0]; omega⟩, rfl⟩

theorem Buffer.own_spec {cfg : Cfg} (o : Own) {b : Buffer} (h : b.WF cfg) :
    Returns (match o with | .val => (.ok b : R Buffer) | .ref => b.clone cfg)
      fun c => c.WF cfg ∧ c.words = b.words := by
  cases o
  · exact returns_ok.mpr ⟨h, rfl⟩
  · exact Buffer.clone_spec h

theorem Buffer.reallocate_spec {cfg : Cfg} {b : Buffer} {n : Nat} (h : IsWords cfg.W b.words)
    (hn : b.words.length ≤ n) (hn2 : n ≤ cfg.maxLen + 4) :
    Returns (b.reallocate cfg n) fun c => c.OK cfg ∧ c.words = b.words ∧ n ≤ c.cap ∧
      ((∀ n, cfg.spare n = 0) → c.cap = min (n + n / 8 + 2) (cfg.maxLen + 4)) := by
  unfold Buffer.reallocate Buffer.len
  refine Returns.bind (returns_assertR hn) ?_
  rintro _ -
  rw [Buffer.allocate_ok hn2]
  refine Returns.bind (returns_ok.mpr rfl) ?_
  rintro _ rfl
  unfold Buffer.cloneFrom Buffer.len
  simp only
  refine Returns.bind (returns_assertR (le_trans hn (le_allocCap hn2))) ?_
  rintro _ -
  rw [returns_ok]
  have := le_allocCap hn2
  exact ⟨⟨h, by simp only; omega⟩, rfl, this, fun h0 => allocCap_exact h0 n⟩

theorem Buffer.ensureCapacity_spec {cfg : Cfg} {b : Buffer} {n : Nat} (h : b.OK cfg)
    (hn : b.words.length ≤ n) (hn2 : n ≤ cfg.maxLen + 4) :
    Returns (b.ensureCapacity cfg n) fun c => c.OK cfg ∧ c.words = b.words ∧ n ≤ c.cap := by
  unfold Buffer.ensureCapacity
  split
  · exact (Buffer.reallocate_spec h.words hn hn2).mono fun c hc => ⟨hc.1, hc.2.1, hc.2.2.1⟩
  · rw [returns_ok]; exact ⟨h, rfl, by omega⟩

theorem Buffer.push_spec {cfg : Cfg} {b : Buffer} {w : Nat} (h : b.OK cfg) (hw : w < base cfg.W)
    (hc : b.words.length < b.cap) :
    Returns (b.push w) fun c => c.OK cfg ∧ c.words = b.words ++ [w] ∧ c.cap = b.cap := by
  unfold Buffer.push Buffer.len
  refine Returns.bind (returns_assertR hc) ?_
  rintro _ -
  rw [returns_ok]
  refine ⟨⟨?_, ?_⟩, rfl, rfl⟩
  · simp only [isWords_append, isWords_cons]; exact ⟨h.words, hw, by simp⟩
  · simp only [List.length_append, List.length_cons, List.length_nil]; omega

theorem Buffer.pushMayReallocate_spec {cfg : Cfg} {b : Buffer} {w : Nat} (h : b.OK cfg)
    (hw : w < base cfg.W) (hc : b.words.length < cfg.maxLen + 4) :
    Returns (b.pushMayReallocate cfg w) fun c => c.OK cfg ∧ c.words = b.words ++ [w] := by
  unfold Buffer.pushMayReallocate Buffer.len
  refine Returns.bind (Buffer.ensureCapacity_spec h (by omega) (by omega)) ?_
  rintro c ⟨h1, h2, h3⟩
  refine (Buffer.push_spec h1 hw (by rw [h2]; omega)).mono ?_
  rintro d ⟨g1, g2, -⟩
  exact ⟨g1, by rw [g2, h2]⟩

theorem Buffer.extend_spec {cfg : Cfg} {b : Buffer} {ws : List Nat} (h : b.OK cfg)
    (hw : IsWords cfg.W ws) (hc : b.words.length + ws.length ≤ b.cap) :
    Returns (b.extend ws) fun c => c.OK cfg ∧ c.words = b.words ++ ws ∧ c.cap = b.cap := by
  induction ws generalizing b with
  | nil => simpa [Buffer.extend] using h
  | cons w ws ih =>
    unfold Buffer.extend
    simp only [isWords_cons] at hw
    simp only [List.length_cons] at hc
    refine Returns.bind (Buffer.push_spec h hw.1 (by omega)) ?_
    rintro c ⟨h1, h2, h3⟩
    refine (ih h1 hw.2 (by rw [h2, h3]; simp; omega)).mono ?_
    rintro d ⟨g1, g2, g3⟩
    exact ⟨g1, by rw [g2, h2]; simp, by rw [g3, h3]⟩

theorem Buffer.pushZeros_spec {cfg : Cfg} {b : Buffer} {n : Nat} (h : b.OK cfg)
    (hc : b.words.length + n ≤ b.cap) :
    Returns (b.pushZeros n) fun c => c.OK cfg ∧ c.words = b.words ++ List.replicate n 0 ∧
      c.cap = b.cap := by
  unfold Buffer.pushZeros Buffer.len ckSub
  rw [if_pos h.fits]
  refine Returns.bind (returns_ok.mpr rfl) ?_
  rintro _ rfl
  refine Returns.bind (returns_assertR (by omega)) ?_
  rintro _ -
  rw [returns_ok]
  refine ⟨⟨?_, ?_⟩, rfl, rfl⟩
  · simp only [isWords_append]; exact ⟨h.words, isWords_replicate_zero _ _⟩
  · simp only [List.length_append, List.length_replicate]; omega

theorem Buffer.pushZerosFront_spec {cfg : Cfg} {b : Buffer} {n : Nat} (h : b.OK cfg)
    (hc : b.words.length + n ≤ b.cap) :
    Returns (b.pushZerosFront n) fun c => c.OK cfg ∧ c.words = List.replicate n 0 ++ b.words ∧
      c.cap = b.cap := by
  unfold Buffer.pushZerosFront Buffer.len ckSub
  rw [if_pos h.fits]
  refine Returns.bind (returns_ok.mpr rfl) ?_
  rintro _ rfl
  refine Returns.bind (returns_assertR (by omega)) ?_
  rintro _ -
  rw [returns_ok]
  refine ⟨⟨?_, ?_⟩, rfl, rfl⟩
  · simp only [isWords_append]; exact ⟨isWords_replicate_zero _ _, h.words⟩
  · simp only [List.length_append, List.length_replicate]; omega

theorem Buffer.OK.setWords {cfg : Cfg} {b : Buffer} (h : b.OK cfg) {ws : List Nat}
    (hw : IsWords cfg.W ws) (hl : ws.length ≤ b.words.length) :
    ({ b with words := ws } : Buffer).OK cfg :=
  ⟨hw, by simp only; have := h.fits; omega⟩

/-! ### Normalisation -/

theorem strip_zeros (l : List Nat) :
    ∃ k, l = (l.reverse.dropWhile (fun w => w == 0)).reverse ++ List.replicate k 0 ∧
      (l.reverse.dropWhile (fun w => w == 0)).reverse.getLast? ≠ some 0 := by
  induction l using List.reverseRecOn with
  | nil => exact ⟨0, by simp⟩
  | append_singleton l x ih =>
    by_cases hx : x = 0
    · subst hx
      obtain ⟨k, h1, h2⟩ := ih
      refine ⟨k + 1, ?_, ?_⟩
      · simp only [List.reverse_append, List.reverse_cons, List.reverse_nil, List.nil_append,
          List.singleton_append, List.dropWhile_cons, beq_self_eq_true, if_true]
        conv_lhs => rw [h1]
        rw [List.replicate_succ', List.append_assoc]
      · simpa using h2
    · refine ⟨0, ?_, ?_⟩ <;> simp [hx]

theorem val_top_ge {W : Nat} {l : List Nat} (h0 : l ≠ []) (h : l.getLast? ≠ some 0) :
    base W ^ (l.length - 1) ≤ val W l := by
  rw [val_getLast W h0]
  have : l.getLast h0 ≠ 0 := by
    intro e; apply h; rw [List.getLast?_eq_some_getLast h0, e]
  calc base W ^ (l.length - 1) = base W ^ (l.length - 1) * 1 := by ring
    _ ≤ base W ^ (l.length - 1) * l.getLast h0 := Nat.mul_le_mul_left _ (by omega)
    _ ≤ _ := Nat.le_add_left _ _

theorem base_pow_le_iff {W a b : Nat} (hW : 1 ≤ W) : base W ^ a ≤ base W ^ b ↔ a ≤ b :=
  Nat.pow_le_pow_iff_right (two_le_base hW)

/-- A word sequence without leading zeros fits iff it has at most `MAX_LEN` words. -/
theorem fits_normalized {cfg : Cfg} (hW : 1 ≤ cfg.W) {l : List Nat} (hw : IsWords cfg.W l)
    (h0 : l ≠ []) (h : l.getLast? ≠ some 0) : Fits cfg (val cfg.W l) ↔ l.length ≤ cfg.maxLen := by
  rw [fits_iff]
  constructor
  · intro hf
    have := lt_of_le_of_lt (val_top_ge h0 h) hf
    have := (Nat.pow_lt_pow_iff_right (a := base cfg.W) (two_le_base hW)).mp this
    omega
  · intro hl
    exact lt_of_lt_of_le (val_lt hw) (Nat.pow_le_pow_right (base_pos _) hl)

theorem fits_word {cfg : Cfg} (hv : cfg.Valid) {w : Nat} (hw : w < base cfg.W) : Fits cfg w := by
  rw [fits_iff]
  refine lt_of_lt_of_le hw ?_
  have := hv.large
  calc base cfg.W = base cfg.W ^ 1 := by ring
    _ ≤ _ := Nat.pow_le_pow_right (base_pos _) (by omega)

theorem yields_small {cfg : Cfg} (hv : cfg.Valid) {w : Nat} (hw : w < base cfg.W) :
    Yields cfg (.ok (.small w)) w :=
  ⟨fun _ => ⟨_, rfl, hw, rfl⟩, fun h => absurd (fits_word hv hw) h⟩

theorem yields_of_ok {cfg : Cfg} {x : R UBig} {n : Nat} (h : Fits cfg n)
    (hx : Returns x fun c => c.WF cfg ∧ c.value cfg = n) : Yields cfg x n :=
  ⟨fun _ => hx, fun h' => absurd h h'⟩

theorem Buffer.shrink_spec {cfg : Cfg} {b : Buffer} (h : b.OK cfg) (h2 : 2 ≤ b.words.length)
    (ht : b.words.getLast? ≠ some 0) (hl : b.words.length ≤ cfg.maxLen) :
    Returns (b.shrink cfg) fun c => c.WF cfg ∧ c.words = b.words := by
  unfold Buffer.shrink maxCompactCapacity Buffer.len Cfg.maxCap
  have hh : b.words.length ≤ cfg.maxLen + 4 := by omega
  rw [assertR_true hh]
  refine Returns.bind (P := fun c => c = min (b.words.length + b.words.length / 4 + 4)
    (cfg.maxLen + 4)) ⟨_, rfl, rfl⟩ ?_
  rintro c rfl
  split
  · refine (Buffer.reallocate_spec h.words le_rfl hh).mono ?_
    rintro c ⟨h3, h4, h5, h6⟩
    exact ⟨⟨h3.words, by rw [h4]; exact h2, by rw [h4]; exact ht, by rw [h4]; exact hl, h3.fits,
      fun h0 => by rw [h4, h6 h0]; omega⟩, h4⟩
  · rw [returns_ok]
    exact ⟨⟨h.words, h2, ht, hl, h.fits, fun _ => by omega⟩, rfl⟩

theorem UBig.ofBuffer_spec {cfg : Cfg} (hv : cfg.Valid) {b : Buffer} (h : b.OK cfg) :
    Yields cfg (UBig.ofBuffer cfg b) (val cfg.W b.words) := by
  obtain ⟨k, h1, h2⟩ := strip_zeros b.words
  unfold UBig.ofBuffer Buffer.popLeadingZeros
  simp only
  generalize (b.words.reverse.dropWhile (fun w => w == 0)).reverse = l at *
  have hw : IsWords cfg.W l := by
    have := h.words; rw [h1, isWords_append] at this; exact this.1
  have hval : val cfg.W b.words = val cfg.W l := by rw [h1, val_append]; simp
  have hlen : l.length ≤ b.words.length := by rw [h1]; simp
  rw [hval]
  split
  · exact yields_small hv (by simpa using base_pos _)
  · simp only [isWords_cons] at hw
    simpa using yields_small hv hw.1
  · rename_i hn1 hn2
    have h0 : l ≠ [] := fun e => hn1 e
    have hl2 : 2 ≤ l.length := by
      rcases l with _ | ⟨a, _ | ⟨b, l⟩⟩
      · exact absurd rfl h0
      · exact absurd rfl (hn2 a)
      · simp
    have hf := fits_normalized hv.W1 hw h0 h2
    unfold Buffer.len
    simp only
    split
    · rename_i hlt
      exact ⟨fun hfit => absurd (hf.mp hfit) (by omega), fun _ => rfl⟩
    · rename_i hlt
      refine yields_of_ok (hf.mpr (by omega)) ?_
      refine Returns.bind (Buffer.shrink_spec (b := ⟨l, b.cap⟩)
        ⟨hw, by have := h.fits; simp only; omega⟩ hl2 h2 (by simp only; omega)) ?_
      rintro c ⟨hc1, hc2⟩
      rw [returns_ok]
      exact ⟨hc1, by simp only [UBig.value, hc2]⟩

/-! ### Facts about well-formed numbers -/

theorem UBig.WF.fits {cfg : Cfg} (hv : cfg.Valid) {a : UBig} (h : a.WF cfg) :
    Fits cfg (a.value cfg) := by
  cases a with
  | small w => exact fits_word hv h
  | large b =>
    exact (fits_normalized hv.W1 h.words (by intro e; have := h.two; simp [e] at this) h.top).mpr h.len

theorem Buffer.WF.ge {cfg : Cfg} {b : Buffer} (h : b.WF cfg) :
    base cfg.W ^ (b.words.length - 1) ≤ val cfg.W b.words :=
  val_top_ge (by intro e; have := h.two; simp [e] at this) h.top

theorem Buffer.WF.lt {cfg : Cfg} {b : Buffer} (h : b.WF cfg) :
    val cfg.W b.words < base cfg.W ^ b.words.length := val_lt h.words

theorem Buffer.WF.ge_base {cfg : Cfg} {b : Buffer} (h : b.WF cfg) :
    base cfg.W ≤ val cfg.W b.words := by
  refine le_trans ?_ h.ge
  have := h.two
  calc base cfg.W = base cfg.W ^ 1 := by ring
    _ ≤ _ := Nat.pow_le_pow_right (base_pos _) (by omega)

theorem yields_ofBuffer {cfg : Cfg} (hv : cfg.Valid) {b : Buffer} (h : b.OK cfg) {n : Nat}
    (hn : val cfg.W b.words = n) : Yields cfg (UBig.ofBuffer cfg b) n := hn ▸ UBig.ofBuffer_spec hv h

/-- Chaining an exact intermediate computation that cannot exceed the limit. -/
theorem Yields.of_bind {α : Type} {cfg : Cfg} {x : R α} {f : α → R UBig} {n : Nat} {P : α → Prop}
    (hx : Returns x P) (hf : ∀ a, P a → Yields cfg (f a) n) : Yields cfg (x >>= f) n := by
  obtain ⟨a, rfl, ha⟩ := hx
  exact hf a ha

theorem IYields.of_bind {α : Type} {cfg : Cfg} {x : R α} {f : α → R IBig} {n : Int} {P : α → Prop}
    (hx : Returns x P) (hf : ∀ a, P a → IYields cfg (f a) n) : IYields cfg (x >>= f) n := by
  obtain ⟨a, rfl, ha⟩ := hx
  exact hf a ha

theorem Yields.returns {cfg : Cfg} {x : R UBig} {n : Nat} (h : Yields cfg x n) (hf : Fits cfg n) :
    Returns x fun c => c.WF cfg ∧ c.value cfg = n := h.1 hf

theorem IYields.returns {cfg : Cfg} {x : R IBig} {n : Int} (h : IYields cfg x n)
    (hf : Fits cfg n.natAbs) : Returns x fun c => c.WF cfg ∧ c.value cfg = n := h.1 hf

end Ibig
