import Verif.Model.Bits
import Verif.Proofs.ShiftOps
/-! Bitwise operations on `UBig` (/repo/src/bits.rs). -/
namespace Ibig

theorem testBit_val {W : Nat} (hW : 1 ≤ W) {l : List Nat} (h : IsWords W l) (i : Nat) :
    (val W l).testBit i = (l.getD (i / W) 0).testBit (i % W) := by
  induction l generalizing i with
  | nil => simp
  | cons x xs ih =>
    simp only [isWords_cons] at h
    have e : val W (x :: xs) = 2 ^ W * val W xs + x := by simp [base]; ring
    rw [e, Nat.testBit_two_pow_mul_add _ h.1]
    by_cases hi : i < W
    · rw [if_pos hi, Nat.div_eq_of_lt hi, Nat.mod_eq_of_lt hi]; simp
    · rw [if_neg hi, ih h.2]
      have h1 : i / W = (i - W) / W + 1 := by
        rw [← Nat.add_div_right _ (by omega : 0 < W)]; congr 1; omega
      have h2 : i % W = (i - W) % W := by
        conv_lhs => rw [show i = i - W + W by omega]
        rw [Nat.add_mod_right]
      rw [h1, h2]; simp

/-- the `k`-th word of a number -/
def UBig.digit : UBig → Nat → Nat
  | .small w, k => [w].getD k 0
  | .large b, k => b.words.getD k 0

theorem UBig.WF.isWords {cfg : Cfg} {a : UBig} (h : a.WF cfg) :
    ∃ l, IsWords cfg.W l ∧ val cfg.W l = a.value cfg ∧ ∀ k, a.digit k = l.getD k 0 := by
  cases a with
  | small w => exact ⟨[w], by simp only [isWords_cons]; exact ⟨h, by simp⟩, by simp [UBig.value], fun _ => rfl⟩
  | large b => exact ⟨b.words, h.words, rfl, fun _ => rfl⟩

theorem getD_lt {W : Nat} {l : List Nat} (h : IsWords W l) (k : Nat) : l.getD k 0 < base W := by
  by_cases hk : k < l.length
  · rw [List.getD_eq_getElem _ _ hk]; exact h _ (List.getElem_mem hk)
  · rw [List.getD_eq_default _ _ (by omega)]; exact base_pos W

theorem UBig.WF.digit_lt {cfg : Cfg} {a : UBig} (h : a.WF cfg) (k : Nat) : a.digit k < base cfg.W := by
  obtain ⟨l, h1, -, h3⟩ := h.isWords
  rw [h3]; exact getD_lt h1 k

theorem UBig.WF.testBit {cfg : Cfg} (hv : cfg.Valid) {a : UBig} (h : a.WF cfg) (i : Nat) :
    (a.value cfg).testBit i = (a.digit (i / cfg.W)).testBit (i % cfg.W) := by
  obtain ⟨l, h1, h2, h3⟩ := h.isWords
  rw [← h2, h3, testBit_val hv.W1 h1]

/-- A word operation that acts bit by bit. -/
structure BitFn (W : Nat) (f : Nat → Nat → Nat) (g : Bool → Bool → Bool) : Prop where
  lt : ∀ {x y}, x < base W → y < base W → f x y < base W
  bit : ∀ {x y i}, x < base W → y < base W → i < W → (f x y).testBit i = g (x.testBit i) (y.testBit i)

theorem bitFn_and (W : Nat) : BitFn W (· &&& ·) (· && ·) :=
  ⟨fun _ h => Nat.and_lt_two_pow _ h, fun _ _ _ => Nat.testBit_and ..⟩
theorem bitFn_or (W : Nat) : BitFn W (· ||| ·) (· || ·) :=
  ⟨fun h h' => Nat.or_lt_two_pow h h', fun _ _ _ => Nat.testBit_or ..⟩
theorem bitFn_xor (W : Nat) : BitFn W (· ^^^ ·) (fun a b => a ^^ b) :=
  ⟨fun h h' => Nat.xor_lt_two_pow h h', fun _ _ _ => Nat.testBit_xor ..⟩

theorem wordNot_lt (W x : Nat) : wordNot W x < base W := by
  have := base_pos W; unfold wordNot; omega

theorem testBit_wordNot {W x i : Nat} (hx : x < base W) :
    (wordNot W x).testBit i = (decide (i < W) && !x.testBit i) := by
  have : wordNot W x = 2 ^ W - (x + 1) := by unfold wordNot base; omega
  rw [this, Nat.testBit_two_pow_sub_succ hx]

theorem bitFn_andNot (W : Nat) : BitFn W (fun x y => x &&& wordNot W y) (fun a b => a && !b) where
  lt := fun _ _ => Nat.and_lt_two_pow _ (wordNot_lt W _)
  bit := fun _ h hi => by rw [Nat.testBit_and, testBit_wordNot h]; simp [hi]

/-- The computation returns the number whose bits are `p`. -/
def BitYields (cfg : Cfg) (x : R UBig) (p : Nat → Bool) : Prop :=
  Returns x fun c => c.WF cfg ∧ ∀ i, (c.value cfg).testBit i = p i

theorem BitYields.of_bind {α : Type} {cfg : Cfg} {x : R α} {f : α → R UBig} {p : Nat → Bool}
    {P : α → Prop} (hx : Returns x P) (hf : ∀ a, P a → BitYields cfg (f a) p) :
    BitYields cfg (x >>= f) p := Returns.bind hx hf

theorem bitYields_small {cfg : Cfg} {w : Nat} {p : Nat → Bool} (hw : w < base cfg.W)
    (h : ∀ i, w.testBit i = p i) : BitYields cfg (.ok (.small w)) p := returns_ok.mpr ⟨hw, h⟩

theorem fits_of_len {cfg : Cfg} {l : List Nat} (hw : IsWords cfg.W l) (hl : l.length ≤ cfg.maxLen) :
    Fits cfg (val cfg.W l) := by
  rw [fits_iff]
  exact lt_of_lt_of_le (val_lt hw) (Nat.pow_le_pow_right (base_pos _) hl)

theorem bitYields_ofBuffer {cfg : Cfg} (hv : cfg.Valid) {b : Buffer} (h : b.OK cfg)
    (hl : b.words.length ≤ cfg.maxLen) {p : Nat → Bool}
    (hp : ∀ i, (val cfg.W b.words).testBit i = p i) : BitYields cfg (UBig.ofBuffer cfg b) p := by
  refine ((UBig.ofBuffer_spec hv h).returns (fits_of_len h.words hl)).mono ?_
  rintro c ⟨h1, h2⟩
  exact ⟨h1, fun i => by rw [h2, hp]⟩

/-- A number whose words are computed from the words of `x` and `y` by a bitwise operation. -/
theorem bits_of_digits {cfg : Cfg} (hv : cfg.Valid) {x y : UBig} (hx : x.WF cfg) (hy : y.WF cfg)
    {f : Nat → Nat → Nat} {g : Bool → Bool → Bool} (hf : BitFn cfg.W f g) {ws : List Nat}
    (hw : IsWords cfg.W ws) (hd : ∀ k, ws.getD k 0 = f (x.digit k) (y.digit k)) (i : Nat) :
    (val cfg.W ws).testBit i = g ((x.value cfg).testBit i) ((y.value cfg).testBit i) := by
  rw [testBit_val hv.W1 hw, hd, hx.testBit hv, hy.testBit hv,
    hf.bit (hx.digit_lt _) (hy.digit_lt _) (Nat.mod_lt _ (by have := hv.W1; omega))]

/-- A single-word result. -/
theorem bitYields_word {cfg : Cfg} (hv : cfg.Valid) {x y : UBig} (hx : x.WF cfg) (hy : y.WF cfg)
    {f : Nat → Nat → Nat} {g : Bool → Bool → Bool} (hf : BitFn cfg.W f g) {w : Nat}
    (h0 : w = f (x.digit 0) (y.digit 0)) (hd : ∀ k, f (x.digit (k + 1)) (y.digit (k + 1)) = 0) :
    BitYields cfg (.ok (.small w)) fun i => g ((x.value cfg).testBit i) ((y.value cfg).testBit i) := by
  have hw : w < base cfg.W := by rw [h0]; exact hf.lt (hx.digit_lt _) (hy.digit_lt _)
  refine bitYields_small hw fun i => ?_
  rw [← bits_of_digits hv hx hy hf (ws := [w]) (by simp only [isWords_cons]; exact ⟨hw, by simp⟩)]
  · simp
  · intro k
    cases k with
    | zero => simpa using h0
    | succ k => simp [hd]

/-- A multi-word result. -/
theorem bitYields_digits {cfg : Cfg} (hv : cfg.Valid) {x y : UBig} (hx : x.WF cfg) (hy : y.WF cfg)
    {f : Nat → Nat → Nat} {g : Bool → Bool → Bool} (hf : BitFn cfg.W f g) {b : Buffer}
    (h : b.OK cfg) (hl : b.words.length ≤ cfg.maxLen)
    (hd : ∀ k, b.words.getD k 0 = f (x.digit k) (y.digit k)) :
    BitYields cfg (UBig.ofBuffer cfg b) fun i =>
      g ((x.value cfg).testBit i) ((y.value cfg).testBit i) :=
  bitYields_ofBuffer hv h hl (bits_of_digits hv hx hy hf h.words hd)

theorem zipInPlace_length (f : Nat → Nat → Nat) (a b : List Nat) :
    (zipInPlace f a b).length = a.length := by
  induction a generalizing b with
  | nil => cases b <;> simp [zipInPlace]
  | cons x a ih => cases b <;> simp [zipInPlace, ih]

theorem zipInPlace_getD (f : Nat → Nat → Nat) (a b : List Nat) (k : Nat) :
    (zipInPlace f a b).getD k 0 =
      if k < a.length ∧ k < b.length then f (a.getD k 0) (b.getD k 0) else a.getD k 0 := by
  induction a generalizing b k with
  | nil => cases b <;> simp [zipInPlace]
  | cons x a ih =>
    cases b with
    | nil => simp [zipInPlace]
    | cons y b =>
      cases k with
      | zero => simp [zipInPlace]
      | succ k => simp only [zipInPlace, List.getD_cons_succ, ih, List.length_cons, Nat.add_lt_add_iff_right]

theorem zipInPlace_isWords {W : Nat} {f : Nat → Nat → Nat}
    (hf : ∀ {x y}, x < base W → y < base W → f x y < base W) {a b : List Nat} (ha : IsWords W a)
    (hb : IsWords W b) : IsWords W (zipInPlace f a b) := by
  induction a generalizing b with
  | nil => cases b <;> simpa [zipInPlace] using ha
  | cons x a ih =>
    cases b with
    | nil => simpa [zipInPlace] using ha
    | cons y b =>
      simp only [isWords_cons, zipInPlace] at *
      exact ⟨hf ha.1 hb.1, ih ha.2 hb.2⟩

theorem firstR_spec {l : List Nat} (h : 2 ≤ l.length) : firstR l = .ok (l.getD 0 0) := by
  rcases l with _ | ⟨x, l⟩
  · simp at h
  · rfl

theorem digit_small_succ (w k : Nat) : (UBig.small w).digit (k + 1) = 0 := by simp [UBig.digit]
theorem digit_small_zero (w : Nat) : (UBig.small w).digit 0 = w := by simp [UBig.digit]

theorem UBig.bitandWordLarge_spec {cfg : Cfg} (hv : cfg.Valid) {w : Nat} {b : Buffer}
    (hw : w < base cfg.W) (hb : b.WF cfg) :
    BitYields cfg (UBig.bitandWordLarge w b) fun i =>
      w.testBit i && (val cfg.W b.words).testBit i := by
  unfold UBig.bitandWordLarge
  rw [firstR_spec hb.two]
  exact bitYields_word hv (x := .small w) (y := .large b) hw hb (bitFn_and _) rfl
    (fun k => by rw [digit_small_succ, Nat.zero_and])

theorem UBig.bitandLarge_spec {cfg : Cfg} (hv : cfg.Valid) {a b : Buffer} (ha : a.WF cfg)
    (hb : b.WF cfg) :
    BitYields cfg (UBig.bitandLarge cfg a b.words) fun i =>
      (val cfg.W a.words).testBit i && (val cfg.W b.words).testBit i := by
  have hla := ha.len
  unfold UBig.bitandLarge
  have h1 : Returns (a.truncateTo b.words.length)
      fun c => c.OK cfg ∧ c.words = a.words.take b.words.length := by
    unfold Buffer.truncateTo
    by_cases hl : b.words.length < a.len
    · rw [if_pos hl]
      unfold Buffer.truncate
      refine Returns.bind (returns_assertR (p := b.words.length ≤ a.len) hl.le) ?_
      rintro _ -
      exact returns_ok.mpr ⟨ha.ok.setWords (ha.words.take _) (by simp), rfl⟩
    · rw [if_neg hl]
      refine returns_ok.mpr ⟨ha.ok, (List.take_of_length_le ?_).symm⟩
      unfold Buffer.len at hl; omega
  refine BitYields.of_bind h1 ?_
  rintro c ⟨h2, h3⟩
  have h4 : c.words.length ≤ a.words.length := by rw [h3, List.length_take]; omega
  refine bitYields_digits hv (x := .large a) (y := .large b) ha hb (bitFn_and _)
    (h2.setWords (zipInPlace_isWords (bitFn_and _).lt h2.words hb.words)
      (by rw [zipInPlace_length])) (by simp only; rw [zipInPlace_length]; omega) fun k => ?_
  simp only [UBig.digit]
  rw [zipInPlace_getD, h3, List.length_take]
  by_cases hk : k < min b.words.length a.words.length
  · rw [if_pos ⟨hk, by omega⟩]
    congr 1
    simp [List.getD, show k < b.words.length by omega]
  · rw [if_neg (by omega), List.getD_eq_default _ _ (by rw [List.length_take]; omega)]
    by_cases hk2 : k < a.words.length
    · rw [List.getD_eq_default b.words _ (by omega), Nat.and_zero]
    · rw [List.getD_eq_default a.words _ (by omega), Nat.zero_and]

theorem BitYields.congr {cfg : Cfg} {x : R UBig} {p q : Nat → Bool} (h : BitYields cfg x p)
    (hpq : ∀ i, p i = q i) : BitYields cfg x q := by
  have : p = q := funext hpq
  rwa [← this]

theorem UBig.bitandVV_spec {cfg : Cfg} (hv : cfg.Valid) {a b : UBig} (ha : a.WF cfg) (hb : b.WF cfg) :
    BitYields cfg (UBig.bitandVV cfg a b) fun i =>
      (a.value cfg).testBit i && (b.value cfg).testBit i := by
  cases a <;> cases b <;> simp only [UBig.bitandVV]
  · exact bitYields_word hv ha hb (bitFn_and _) (by simp [UBig.digit]) (by simp [UBig.digit])
  · exact UBig.bitandWordLarge_spec hv ha hb
  · exact (UBig.bitandWordLarge_spec hv hb ha).congr fun i => Bool.and_comm ..
  · split
    · exact UBig.bitandLarge_spec hv ha hb
    · exact (UBig.bitandLarge_spec hv hb ha).congr fun i => Bool.and_comm ..

theorem UBig.bitandVR_spec {cfg : Cfg} (hv : cfg.Valid) {a b : UBig} (ha : a.WF cfg) (hb : b.WF cfg) :
    BitYields cfg (UBig.bitandVR cfg a b) fun i =>
      (a.value cfg).testBit i && (b.value cfg).testBit i := by
  cases a <;> cases b <;> simp only [UBig.bitandVR]
  · exact bitYields_word hv ha hb (bitFn_and _) (by simp [UBig.digit]) (by simp [UBig.digit])
  · exact UBig.bitandWordLarge_spec hv ha hb
  · exact (UBig.bitandWordLarge_spec hv hb ha).congr fun i => Bool.and_comm ..
  · exact UBig.bitandLarge_spec hv ha hb

theorem UBig.bitandRR_spec {cfg : Cfg} (hv : cfg.Valid) {a b : UBig} (ha : a.WF cfg) (hb : b.WF cfg) :
    BitYields cfg (UBig.bitandRR cfg a b) fun i =>
      (a.value cfg).testBit i && (b.value cfg).testBit i := by
  cases a <;> cases b <;> simp only [UBig.bitandRR]
  · exact bitYields_word hv ha hb (bitFn_and _) (by simp [UBig.digit]) (by simp [UBig.digit])
  · exact UBig.bitandWordLarge_spec hv ha hb
  · exact (UBig.bitandWordLarge_spec hv hb ha).congr fun i => Bool.and_comm ..
  · split
    · refine BitYields.of_bind (Buffer.clone_spec ha) ?_
      rintro c ⟨h1, h2⟩
      exact (UBig.bitandLarge_spec hv h1 hb).congr fun i => by rw [h2]; rfl
    · refine BitYields.of_bind (Buffer.clone_spec hb) ?_
      rintro c ⟨h1, h2⟩
      exact (UBig.bitandLarge_spec hv h1 ha).congr fun i => by rw [h2]; exact Bool.and_comm ..

/-- `a & b` acts bit by bit. -/
theorem UBig.bitand_spec {cfg : Cfg} (hv : cfg.Valid) (o1 o2 : Own) {a b : UBig} (ha : a.WF cfg)
    (hb : b.WF cfg) :
    BitYields cfg (UBig.bitand cfg o1 o2 a b) fun i =>
      (a.value cfg).testBit i && (b.value cfg).testBit i := by
  cases o1 <;> cases o2
  · exact UBig.bitandVV_spec hv ha hb
  · exact UBig.bitandVR_spec hv ha hb
  · exact (UBig.bitandVR_spec hv hb ha).congr fun i => Bool.and_comm ..
  · exact UBig.bitandRR_spec hv ha hb

/-! ### or, xor, and-not -/

theorem UBig.bitopLargeWord_spec {cfg : Cfg} (hv : cfg.Valid) {f : Nat → Nat → Nat}
    {g : Bool → Bool → Bool} (hf : BitFn cfg.W f g) (h0 : ∀ x, x < base cfg.W → f x 0 = x)
    {b : Buffer} {w : Nat} (hb : b.WF cfg) (hw : w < base cfg.W) :
    BitYields cfg (UBig.bitopLargeWord f cfg b w) fun i =>
      g ((val cfg.W b.words).testBit i) (w.testBit i) := by
  have hlb := hb.len
  unfold UBig.bitopLargeWord
  refine BitYields.of_bind (returns_assertR (p := 2 ≤ b.len) hb.two) ?_
  rintro _ -
  rcases hbw : b.words with _ | ⟨x, l⟩
  · have := hb.two; rw [hbw] at this; simp at this
  have hws := hb.words
  rw [hbw, isWords_cons] at hws
  simp only [modFirstR]
  refine BitYields.of_bind (P := fun ws => ws = f x w :: l) (returns_ok.mpr rfl) ?_
  intro ws hws'
  rw [hws', ← hbw]
  refine bitYields_digits hv (x := .large b) (y := .small w) hb hw hf
    (hb.ok.setWords ?_ (by simp [hbw])) (by rw [hbw] at hlb; simpa using hlb) fun k => ?_
  · simp only [isWords_cons]; exact ⟨hf.lt hws.1 hw, hws.2⟩
  · cases k with
    | zero => simp [UBig.digit, hbw]
    | succ k =>
      rw [digit_small_succ, h0 _ (UBig.WF.digit_lt (a := .large b) hb _)]
      simp [UBig.digit, hbw]

theorem UBig.bitopLarge_spec {cfg : Cfg} (hv : cfg.Valid) {f : Nat → Nat → Nat}
    {g : Bool → Bool → Bool} (hf : BitFn cfg.W f g) (h0 : ∀ x, x < base cfg.W → f x 0 = x)
    (h0' : ∀ x, x < base cfg.W → f 0 x = x) {a b : Buffer} (ha : a.WF cfg) (hb : b.WF cfg) :
    BitYields cfg (UBig.bitopLarge f cfg a b.words) fun i =>
      g ((val cfg.W a.words).testBit i) ((val cfg.W b.words).testBit i) := by
  have hla := ha.len
  have hlb := hb.len
  have hz := zipInPlace_isWords (a := a.words) (b := b.words) hf.lt ha.words hb.words
  have hzl := zipInPlace_length f a.words b.words
  have hok := ha.ok.setWords hz (by omega)
  have hd : ∀ k, k < a.words.length ∨ b.words.length ≤ k → (zipInPlace f a.words b.words).getD k 0 =
      f (a.words.getD k 0) (b.words.getD k 0) := by
    intro k hk
    rw [zipInPlace_getD]
    split
    · rfl
    · rw [List.getD_eq_default b.words _ (by omega), h0 _ (getD_lt ha.words k)]
  unfold UBig.bitopLarge
  simp only
  by_cases hl : ({ words := zipInPlace f a.words b.words, cap := a.cap } : Buffer).len < b.words.length
  · rw [if_pos hl]
    unfold Buffer.len at hl
    simp only [hzl] at hl
    refine BitYields.of_bind (Buffer.ensureCapacity_spec hok (n := b.words.length)
      (by simp only; omega) (by omega)) ?_
    rintro c ⟨h1, h2, h3⟩
    simp only at h2
    have hcl : c.words.length = a.words.length := by rw [h2, hzl]
    unfold Buffer.len
    rw [sliceR_ok (by omega) le_rfl, List.take_length]
    refine BitYields.of_bind (P := fun s => s = b.words.drop c.words.length) (returns_ok.mpr rfl) ?_
    intro s hs
    rw [hs]
    refine BitYields.of_bind (Buffer.extend_spec h1 (hb.words.drop _) (by simp; omega)) ?_
    rintro d ⟨g1, g2, g3⟩
    refine bitYields_digits hv (x := .large a) (y := .large b) ha hb hf g1
      (by rw [g2]; simp; omega) fun k => ?_
    simp only [UBig.digit]
    rw [g2]
    by_cases hk : k < a.words.length
    · rw [List.getD_append _ _ _ _ (by omega), h2, hd k (Or.inl hk)]
    · rw [List.getD_append_right _ _ _ _ (by omega), List.getD_eq_default a.words _ (by omega),
        h0' _ (getD_lt hb.words k)]
      simp only [List.getD, List.getElem?_drop]
      rw [show c.words.length + (k - c.words.length) = k by omega]
  · rw [if_neg hl]
    unfold Buffer.len at hl
    simp only [hzl] at hl
    exact bitYields_digits hv (x := .large a) (y := .large b) ha hb hf hok (by simp only; omega)
      fun k => hd k (by omega)

theorem UBig.bitop_spec {cfg : Cfg} (hv : cfg.Valid) {f : Nat → Nat → Nat} {g : Bool → Bool → Bool}
    (hf : BitFn cfg.W f g) (h0 : ∀ x, x < base cfg.W → f x 0 = x) (hc : ∀ x y, f x y = f y x)
    (hg : ∀ x y, g x y = g y x) (o1 o2 : Own) {a b : UBig} (ha : a.WF cfg) (hb : b.WF cfg) :
    BitYields cfg (UBig.bitop f cfg o1 o2 a b) fun i =>
      g ((a.value cfg).testBit i) ((b.value cfg).testBit i) := by
  have h0' : ∀ x, x < base cfg.W → f 0 x = x := fun x hx => by rw [hc, h0 x hx]
  have hf0 : f 0 0 = 0 := h0 0 (base_pos _)
  have VV : ∀ {a b : UBig}, a.WF cfg → b.WF cfg → BitYields cfg (UBig.bitopVV f cfg a b) fun i =>
      g ((a.value cfg).testBit i) ((b.value cfg).testBit i) := by
    intro a b ha hb
    cases a <;> cases b <;> simp only [UBig.bitopVV]
    · exact bitYields_word hv ha hb hf (by simp [UBig.digit]) (by simp [UBig.digit, hf0])
    · exact (UBig.bitopLargeWord_spec hv hf h0 hb ha).congr fun i => hg ..
    · exact UBig.bitopLargeWord_spec hv hf h0 ha hb
    · split
      · exact UBig.bitopLarge_spec hv hf h0 h0' ha hb
      · exact (UBig.bitopLarge_spec hv hf h0 h0' hb ha).congr fun i => hg ..
  have VR : ∀ {a b : UBig}, a.WF cfg → b.WF cfg → BitYields cfg (UBig.bitopVR f cfg a b) fun i =>
      g ((a.value cfg).testBit i) ((b.value cfg).testBit i) := by
    intro a b ha hb
    cases a <;> cases b <;> simp only [UBig.bitopVR]
    · exact bitYields_word hv ha hb hf (by simp [UBig.digit]) (by simp [UBig.digit, hf0])
    · refine BitYields.of_bind (Buffer.clone_spec hb) ?_
      rintro c ⟨h1, h2⟩
      exact (UBig.bitopLargeWord_spec hv hf h0 h1 ha).congr fun i => by rw [h2]; exact hg ..
    · exact UBig.bitopLargeWord_spec hv hf h0 ha hb
    · exact UBig.bitopLarge_spec hv hf h0 h0' ha hb
  have RR : ∀ {a b : UBig}, a.WF cfg → b.WF cfg → BitYields cfg (UBig.bitopRR f cfg a b) fun i =>
      g ((a.value cfg).testBit i) ((b.value cfg).testBit i) := by
    intro a b ha hb
    cases a <;> cases b <;> simp only [UBig.bitopRR]
    · exact bitYields_word hv ha hb hf (by simp [UBig.digit]) (by simp [UBig.digit, hf0])
    · refine BitYields.of_bind (Buffer.clone_spec hb) ?_
      rintro c ⟨h1, h2⟩
      exact (UBig.bitopLargeWord_spec hv hf h0 h1 ha).congr fun i => by rw [h2]; exact hg ..
    · refine BitYields.of_bind (Buffer.clone_spec ha) ?_
      rintro c ⟨h1, h2⟩
      exact (UBig.bitopLargeWord_spec hv hf h0 h1 hb).congr fun i => by rw [h2]; rfl
    · split
      · refine BitYields.of_bind (Buffer.clone_spec ha) ?_
        rintro c ⟨h1, h2⟩
        exact (UBig.bitopLarge_spec hv hf h0 h0' h1 hb).congr fun i => by rw [h2]; rfl
      · refine BitYields.of_bind (Buffer.clone_spec hb) ?_
        rintro c ⟨h1, h2⟩
        exact (UBig.bitopLarge_spec hv hf h0 h0' h1 ha).congr fun i => by rw [h2]; exact hg ..
  cases o1 <;> cases o2
  · exact VV ha hb
  · exact VR ha hb
  · exact (VR hb ha).congr fun i => hg ..
  · exact RR ha hb

/-- `a | b` acts bit by bit. -/
theorem UBig.bitor_spec {cfg : Cfg} (hv : cfg.Valid) (o1 o2 : Own) {a b : UBig} (ha : a.WF cfg)
    (hb : b.WF cfg) :
    BitYields cfg (UBig.bitor cfg o1 o2 a b) fun i =>
      (a.value cfg).testBit i || (b.value cfg).testBit i :=
  UBig.bitop_spec hv (bitFn_or _) (fun x _ => Nat.or_zero x) (fun x y => Nat.or_comm x y)
    (fun x y => Bool.or_comm x y) o1 o2 ha hb

/-- `a ^ b` acts bit by bit. -/
theorem UBig.bitxor_spec {cfg : Cfg} (hv : cfg.Valid) (o1 o2 : Own) {a b : UBig} (ha : a.WF cfg)
    (hb : b.WF cfg) :
    BitYields cfg (UBig.bitxor cfg o1 o2 a b) fun i =>
      ((a.value cfg).testBit i ^^ (b.value cfg).testBit i) :=
  UBig.bitop_spec hv (bitFn_xor _) (fun x _ => Nat.xor_zero x) (fun x y => Nat.xor_comm x y)
    (fun x y => Bool.xor_comm x y) o1 o2 ha hb

theorem andNot_zero {W x : Nat} (hx : x < base W) : x &&& wordNot W 0 = x := by
  apply Nat.eq_of_testBit_eq
  intro i
  rw [Nat.testBit_and, testBit_wordNot (base_pos W)]
  by_cases hi : i < W
  · simp [hi]
  · rw [Nat.testBit_lt_two_pow (lt_of_lt_of_le hx (Nat.pow_le_pow_right (by norm_num) (by omega)))]
    rfl

theorem UBig.andNotLarge_spec {cfg : Cfg} (hv : cfg.Valid) {a b : Buffer} (ha : a.WF cfg)
    (hb : b.WF cfg) :
    BitYields cfg (UBig.andNotLarge cfg a b.words) fun i =>
      (val cfg.W a.words).testBit i && !(val cfg.W b.words).testBit i := by
  have hla := ha.len
  have hf := bitFn_andNot cfg.W
  have hz := zipInPlace_isWords (a := a.words) (b := b.words) hf.lt ha.words hb.words
  have hzl := zipInPlace_length (fun x y => x &&& wordNot cfg.W y) a.words b.words
  unfold UBig.andNotLarge
  refine bitYields_digits hv (x := .large a) (y := .large b) ha hb hf
    (ha.ok.setWords hz (by omega)) (by simp only; omega) fun k => ?_
  simp only [UBig.digit]
  rw [zipInPlace_getD]
  split
  · rfl
  · by_cases hk : k < a.words.length
    · rw [List.getD_eq_default b.words _ (by omega), andNot_zero (getD_lt ha.words k)]
    · rw [List.getD_eq_default a.words _ (by omega), Nat.zero_and]

/-- `a.and_not(b)` acts bit by bit. -/
theorem UBig.andNot_spec {cfg : Cfg} (hv : cfg.Valid) (o1 o2 : Own) {a b : UBig} (ha : a.WF cfg)
    (hb : b.WF cfg) :
    BitYields cfg (UBig.andNot cfg o1 o2 a b) fun i =>
      (a.value cfg).testBit i && !(b.value cfg).testBit i := by
  have hf := bitFn_andNot cfg.W
  have h0 : ∀ x, x < base cfg.W → x &&& wordNot cfg.W 0 = x := fun x hx => andNot_zero hx
  cases o1 <;> cases a <;> cases b <;> simp only [UBig.andNot, UBig.andNotV, UBig.andNotR]
  · exact bitYields_word hv ha hb hf (by simp [UBig.digit]) (by simp [UBig.digit])
  · rw [firstR_spec hb.two]
    exact bitYields_word hv ha hb hf rfl (fun k => by rw [digit_small_succ, Nat.zero_and])
  · exact UBig.bitopLargeWord_spec hv hf h0 ha hb
  · exact UBig.andNotLarge_spec hv ha hb
  · exact bitYields_word hv ha hb hf (by simp [UBig.digit]) (by simp [UBig.digit])
  · rw [firstR_spec hb.two]
    exact bitYields_word hv ha hb hf rfl (fun k => by rw [digit_small_succ, Nat.zero_and])
  · refine BitYields.of_bind (Buffer.clone_spec ha) ?_
    rintro c ⟨h1, h2⟩
    exact (UBig.bitopLargeWord_spec hv hf h0 h1 hb).congr fun i => by rw [h2]; rfl
  · refine BitYields.of_bind (Buffer.clone_spec ha) ?_
    rintro c ⟨h1, h2⟩
    exact (UBig.andNotLarge_spec hv h1 hb).congr fun i => by rw [h2]; rfl

end Ibig
