import Verif.Model.Bytes
import Verif.Proofs.Number
import Verif.Proofs.FastDivide
/-! Conversions from and to bytes. -/
namespace Ibig

/-- every element is a byte -/
def IsBytes (l : List Nat) : Prop := ∀ b ∈ l, b < 256

theorem isBytes_append {a b : List Nat} : IsBytes (a ++ b) ↔ IsBytes a ∧ IsBytes b := by
  simp [IsBytes, or_imp, forall_and]

theorem IsBytes.take {l : List Nat} (h : IsBytes l) (n : Nat) : IsBytes (l.take n) :=
  fun x hx => h x (List.mem_of_mem_take hx)
theorem IsBytes.drop {l : List Nat} (h : IsBytes l) (n : Nat) : IsBytes (l.drop n) :=
  fun x hx => h x (List.mem_of_mem_drop hx)
theorem IsBytes.reverse {l : List Nat} (h : IsBytes l) : IsBytes l.reverse :=
  fun x hx => h x (List.mem_reverse.mp hx)

theorem leBytesVal_append (a b : List Nat) :
    leBytesVal (a ++ b) = leBytesVal a + 256 ^ a.length * leBytesVal b := by
  induction a with
  | nil => simp [leBytesVal]
  | cons x xs ih => simp only [List.cons_append, leBytesVal, ih, List.length_cons, pow_succ]; ring

theorem leBytesVal_replicate_zero (n : Nat) : leBytesVal (List.replicate n 0) = 0 := by
  induction n with
  | zero => rfl
  | succ n ih => simp [List.replicate_succ, leBytesVal, ih]

theorem leBytesVal_lt {l : List Nat} (h : IsBytes l) : leBytesVal l < 256 ^ l.length := by
  induction l with
  | nil => simp [leBytesVal]
  | cons x xs ih =>
    have h1 : x < 256 := h x (by simp)
    have h2 := ih (fun y hy => h y (by simp [hy]))
    simp only [leBytesVal, List.length_cons, pow_succ]
    omega

theorem toLeBytesN_length (n x : Nat) : (toLeBytesN n x).length = n := by
  induction n generalizing x with
  | zero => rfl
  | succ n ih => simp [toLeBytesN, ih]

theorem toLeBytesN_isBytes (n x : Nat) : IsBytes (toLeBytesN n x) := by
  induction n generalizing x with
  | zero => simp [toLeBytesN, IsBytes]
  | succ n ih =>
    intro b hb
    simp only [toLeBytesN, List.mem_cons] at hb
    rcases hb with rfl | hb
    · omega
    · exact ih _ _ hb

theorem leBytesVal_toLeBytesN (n x : Nat) : leBytesVal (toLeBytesN n x) = x % 256 ^ n := by
  induction n generalizing x with
  | zero => simp [toLeBytesN, leBytesVal, Nat.mod_one]
  | succ n ih =>
    simp only [toLeBytesN, leBytesVal, ih, pow_succ]
    rw [Nat.mul_comm (256 ^ n) 256, Nat.mod_mul]

theorem base_bytes {cfg : Cfg} (hv : cfg.Valid) : base cfg.W = 256 ^ (cfg.W / 8) := by
  unfold base
  rw [show (256 : Nat) = 2 ^ 8 by norm_num, ← pow_mul, ← hv.W8]

theorem Cfg.Valid.bytes_pos {cfg : Cfg} (hv : cfg.Valid) : 2 ≤ cfg.W / 8 := by
  have := hv.W16; omega

theorem wordFromLeBytesPartial_spec {cfg : Cfg} {l : List Nat} (h : l.length ≤ cfg.W / 8) :
    wordFromLeBytesPartial cfg l = .ok (leBytesVal l) := by
  unfold wordFromLeBytesPartial
  rw [if_pos h, leBytesVal_append, leBytesVal_replicate_zero]
  simp

theorem leBytesVal_word {cfg : Cfg} (hv : cfg.Valid) {l : List Nat} (hb : IsBytes l)
    (h : l.length ≤ cfg.W / 8) : leBytesVal l < base cfg.W := by
  rw [base_bytes hv]
  exact lt_of_lt_of_le (leBytesVal_lt hb) (Nat.pow_le_pow_right (by norm_num) h)

theorem pushLeChunks_spec {cfg : Cfg} (hv : cfg.Valid) : ∀ (fuel : Nat) (bytes : List Nat) (b : Buffer),
    bytes.length < fuel → IsBytes bytes → b.OK cfg →
    b.words.length * (cfg.W / 8) + bytes.length ≤ b.cap * (cfg.W / 8) →
    Returns (pushLeChunks cfg fuel bytes b) fun c => c.OK cfg ∧
      val cfg.W c.words = val cfg.W b.words + base cfg.W ^ b.words.length * leBytesVal bytes := by
  have hp := hv.bytes_pos
  intro fuel
  induction fuel with
  | zero => intro bytes b h; omega
  | succ fuel ih =>
    intro bytes b hf hby hb hcap
    generalize hk : cfg.W / 8 = k at *
    simp only [pushLeChunks]
    rw [hk]
    split
    · rename_i h1
      obtain ⟨x, y, rfl, hx⟩ : ∃ x y, bytes = x ++ y ∧ x.length = k :=
        ⟨bytes.take k, bytes.drop k, by simp, by simp [h1]⟩
      rw [isBytes_append] at hby
      have e1 : (x ++ y).take k = x := by rw [← hx]; simp
      have e2 : (x ++ y).drop k = y := by rw [← hx]; simp
      rw [e1, e2]
      simp only [List.length_append] at hf hcap
      have hroom : b.words.length < b.cap := by
        by_contra hc
        have : b.cap * k ≤ b.words.length * k := Nat.mul_le_mul_right _ (by omega)
        omega
      refine Returns.bind (Buffer.push_spec hb (leBytesVal_word hv hby.1 (by omega)) hroom) ?_
      rintro c ⟨h2, h3, h4⟩
      refine (ih y c (by omega) hby.2 h2 ?_).mono ?_
      · rw [h3, h4]
        simp only [List.length_append, List.length_singleton, Nat.add_mul, Nat.one_mul]
        omega
      · rintro d ⟨g1, g2⟩
        refine ⟨g1, ?_⟩
        rw [g2, h3, val_append, leBytesVal_append, hx, base_bytes hv, hk]
        simp only [val_cons, val_nil, List.length_append, List.length_singleton, pow_add]
        ring
    · rename_i h1
      split
      · rename_i h2
        subst h2
        exact returns_ok.mpr ⟨hb, by simp [leBytesVal]⟩
      · rename_i h2
        have hne : bytes.length ≠ 0 := fun e => h2 (List.length_eq_zero_iff.mp e)
        rw [wordFromLeBytesPartial_spec (by omega)]
        refine Returns.bind (P := fun w => w = leBytesVal bytes) (returns_ok.mpr rfl) ?_
        intro w hw
        rw [hw]
        have hroom : b.words.length < b.cap := by
          by_contra hc
          have : b.cap * k ≤ b.words.length * k := Nat.mul_le_mul_right _ (by omega)
          omega
        refine (Buffer.push_spec hb (leBytesVal_word hv hby (by omega)) hroom).mono ?_
        rintro c ⟨g1, g2, -⟩
        refine ⟨g1, ?_⟩
        rw [g2, val_append]
        simp

/-- `from_le_bytes`: exact, unless the byte string is longer than the buffer limit. -/
theorem UBig.fromLeBytes_spec {cfg : Cfg} (hv : cfg.Valid) {l : List Nat} (hb : IsBytes l) :
    (l.length ≤ (cfg.maxLen + 4) * (cfg.W / 8) → Yields cfg (UBig.fromLeBytes cfg l) (leBytesVal l)) ∧
    ((cfg.maxLen + 4) * (cfg.W / 8) < l.length → UBig.fromLeBytes cfg l = .error .tooLarge) := by
  have hp := hv.bytes_pos
  have hlg := hv.large
  unfold UBig.fromLeBytes
  split
  · rename_i h
    rw [wordFromLeBytesPartial_spec h]
    constructor
    · intro _; exact yields_small hv (leBytesVal_word hv hb h)
    · intro h2
      have : 1 * (cfg.W / 8) ≤ (cfg.maxLen + 4) * (cfg.W / 8) := Nat.mul_le_mul_right _ (by omega)
      omega
  · rename_i h
    unfold UBig.fromLeBytesLarge
    rw [assertR_true (by omega)]
    have key : l.length ≤ (cfg.maxLen + 4) * (cfg.W / 8) ↔
        (l.length - 1) / (cfg.W / 8) + 1 ≤ cfg.maxLen + 4 := by
      rw [Nat.add_one_le_iff, Nat.div_lt_iff_lt_mul (by omega)]
      omega
    constructor
    · intro h1
      have h2 := key.mp h1
      rw [Buffer.allocate_ok h2]
      refine Yields.of_bind (P := fun _ => True) (returns_ok.mpr trivial) fun _ _ => ?_
      refine Yields.of_bind (P := fun s => s = _) (returns_ok.mpr rfl) ?_
      intro s hs
      refine Yields.of_bind (pushLeChunks_spec hv _ _ _ (by omega) hb ?_ ?_) ?_
      · rw [hs]; exact ⟨by simp, by simp⟩
      · rw [hs]
        simp only [List.length_nil, Nat.zero_mul, Nat.zero_add]
        have h3 := le_allocCap h2
        have h4 := Nat.mul_le_mul_right (cfg.W / 8) h3
        have h5 := Nat.lt_div_mul_add (a := l.length - 1) (b := cfg.W / 8) (by omega)
        rw [Nat.add_mul, Nat.one_mul] at h4
        omega
      · rintro c ⟨g1, g2⟩
        refine yields_ofBuffer hv g1 ?_
        rw [g2, hs]; simp
    · intro h1
      rw [Buffer.allocate_err (by
        by_contra hc
        have := key.mpr (by omega)
        omega)]
      rfl

theorem wordFromBe_eq (cfg : Cfg) (l : List Nat) :
    wordFromBeBytesPartial cfg l = wordFromLeBytesPartial cfg l.reverse := by
  unfold wordFromBeBytesPartial wordFromLeBytesPartial
  simp

theorem pushBe_eq (cfg : Cfg) (fuel : Nat) (l : List Nat) (b : Buffer) :
    pushBeChunks cfg fuel l b = pushLeChunks cfg fuel l.reverse b := by
  induction fuel generalizing l b with
  | zero => rfl
  | succ fuel ih =>
    simp only [pushBeChunks, pushLeChunks, List.length_reverse, List.reverse_eq_nil_iff,
      wordFromBe_eq, ih, List.take_reverse, List.drop_reverse]

/-- Big-endian parsing is little-endian parsing of the reversed bytes. -/
theorem UBig.fromBe_eq (cfg : Cfg) (l : List Nat) :
    UBig.fromBeBytes cfg l = UBig.fromLeBytes cfg l.reverse := by
  unfold UBig.fromBeBytes UBig.fromLeBytes UBig.fromBeBytesLarge UBig.fromLeBytesLarge
  simp only [List.length_reverse, wordFromBe_eq, pushBe_eq]

/-! ### To bytes -/

theorem leBytesVal_flatMap {cfg : Cfg} (hv : cfg.Valid) {l : List Nat} (h : IsWords cfg.W l) :
    leBytesVal (l.flatMap (toLeBytesN (cfg.W / 8))) = val cfg.W l := by
  induction l with
  | nil => rfl
  | cons x xs ih =>
    rw [isWords_cons] at h
    rw [List.flatMap_cons, leBytesVal_append, ih h.2, leBytesVal_toLeBytesN, toLeBytesN_length,
      ← base_bytes hv, Nat.mod_eq_of_lt h.1, val_cons]

theorem length_flatMap_bytes (k : Nat) (l : List Nat) :
    (l.flatMap (toLeBytesN k)).length = k * l.length := by
  induction l with
  | nil => rfl
  | cons x xs ih => simp [List.flatMap_cons, ih, toLeBytesN_length]; ring

theorem toLeBytesN_take {k n x : Nat} (h : k ≤ n) : (toLeBytesN n x).take k = toLeBytesN k x := by
  induction k generalizing n x with
  | zero => simp [toLeBytesN]
  | succ k ih =>
    cases n with
    | zero => omega
    | succ n => simp [toLeBytesN, ih (show k ≤ n by omega)]

theorem toLeBytesN_getLast {k x : Nat} (h : 1 ≤ k) :
    (toLeBytesN k x).getLast? = some (x / 256 ^ (k - 1) % 256) := by
  induction k generalizing x with
  | zero => omega
  | succ k ih =>
    cases k with
    | zero => simp [toLeBytesN]
    | succ k =>
      rw [toLeBytesN, List.getLast?_cons, ih (by omega)]
      simp only [Option.getD_some, Nat.add_sub_cancel, Option.some.injEq]
      rw [Nat.div_div_eq_div_mul, pow_succ, Nat.mul_comm]

/-- number of bytes needed for a word -/
theorem byteLen_spec {cfg : Cfg} (hv : cfg.Valid) {w : Nat} (hw : w < base cfg.W) :
    ∃ k, k ≤ cfg.W / 8 ∧ cfg.W / 8 - leadingZeros cfg.W w / 8 = k ∧
      leadingZeros cfg.W w / 8 ≤ cfg.W / 8 ∧ w < 256 ^ k ∧ (w ≠ 0 → 1 ≤ k) ∧
      (1 ≤ k → w / 256 ^ (k - 1) % 256 ≠ 0) ∧ (w = 0 → k = 0) := by
  have hbl : bitLen w ≤ cfg.W := bitLen_le_iff.mpr hw
  have hW := hv.W8
  have hlz : leadingZeros cfg.W w = cfg.W - bitLen w := rfl
  refine ⟨(bitLen w + 7) / 8, by omega, by omega, by omega, ?_, ?_, ?_, ?_⟩
  · rw [show (256 : Nat) = 2 ^ 8 by norm_num, ← pow_mul]
    exact lt_of_lt_of_le (lt_two_pow_bitLen w) (Nat.pow_le_pow_right (by norm_num) (by omega))
  · intro h0; have := bitLen_pos h0; omega
  · intro h1
    have h0 : w ≠ 0 := by rintro rfl; simp [bitLen] at h1
    have hlow := two_pow_le_of_bitLen h0
    have hhi := lt_two_pow_bitLen w
    have hp := bitLen_pos h0
    have e : (256 : Nat) ^ ((bitLen w + 7) / 8 - 1) = 2 ^ (8 * ((bitLen w + 7) / 8 - 1)) := by
      rw [show (256 : Nat) = 2 ^ 8 by norm_num, ← pow_mul]
    have hge : 1 ≤ w / 256 ^ ((bitLen w + 7) / 8 - 1) := by
      rw [Nat.le_div_iff_mul_le (by positivity), e, Nat.one_mul]
      exact le_trans (Nat.pow_le_pow_right (by norm_num) (by omega)) hlow
    have hlt : w / 256 ^ ((bitLen w + 7) / 8 - 1) < 256 := by
      rw [Nat.div_lt_iff_lt_mul (by positivity), e, show (256 : Nat) = 2 ^ 8 by norm_num, ← pow_add]
      exact lt_of_lt_of_le hhi (Nat.pow_le_pow_right (by norm_num) (by omega))
    rw [Nat.mod_eq_of_lt hlt]; omega
  · rintro rfl; simp [bitLen]

theorem byteVec_ok {cfg : Cfg} (hv : cfg.Valid) {n skip : Nat} (hn : n ≤ cfg.maxLen)
    (hs : skip ≤ n * (cfg.W / 8)) : byteVec cfg n skip = .ok () := by
  have h1 : n * (cfg.W / 8) * 8 < 2 ^ cfg.U := by
    rw [Nat.mul_assoc]
    exact lt_of_le_of_lt (Nat.mul_le_mul hn (Nat.div_mul_le_self _ _)) hv.bits
  have h2 : 2 ^ cfg.U = 2 * 2 ^ (cfg.U - 1) := by
    have : 16 ≤ cfg.U := by rcases hv.usize with h | h | h <;> omega
    rw [← pow_succ', Nat.sub_add_cancel (by omega)]
  unfold byteVec
  have e1 : ckMul cfg.U n (cfg.W / 8) = .ok (n * (cfg.W / 8)) := by
    unfold ckMul; rw [if_pos (by omega)]
  have e2 : ckSub (n * (cfg.W / 8)) skip = .ok (n * (cfg.W / 8) - skip) := by
    unfold ckSub; rw [if_pos hs]
  rw [e1]
  simp only [bind, Except.bind]
  rw [e2]
  exact if_pos (by omega)

/-- `to_le_bytes` gives the base-256 digits, without a trailing zero. -/
theorem UBig.toLeBytes_spec {cfg : Cfg} (hv : cfg.Valid) {a : UBig} (ha : a.WF cfg) :
    Returns (a.toLeBytes cfg) fun l => IsBytes l ∧ leBytesVal l = a.value cfg ∧
      l.getLast? ≠ some 0 ∧ l.length ≤ cfg.maxLen * (cfg.W / 8) := by
  have hlg := hv.large
  cases a with
  | small x =>
    have hx : x < base cfg.W := ha
    obtain ⟨k, h1, h2, h3, h4, h5, h6, h7⟩ := byteLen_spec hv hx
    simp only [UBig.toLeBytes]
    unfold ckSub
    rw [if_pos h3, h2]
    refine Returns.bind (P := fun s => s = k) (returns_ok.mpr rfl) ?_
    intro s hs
    rw [hs, sliceR_ok (Nat.zero_le _) (by rw [toLeBytesN_length]; omega)]
    refine returns_ok.mpr ?_
    rw [List.drop_zero, toLeBytesN_take h1]
    refine ⟨toLeBytesN_isBytes _ _, ?_, ?_, ?_⟩
    · rw [leBytesVal_toLeBytesN, Nat.mod_eq_of_lt h4]; rfl
    · by_cases hk : 1 ≤ k
      · rw [toLeBytesN_getLast hk]
        have := h6 hk
        simpa using this
      · have : k = 0 := by omega
        subst this; simp [toLeBytesN]
    · rw [toLeBytesN_length]
      calc k ≤ 1 * (cfg.W / 8) := by omega
        _ ≤ _ := Nat.mul_le_mul_right _ (by omega)
  | large b =>
    have hb : b.WF cfg := ha
    have hw := hb.words
    have h2 := hb.two
    have htop := hb.top
    have hlen := hb.len
    simp only [UBig.toLeBytes, Buffer.len, UBig.value]
    obtain ⟨l, x, hl⟩ : ∃ l x, b.words = l ++ [x] := by
      rcases List.eq_nil_or_concat b.words with h | ⟨l, x, h⟩
      · rw [h] at h2; simp at h2
      · exact ⟨l, x, by simpa using h⟩
    rw [hl] at hw htop h2 hlen ⊢
    simp only [List.length_append, List.length_singleton, Nat.add_sub_cancel] at h2 hlen ⊢
    rw [isWords_append] at hw
    have hx : x < base cfg.W := hw.2 x (by simp)
    have hx0 : x ≠ 0 := by rintro rfl; simp at htop
    obtain ⟨k, k1, k2, k3, k4, k5, k6, -⟩ := byteLen_spec hv hx
    have hk := k5 hx0
    have eg : getR (l ++ [x]) l.length = .ok x := by simp [getR]
    have es : sliceR (l ++ [x]) 0 l.length = .ok l := by rw [sliceR_ok (by simp) (by simp)]; simp
    rw [eg, es]
    have ev : byteVec cfg (l.length + 1) (leadingZeros cfg.W x / 8) = .ok () :=
      byteVec_ok hv hlen (le_trans k3 (Nat.le_mul_of_pos_left _ (by omega)))
    simp only [bind, Except.bind]
    rw [ev]
    unfold ckSub
    simp only [bind, Except.bind]
    rw [if_pos k3, k2]
    simp only
    rw [sliceR_ok (Nat.zero_le _) (by rw [toLeBytesN_length]; omega)]
    refine returns_ok.mpr ?_
    rw [List.drop_zero, toLeBytesN_take k1]
    refine ⟨?_, ?_, ?_, ?_⟩
    · rw [isBytes_append]
      refine ⟨?_, toLeBytesN_isBytes _ _⟩
      intro y hy
      rw [List.mem_flatMap] at hy
      obtain ⟨w, -, hy⟩ := hy
      exact toLeBytesN_isBytes _ _ _ hy
    · rw [leBytesVal_append, leBytesVal_flatMap hv hw.1, length_flatMap_bytes, pow_mul,
        ← base_bytes hv, leBytesVal_toLeBytesN, Nat.mod_eq_of_lt k4, val_append]
      simp
    · rw [List.getLast?_append, toLeBytesN_getLast hk]
      simpa using k6 hk
    · rw [List.length_append, length_flatMap_bytes, toLeBytesN_length]
      calc cfg.W / 8 * l.length + k ≤ (l.length + 1) * (cfg.W / 8) := by
            rw [Nat.add_mul, Nat.mul_comm]; omega
        _ ≤ _ := Nat.mul_le_mul_right _ hlen

theorem flatMap_reverse_reverse (k : Nat) (l : List Nat) :
    l.reverse.flatMap (fun w => (toLeBytesN k w).reverse) = (l.flatMap (toLeBytesN k)).reverse := by
  induction l with
  | nil => rfl
  | cons x xs ih => simp [List.flatMap_append, List.flatMap_cons, ih]

/-- Big-endian output is the reverse of little-endian output. -/
theorem UBig.toBe_eq {cfg : Cfg} (hv : cfg.Valid) {a : UBig} (ha : a.WF cfg) :
    Returns (a.toBeBytes cfg) fun l => a.toLeBytes cfg = .ok l.reverse := by
  cases a with
  | small x =>
    have hx : x < base cfg.W := ha
    obtain ⟨k, h1, h2, h3, -⟩ := byteLen_spec hv hx
    simp only [UBig.toLeBytes, UBig.toBeBytes]
    unfold ckSub
    rw [if_pos h3, h2, sliceR_ok (by simp [toLeBytesN_length]; omega) le_rfl]
    refine returns_ok.mpr ?_
    simp only [bind, Except.bind]
    rw [sliceR_ok (Nat.zero_le _) (by rw [toLeBytesN_length]; omega)]
    rw [List.take_length, List.drop_reverse, List.reverse_reverse, toLeBytesN_length, h2]
    simp
  | large b =>
    have hb : b.WF cfg := ha
    have hw := hb.words
    have h2 := hb.two
    have hlen := hb.len
    simp only [UBig.toLeBytes, UBig.toBeBytes, Buffer.len]
    obtain ⟨l, x, hl⟩ : ∃ l x, b.words = l ++ [x] := by
      rcases List.eq_nil_or_concat b.words with h | ⟨l, x, h⟩
      · rw [h] at h2; simp at h2
      · exact ⟨l, x, by simpa using h⟩
    rw [hl] at hw h2 hlen ⊢
    simp only [List.length_append, List.length_singleton, Nat.add_sub_cancel] at h2 hlen ⊢
    rw [isWords_append] at hw
    have hx : x < base cfg.W := hw.2 x (by simp)
    obtain ⟨k, k1, k2, k3, -⟩ := byteLen_spec hv hx
    have eg : getR (l ++ [x]) l.length = .ok x := by simp [getR]
    have es : sliceR (l ++ [x]) 0 l.length = .ok l := by rw [sliceR_ok (by simp) (by simp)]; simp
    rw [eg, es]
    have ev : byteVec cfg (l.length + 1) (leadingZeros cfg.W x / 8) = .ok () :=
      byteVec_ok hv hlen (le_trans k3 (Nat.le_mul_of_pos_left _ (by omega)))
    simp only [bind, Except.bind]
    rw [ev]
    unfold ckSub
    simp only [bind, Except.bind]
    rw [if_pos k3, k2]
    simp only
    rw [sliceR_ok (by simp [toLeBytesN_length]; omega) le_rfl,
      sliceR_ok (Nat.zero_le _) (by rw [toLeBytesN_length]; omega)]
    refine returns_ok.mpr ?_
    simp only
    rw [List.reverse_append, List.take_length, List.drop_reverse, List.reverse_reverse,
      toLeBytesN_length, k2, flatMap_reverse_reverse, List.reverse_reverse]
    simp

/-- Conversion of an unsigned primitive with `bits` bits. -/
theorem UBig.fromUnsigned_spec {cfg : Cfg} (hv : cfg.Valid) {bits x : Nat} (h8 : bits = 8 * (bits / 8))
    (hb : bits ≤ 128) (hx : x < 2 ^ bits) : Yields cfg (UBig.fromUnsigned cfg bits x) x ∧ Fits cfg x := by
  have hlg := hv.large
  have hp := hv.bytes_pos
  have hf : Fits cfg x := by
    unfold Fits
    refine lt_of_lt_of_le hx (Nat.pow_le_pow_right (by norm_num) ?_)
    calc bits ≤ 512 * 16 := by omega
      _ ≤ cfg.maxLen * cfg.W := Nat.mul_le_mul hlg hv.W16
  refine ⟨?_, hf⟩
  unfold UBig.fromUnsigned
  split
  · rename_i h; exact yields_small hv h
  · have := (UBig.fromLeBytes_spec hv (toLeBytesN_isBytes (bits / 8) x)).1 (by
      rw [toLeBytesN_length]
      calc bits / 8 ≤ 516 * 2 := by omega
        _ ≤ _ := Nat.mul_le_mul (by omega) hp)
    rw [leBytesVal_toLeBytesN, Nat.mod_eq_of_lt] at this
    · exact this
    · rw [show (256 : Nat) = 2 ^ 8 by norm_num, ← pow_mul, ← h8]; exact hx

end Ibig
