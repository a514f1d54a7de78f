import Verif.Model.Fmt
import Verif.Proofs.Bytes
import Verif.Proofs.ParseEntry
/-! Proofs about the digit writer: raw digits to ASCII, in parallel, through a buffer. -/
namespace Ibig

/-- the character the code writes for the digit `d` -/
def asciiOf (c : DigitCase) (d : Nat) : Nat := if d < 10 then d + 48 else d + c.offset + 48

/-! ### One chunk -/

theorem leBytesVal_map_add (f g : Nat → Nat) (l : List Nat) :
    leBytesVal (l.map fun d => f d + g d) = leBytesVal (l.map f) + leBytesVal (l.map g) := by
  induction l with
  | nil => rfl
  | cons x xs ih => simp only [List.map_cons, leBytesVal, ih]; ring

theorem leBytesVal_map_mul (c : Nat) (f : Nat → Nat) (l : List Nat) :
    leBytesVal (l.map fun d => c * f d) = c * leBytesVal (l.map f) := by
  induction l with
  | nil => rfl
  | cons x xs ih => simp only [List.map_cons, leBytesVal, ih]; ring

theorem leBytesVal_ones (l : List Nat) : 255 * leBytesVal (l.map fun _ => 1) + 1 = 256 ^ l.length := by
  induction l with
  | nil => rfl
  | cons x xs ih => simp only [List.map_cons, leBytesVal, List.length_cons, pow_succ, ← ih]; ring

theorem allOnes_eq {W : Nat} (h : W = W / 8 * 8) {l : List Nat} (hl : l.length = W / 8) :
    allOnes W = leBytesVal (l.map fun _ => 1) := by
  have h1 := leBytesVal_ones l
  have h2 : 2 ^ W = 256 ^ l.length := by
    rw [hl, show (256 : Nat) = 2 ^ 8 by norm_num, ← pow_mul]; congr 1; omega
  unfold allOnes
  rw [h2, ← h1]
  omega

theorem and_split8 (a0 a b0 b : Nat) (h1 : a0 < 256) (h2 : b0 < 256) :
    (a0 + 256 * a) &&& (b0 + 256 * b) = (a0 &&& b0) + 256 * (a &&& b) := by
  have hd : ((a0 + 256 * a) &&& (b0 + 256 * b)) / 2 ^ 8 = a &&& b := by
    rw [Nat.and_div_two_pow]; congr 1 <;> omega
  have hm : ((a0 + 256 * a) &&& (b0 + 256 * b)) % 2 ^ 8 = a0 &&& b0 := by
    rw [Nat.and_mod_two_pow]; congr 1 <;> omega
  omega

theorem letters_eq (l : List Nat) (h : ∀ d ∈ l, d < 128) :
    (leBytesVal (l.map fun d => 0x76 + d) / 2 ^ 7) &&& leBytesVal (l.map fun _ => 1) =
      leBytesVal (l.map fun d => if 10 ≤ d then 1 else 0) := by
  induction l with
  | nil => rfl
  | cons x xs ih =>
    simp only [List.mem_cons, forall_eq_or_imp] at h
    have ih := ih h.2
    simp only [List.map_cons, leBytesVal]
    generalize leBytesVal (xs.map fun d => 0x76 + d) = X at *
    generalize leBytesVal (xs.map fun _ => 1) = O at *
    have hx := h.1
    have e : (118 + x + 256 * X) / 2 ^ 7 = ((118 + x) / 128 + 2 * X) % 256 + 256 * (X / 2 ^ 7) := by omega
    rw [e, and_split8 _ _ _ _ (by omega) (by omega), ih, Nat.and_one_is_mod]
    congr 1
    split <;> omega

theorem isBytes_map {f : Nat → Nat} {l : List Nat} (h : ∀ d ∈ l, f d < 256) : IsBytes (l.map f) := by
  intro x hx
  obtain ⟨d, hd, rfl⟩ := List.mem_map.mp hx
  exact h d hd

theorem toLeBytesN_leBytesVal {l : List Nat} (h : IsBytes l) : toLeBytesN l.length (leBytesVal l) = l := by
  induction l with
  | nil => rfl
  | cons x xs ih =>
    have h1 : x < 256 := h x (by simp)
    have h2 := ih (fun y hy => h y (by simp [hy]))
    simp only [List.length_cons, leBytesVal, toLeBytesN]
    rw [show (x + 256 * leBytesVal xs) % 256 = x by omega, show (x + 256 * leBytesVal xs) / 256 = leBytesVal xs by
      omega, h2]

theorem offset_le (c : DigitCase) : c.offset ≤ 39 := by cases c <;> decide

theorem leBytesVal_map_lt {W : Nat} (h8 : W = W / 8 * 8) {l : List Nat} (hl : l.length = W / 8) {f : Nat → Nat}
    (h : ∀ d ∈ l, f d < 256) : leBytesVal (l.map f) < 2 ^ W := by
  have := leBytesVal_lt (isBytes_map h)
  rw [List.length_map, hl, show (256 : Nat) = 2 ^ 8 by norm_num, ← pow_mul] at this
  rwa [show 8 * (W / 8) = W by omega] at this

theorem leBytesVal_map_id (l : List Nat) : leBytesVal (l.map fun d => d) = leBytesVal l := by simp

theorem addLetters_spec {W : Nat} (h8 : W = W / 8 * 8) {l : List Nat} (hl : l.length = W / 8)
    (h : ∀ d ∈ l, d < 36) (c : DigitCase) :
    addLetters W c (leBytesVal l) = .ok (leBytesVal (l.map fun d => if d < 10 then d else d + c.offset)) := by
  unfold addLetters
  split
  · have ho := offset_le c
    have hO := allOnes_eq h8 hl
    have e1 : 0x76 * allOnes W = leBytesVal (l.map fun d => 0x76 * 1) := by rw [hO, leBytesVal_map_mul]
    have e2 : 0x76 * allOnes W + leBytesVal l = leBytesVal (l.map fun d => 0x76 + d) := by
      rw [leBytesVal_map_add (fun _ => 0x76) (fun d => d), leBytesVal_map_id, e1]
    rw [ckMul_ok (by rw [e1]; exact leBytesVal_map_lt h8 hl (by intro d hd; simp))]
    simp only [bind, Except.bind]
    rw [ckAdd_ok (by rw [e2]; exact leBytesVal_map_lt h8 hl (by intro d hd; have := h d hd; omega))]
    simp only
    rw [e2, hO, letters_eq l (fun d hd => by have := h d hd; omega)]
    have e3 : leBytesVal (l.map fun d => if 10 ≤ d then 1 else 0) * c.offset =
        leBytesVal (l.map fun d => c.offset * if 10 ≤ d then 1 else 0) := by
      rw [leBytesVal_map_mul, Nat.mul_comm]
    have e4 : leBytesVal l + leBytesVal (l.map fun d => c.offset * if 10 ≤ d then 1 else 0) =
        leBytesVal (l.map fun d => if d < 10 then d else d + c.offset) := by
      rw [← leBytesVal_map_id l, ← leBytesVal_map_add]
      congr 1
      apply List.map_congr_left
      intro d _
      by_cases hd : d < 10
      · rw [if_neg (by omega), if_pos hd]; omega
      · rw [if_pos (by omega), if_neg hd]; omega
    rw [ckMul_ok (by
      rw [e3]; exact leBytesVal_map_lt h8 hl (by intro d hd; split <;> omega))]
    simp only
    rw [e3, ckAdd_ok (by
      rw [e4]; exact leBytesVal_map_lt h8 hl (by intro d hd; have := h d hd; split <;> omega)), e4]
  · rename_i hc
    have : c = .noLetters := by_contra hc
    subst this
    congr 1
    conv_lhs => rw [← leBytesVal_map_id l]
    congr 1
    apply List.map_congr_left
    intro d _
    simp [DigitCase.offset]

theorem digitChunkToAscii_spec {W : Nat} (h8 : W = W / 8 * 8) (be : Bool) {l : List Nat} (hl : l.length = W / 8)
    (h : ∀ d ∈ l, d < 36) (c : DigitCase) :
    digitChunkToAscii W be l c = .ok (l.map (asciiOf c)) := by
  have key : ∀ l : List Nat, l.length = W / 8 → (∀ d ∈ l, d < 36) →
      (do
        let word ← addLetters W c (leBytesVal l)
        let x ← ckMul W (allOnes W) 48
        ckAdd W word x : R Nat) = .ok (leBytesVal (l.map (asciiOf c))) := by
    intro l hl h
    have ho := offset_le c
    rw [addLetters_spec h8 hl h]
    simp only [bind, Except.bind]
    have e1 : allOnes W * 48 = leBytesVal (l.map fun d => 48 * 1) := by
      rw [allOnes_eq h8 hl, leBytesVal_map_mul, Nat.mul_comm]
    rw [ckMul_ok (by rw [e1]; exact leBytesVal_map_lt h8 hl (by intro d hd; simp)), e1]
    simp only
    have e2 : leBytesVal (l.map fun d => if d < 10 then d else d + c.offset) + leBytesVal (l.map fun d => 48 * 1) =
        leBytesVal (l.map (asciiOf c)) := by
      rw [← leBytesVal_map_add]
      congr 1
      apply List.map_congr_left
      intro d _
      unfold asciiOf
      split <;> omega
    rw [ckAdd_ok, e2]
    rw [e2]
    refine leBytesVal_map_lt h8 hl (f := asciiOf c) ?_
    intro d hd
    have := h d hd
    unfold asciiOf
    split <;> omega
  have hb : ∀ l : List Nat, (∀ d ∈ l, d < 36) → IsBytes (l.map (asciiOf c)) := by
    intro l h
    have ho := offset_le c
    refine isBytes_map ?_
    intro d hd
    have := h d hd
    unfold asciiOf
    split <;> omega
  have k2 : ∀ l : List Nat, l.length = W / 8 → (∀ d ∈ l, d < 36) →
      (do
        let word ← addLetters W c (leBytesVal l)
        let x ← ckMul W (allOnes W) 48
        let word ← ckAdd W word x
        let bytes := toLeBytesN (W / 8) word
        .ok (if be then bytes.reverse else bytes) : R (List Nat)) =
      .ok (if be then (l.map (asciiOf c)).reverse else l.map (asciiOf c)) := by
    intro l hl h
    have k := key l hl h
    have e : (do
        let word ← addLetters W c (leBytesVal l)
        let x ← ckMul W (allOnes W) 48
        let word ← ckAdd W word x
        let bytes := toLeBytesN (W / 8) word
        .ok (if be then bytes.reverse else bytes) : R (List Nat)) =
      (do
        let word ← addLetters W c (leBytesVal l)
        let x ← ckMul W (allOnes W) 48
        ckAdd W word x : R Nat) >>= fun word =>
          .ok (if be then (toLeBytesN (W / 8) word).reverse else toLeBytesN (W / 8) word) := by
      simp only [bind_assoc]
    rw [e, k]
    simp only [bind, Except.bind]
    rw [show W / 8 = (l.map (asciiOf c)).length by rw [List.length_map, hl], toLeBytesN_leBytesVal (hb l h)]
  unfold digitChunkToAscii
  cases be with
  | false => simpa using k2 l hl h
  | true =>
    have := k2 l.reverse (by rw [List.length_reverse, hl]) (fun d hd => h d (List.mem_reverse.mp hd))
    simpa using this

theorem chunksToAscii_spec {W : Nat} (h8 : W = W / 8 * 8) (hpos : 0 < W / 8) (be : Bool) (c : DigitCase) :
    ∀ (k m : Nat) (l : List Nat), l.length = m * (W / 8) → m ≤ k → (∀ d ∈ l, d < 36) →
      chunksToAscii W be c k l = .ok (l.map (asciiOf c)) := by
  intro k
  induction k with
  | zero =>
    intro m l hl hm h
    have : m = 0 := by omega
    subst this
    have : l = [] := List.eq_nil_of_length_eq_zero (by omega)
    subst this
    rfl
  | succ k ih =>
    intro m l hl hm h
    unfold chunksToAscii
    by_cases hm0 : m = 0
    · subst hm0
      have : l = [] := List.eq_nil_of_length_eq_zero (by omega)
      subst this
      rw [if_pos (by simpa using hpos)]
      rfl
    · obtain ⟨m, rfl⟩ : ∃ j, m = j + 1 := ⟨m - 1, by omega⟩
      rw [Nat.add_mul, Nat.one_mul] at hl
      rw [if_neg (by omega), digitChunkToAscii_spec h8 be (by rw [List.length_take]; omega)
        (fun d hd => h d (List.mem_of_mem_take hd))]
      simp only [bind, Except.bind]
      rw [ih m (l.drop (W / 8)) (by rw [List.length_drop]; omega) (by omega)
        (fun d hd => h d (List.mem_of_mem_drop hd))]
      simp only
      rw [← List.map_append, List.take_append_drop]

/-! ### The writer -/

/-- everything written so far, including what is still in the buffer -/
def DigitWriter.text (dw : DigitWriter) : List Nat := dw.out ++ dw.buffer.map (asciiOf dw.digitCase)

/-- invariant of the writer -/
structure DigitWriter.OK (W : Nat) (dw : DigitWriter) : Prop where
  room : dw.buffer.length < digitBufferLen W
  digits : ∀ d ∈ dw.buffer, d < 36

/-- the given step writes the digits `ds` -/
def Writes (W : Nat) (f : DigitWriter → R DigitWriter) (ds : List Nat) : Prop :=
  ∀ dw : DigitWriter, dw.OK W → Returns (f dw) fun dw' => dw'.OK W ∧ dw'.digitCase = dw.digitCase ∧
    dw'.text = dw.text ++ ds.map (asciiOf dw.digitCase)

theorem Writes.nil (W : Nat) : Writes W (fun dw => .ok dw) [] := by
  intro dw h
  rw [returns_ok]
  exact ⟨h, rfl, by simp⟩

theorem Writes.bind {W : Nat} {f g : DigitWriter → R DigitWriter} {a b : List Nat} (hf : Writes W f a)
    (hg : Writes W g b) : Writes W (fun dw => do let dw ← f dw; g dw) (a ++ b) := by
  intro dw h
  refine Returns.bind (hf dw h) ?_
  rintro d1 ⟨h1, h2, h3⟩
  refine (hg d1 h1).mono ?_
  rintro d2 ⟨k1, k2, k3⟩
  refine ⟨k1, k2.trans h2, ?_⟩
  rw [k3, h3, h2, List.map_append, List.append_assoc]

theorem roundUp_spec {a b : Nat} (hb : 0 < b) : ∃ m, roundUp a b = m * b ∧ a ≤ m * b ∧ m * b < a + b := by
  unfold roundUp ceilDiv
  refine ⟨_, rfl, ?_⟩
  split
  · subst_vars; simp [hb]
  · have h1 := Nat.div_add_mod (a - 1) b
    have h2 := Nat.mod_lt (a - 1) hb
    rw [Nat.add_mul, Nat.one_mul, Nat.mul_comm ((a - 1) / b) b]
    omega

theorem DigitWriter.flush_spec {W : Nat} (h8 : W = W / 8 * 8) (hpos : 0 < W / 8) {dw : DigitWriter}
    (hl : dw.buffer.length ≤ digitBufferLen W) (hd : ∀ d ∈ dw.buffer, d < 36) :
    dw.flush W = .ok { dw with buffer := [], out := dw.text } := by
  unfold DigitWriter.flush
  obtain ⟨m, e, h1, h2⟩ := roundUp_spec (a := dw.buffer.length) hpos
  obtain ⟨m', e', h1', h2'⟩ := roundUp_spec (a := 32) hpos
  have hle : roundUp dw.buffer.length (W / 8) ≤ digitBufferLen W := by
    unfold digitBufferLen at hl ⊢
    rw [e'] at hl ⊢
    rw [e]
    refine Nat.mul_le_mul_right _ ?_
    by_contra hc
    have : (m' + 1) * (W / 8) ≤ m * (W / 8) := Nat.mul_le_mul_right _ (by omega)
    rw [Nat.add_mul] at this
    omega
  simp only [assertR_true hle, bind, Except.bind]
  have hlen : (dw.buffer ++ List.replicate (roundUp dw.buffer.length (W / 8) - dw.buffer.length) 0).length =
      m * (W / 8) := by
    rw [List.length_append, List.length_replicate, e]; omega
  rw [chunksToAscii_spec h8 hpos dw.be dw.digitCase _ m _ hlen (by
    rw [hlen]; exact Nat.le_mul_of_pos_right _ hpos) (by
    intro d hd'
    rcases List.mem_append.mp hd' with h | h
    · exact hd d h
    · rw [List.mem_replicate] at h; omega)]
  simp only [DigitWriter.text]
  rw [List.map_append, List.take_append_of_le_length (by simp), List.take_of_length_le (by simp)]
  unfold fromUtf8Unchecked
  rw [assertR_true]
  · rfl
  · intro b hb
    obtain ⟨d, hd', rfl⟩ := List.mem_map.mp hb
    have h36 := hd d hd'
    have ho := offset_le dw.digitCase
    unfold asciiOf
    split <;> omega

theorem DigitWriter.writeLoop_spec {W : Nat} (h8 : W = W / 8 * 8) (hpos : 0 < W / 8) :
    ∀ (fuel : Nat) (buf : List Nat), buf.length ≤ fuel → (∀ d ∈ buf, d < 36) →
      Writes W (fun dw => DigitWriter.writeLoop W fuel dw buf) buf := by
  intro fuel
  induction fuel with
  | zero =>
    intro buf hl hd dw h
    have : buf = [] := List.eq_nil_of_length_eq_zero (by omega)
    subst this
    simp only [DigitWriter.writeLoop]
    exact Writes.nil W dw h
  | succ fuel ih =>
    intro buf hl hd dw h
    simp only [DigitWriter.writeLoop]
    by_cases hb : buf = []
    · subst hb
      rw [if_pos rfl]
      exact Writes.nil W dw h
    · rw [if_neg hb]
      have hbl : 0 < buf.length := List.length_pos_iff.mpr hb
      have hroom := h.room
      rw [ckSub_ok hroom.le]
      simp only [bind, Except.bind]
      rw [show splitR buf (min buf.length (digitBufferLen W - dw.buffer.length)) = .ok (buf.take (min buf.length (digitBufferLen W - dw.buffer.length)), buf.drop (min buf.length (digitBufferLen W - dw.buffer.length))) from if_pos (Nat.min_le_left _ _)]
      simp only
      have hlenNew : (dw.buffer ++ buf.take (min buf.length (digitBufferLen W - dw.buffer.length))).length ≤
          digitBufferLen W := by
        rw [List.length_append, List.length_take]; omega
      have hdNew : ∀ d ∈ dw.buffer ++ buf.take (min buf.length (digitBufferLen W - dw.buffer.length)), d < 36 := by
        intro d hd'
        rcases List.mem_append.mp hd' with h' | h'
        · exact h.digits d h'
        · exact hd d (List.mem_of_mem_take h')
      have step : Returns (DigitWriter.flushIfFull W { dw with buffer := dw.buffer ++ buf.take (min buf.length
            (digitBufferLen W - dw.buffer.length)) })
          fun dw' => dw'.OK W ∧ dw'.digitCase = dw.digitCase ∧ dw'.text = dw.text ++
            (buf.take (min buf.length (digitBufferLen W - dw.buffer.length))).map (asciiOf dw.digitCase) := by
        unfold DigitWriter.flushIfFull
        split
        · rw [DigitWriter.flush_spec h8 hpos (by simpa only using hlenNew) (by simpa only using hdNew), returns_ok]
          refine ⟨⟨by simp only [List.length_nil]; omega, by simp⟩, rfl, ?_⟩
          simp [DigitWriter.text]
        · rename_i hne
          rw [returns_ok]
          refine ⟨⟨lt_of_le_of_ne hlenNew hne, hdNew⟩, rfl, ?_⟩
          simp [DigitWriter.text]
      obtain ⟨d1, e1, h1, h2, h3⟩ := step
      rw [e1]
      simp only
      refine (ih (buf.drop (min buf.length (digitBufferLen W - dw.buffer.length))) (by
        rw [List.length_drop]; omega) (fun d hd' => hd d (List.mem_of_mem_drop hd')) d1 h1).mono ?_
      rintro d2 ⟨k1, k2, k3⟩
      refine ⟨k1, k2.trans h2, ?_⟩
      rw [k3, h3, h2, List.append_assoc, ← List.map_append, List.take_append_drop]

theorem DigitWriter.write_spec {W : Nat} (h8 : W = W / 8 * 8) (hpos : 0 < W / 8) {buf : List Nat}
    (hd : ∀ d ∈ buf, d < 36) : Writes W (fun dw => dw.write W buf) buf :=
  DigitWriter.writeLoop_spec h8 hpos buf.length buf le_rfl hd

/-- what reaches the sink -/
theorem writeDigits_spec {W : Nat} (h8 : W = W / 8 * 8) (hpos : 0 < W / 8) (be : Bool) (c : DigitCase)
    {p : Prepared} {ds : List Nat} (h : Writes W p.write ds) :
    writeDigits W be c p = .ok (ds.map (asciiOf c)) := by
  have hb : 0 < digitBufferLen W := by
    obtain ⟨m', e', h1', h2'⟩ := roundUp_spec (a := 32) hpos
    unfold digitBufferLen; omega
  obtain ⟨d1, e1, h1, h2, h3⟩ := h ⟨[], c, be, []⟩ ⟨hb, by simp⟩
  unfold writeDigits
  rw [e1]
  simp only [bind, Except.bind]
  rw [DigitWriter.flush_spec h8 hpos h1.room.le h1.digits]
  simp only
  rw [h3]
  simp [DigitWriter.text]

end Ibig
