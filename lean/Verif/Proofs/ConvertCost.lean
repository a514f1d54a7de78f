import Verif.Proofs.ConvertTime
/-!
Bounds for the number of steps of conversions and of functions for single bits.
-/
namespace Ibig.Timed

theorem takes_any {α : Type} (n : Nat) (x : R α) : Takes (pass n x) n (fun _ => True) := Takes.pass (Post.true _)

/-! Bytes -/

theorem takes_pushLeChunks {cfg : Cfg} (hW : 1 ≤ cfg.W / 8) (fuel : Nat) : ∀ (bytes : List Nat) (b : Buffer) (m : Nat),
    bytes.length ≤ m * (cfg.W / 8) →
    Takes (pushLeChunks cfg fuel bytes b) (2 * m + 1) (fun c => c.words.length ≤ b.words.length + m) := by
  induction fuel with
  | zero => intro _ _ _ _; exact Takes.throwT
  | succ fuel ih =>
    intro bytes b m hm
    rw [pushLeChunks]
    refine Takes.bind takes_tick (by omega) (fun _ M hM _ => ?_)
    refine Takes.ite (fun h => ?_) (fun h => Takes.ite (fun _ => Takes.pure (by omega)) (fun h0 => ?_))
    · cases m with
      | zero => rw [Nat.zero_mul] at hm; omega
      | succ m =>
        refine Takes.bind (takes_push _ _) (by omega) (fun c M1 hM1 hc => ?_)
        refine (ih _ c m ?_).mono (by omega) (fun d hd => ?_)
        · rw [List.length_drop]; rw [Nat.succ_mul] at hm; omega
        · rw [hc, List.length_append, List.length_singleton] at hd; omega
    · cases m with
      | zero =>
        rw [Nat.zero_mul] at hm
        exact absurd (List.length_eq_zero_iff.mp (by omega)) h0
      | succ m =>
        refine Takes.bind (takes_any 1 _) (by omega) (fun w M1 hM1 _ => ?_)
        refine (takes_push _ _).mono (by omega) (fun d hd => ?_)
        rw [hd, List.length_append, List.length_singleton]; omega

theorem takes_pushBeChunks {cfg : Cfg} (hW : 1 ≤ cfg.W / 8) (fuel : Nat) : ∀ (bytes : List Nat) (b : Buffer) (m : Nat),
    bytes.length ≤ m * (cfg.W / 8) →
    Takes (pushBeChunks cfg fuel bytes b) (2 * m + 1) (fun c => c.words.length ≤ b.words.length + m) := by
  induction fuel with
  | zero => intro _ _ _ _; exact Takes.throwT
  | succ fuel ih =>
    intro bytes b m hm
    rw [pushBeChunks]
    refine Takes.bind takes_tick (by omega) (fun _ M hM _ => ?_)
    refine Takes.ite (fun h => ?_) (fun h => Takes.ite (fun _ => Takes.pure (by omega)) (fun h0 => ?_))
    · cases m with
      | zero => rw [Nat.zero_mul] at hm; omega
      | succ m =>
        refine Takes.bind (takes_push _ _) (by omega) (fun c M1 hM1 hc => ?_)
        refine (ih _ c m ?_).mono (by omega) (fun d hd => ?_)
        · rw [List.length_take]; rw [Nat.succ_mul] at hm; omega
        · rw [hc, List.length_append, List.length_singleton] at hd; omega
    · cases m with
      | zero =>
        rw [Nat.zero_mul] at hm
        exact absurd (List.length_eq_zero_iff.mp (by omega)) h0
      | succ m =>
        refine Takes.bind (takes_any 1 _) (by omega) (fun w M1 hM1 _ => ?_)
        refine (takes_push _ _).mono (by omega) (fun d hd => ?_)
        rw [hd, List.length_append, List.length_singleton]; omega

theorem takes_fromLeBytes {cfg : Cfg} (hW : 1 ≤ cfg.W / 8) (bytes : List Nat) {m : Nat}
    (hm : bytes.length ≤ m * (cfg.W / 8)) : Takes (UBig.fromLeBytes cfg bytes) (4 * m + 5) (fun _ => True) := by
  unfold UBig.fromLeBytes
  refine Takes.ite (fun _ => ?_) (fun _ => ?_)
  · exact Takes.bind (takes_any 1 _) (by omega) (fun _ _ _ _ => Takes.pure trivial)
  · unfold UBig.fromLeBytesLarge
    tone takes_assertR _ => _u
    refine Takes.bind (takes_allocate _ _) (by omega) (fun b M hM hb => ?_)
    refine Takes.bind (takes_pushLeChunks hW _ bytes b m hm) (by omega) (fun c M1 hM1 hc => ?_)
    refine (takes_ofBuffer cfg c).mono ?_ (fun _ h => h)
    rw [hb, List.length_nil] at hc
    omega

theorem takes_fromBeBytes {cfg : Cfg} (hW : 1 ≤ cfg.W / 8) (bytes : List Nat) {m : Nat}
    (hm : bytes.length ≤ m * (cfg.W / 8)) : Takes (UBig.fromBeBytes cfg bytes) (4 * m + 5) (fun _ => True) := by
  unfold UBig.fromBeBytes
  refine Takes.ite (fun _ => ?_) (fun _ => ?_)
  · exact Takes.bind (takes_any 1 _) (by omega) (fun _ _ _ _ => Takes.pure trivial)
  · unfold UBig.fromBeBytesLarge
    tone takes_assertR _ => _u
    refine Takes.bind (takes_allocate _ _) (by omega) (fun b M hM hb => ?_)
    refine Takes.bind (takes_pushBeChunks hW _ bytes b m hm) (by omega) (fun c M1 hM1 hc => ?_)
    refine (takes_ofBuffer cfg c).mono ?_ (fun _ h => h)
    rw [hb, List.length_nil] at hc
    omega

theorem takes_bytesLoop (f : Nat → List Nat) (l : List Nat) : Takes (bytesLoop f l) l.length (fun _ => True) := by
  induction l with
  | nil => exact Takes.pure trivial
  | cons w ws ih =>
    rw [bytesLoop, List.length_cons]
    refine Takes.bind takes_tick (by omega) (fun _ M hM _ => ?_)
    exact Takes.bind ih (by omega) (fun _ _ _ _ => Takes.pure trivial)

theorem takes_toLeBytes (cfg : Cfg) (x : UBig) : Takes (UBig.toLeBytes cfg x) (x.len + 5) (fun _ => True) := by
  cases x with
  | small w =>
    refine Takes.bind (takes_any 1 _) (by omega) (fun _ M hM _ => ?_)
    exact (takes_any 1 _).mono (by omega) fun _ h => h
  | large b =>
    have hl : (UBig.large b).len = b.words.length := rfl
    have hl' : b.len = b.words.length := rfl
    unfold UBig.toLeBytes
    tone takes_getR _ _ => _w
    refine Takes.bind (takes_any 1 _) (by omega) (fun _ _ _ _ => ?_)
    refine Takes.bind (takes_sliceR _ _ _) (by omega) (fun r _ _ hr => ?_)
    refine Takes.bind (takes_any 1 _) (by omega) (fun _ _ _ _ => ?_)
    refine Takes.bind (takes_any 1 _) (by omega) (fun _ _ _ _ => ?_)
    exact Takes.bind (takes_bytesLoop _ r) (by omega) (fun _ _ _ _ => Takes.pure trivial)

theorem takes_toBeBytes (cfg : Cfg) (x : UBig) : Takes (UBig.toBeBytes cfg x) (x.len + 4) (fun _ => True) := by
  cases x with
  | small w => exact (takes_any 1 _).mono (by omega) fun _ h => h
  | large b =>
    have hl : (UBig.large b).len = b.words.length := rfl
    have hl' : b.len = b.words.length := rfl
    unfold UBig.toBeBytes
    tone takes_getR _ _ => _w
    refine Takes.bind (takes_any 1 _) (by omega) (fun _ _ _ _ => ?_)
    refine Takes.bind (takes_any 1 _) (by omega) (fun _ _ _ _ => ?_)
    refine Takes.bind (takes_sliceR _ _ _) (by omega) (fun r _ _ hr => ?_)
    refine Takes.bind (takes_bytesLoop _ r.reverse) (by rw [List.length_reverse]; omega)
      (fun _ _ _ _ => Takes.pure trivial)

/-! Primitive integers -/

theorem takes_fromUnsignedLoop {cfg : Cfg} (hW : 1 ≤ cfg.W / 8) (bits x : Nat) {m : Nat}
    (hm : bits / 8 ≤ m * (cfg.W / 8)) : Takes (UBig.fromUnsignedLoop cfg bits x) (4 * m + 5) (fun _ => True) := by
  unfold UBig.fromUnsignedLoop
  refine Takes.ite (fun _ => Takes.pure trivial) (fun _ => ?_)
  exact takes_fromLeBytes hW _ (by rw [toLeBytesN_length]; exact hm)

theorem takes_unsignedFromWords {cfg : Cfg} (bits : Nat) (l : List Nat) {m : Nat} (hm : bits / 8 / (cfg.W / 8) ≤ m) :
    Takes (unsignedFromWords cfg bits l) (m + 2) (fun _ => True) := by
  unfold unsignedFromWords
  tone takes_assertR _ => _u
  refine Takes.ite (fun _ => Takes.pure trivial) (fun h => ?_)
  tone takes_assertR _ => _u
  refine Takes.bind (takes_bytesLoop _ l) (by omega) (fun _ _ _ _ => ?_)
  exact Takes.ite (fun _ => Takes.pure trivial) (fun _ => Takes.throwT)

theorem takes_tryToUnsignedLoop {cfg : Cfg} (bits : Nat) (x : UBig) {m : Nat} (hm : bits / 8 / (cfg.W / 8) ≤ m) :
    Takes (UBig.tryToUnsignedLoop cfg bits x) (m + 2) (fun _ => True) := by
  cases x with
  | small w => exact Takes.pure trivial
  | large b => exact takes_unsignedFromWords bits _ hm

theorem takes_tryToSignedLoop {cfg : Cfg} (bits : Nat) (x : UBig) {m : Nat} (hm : bits / 8 / (cfg.W / 8) ≤ m) :
    Takes (UBig.tryToSignedLoop cfg bits x) (m + 2) (fun _ => True) := by
  cases x with
  | small w => exact Takes.pure trivial
  | large b =>
    refine Takes.bind (takes_unsignedFromWords bits _ hm) (by omega) (fun u _ _ _ => ?_)
    cases u <;> exact Takes.pure trivial

theorem word_bytes {cfg : Cfg} (hv : cfg.Valid) : 2 ≤ cfg.W / 8 := by
  rcases hv.word with h | h | h <;> rw [h] <;> norm_num

theorem bytes_le {cfg : Cfg} (hv : cfg.Valid) {bits : Nat} (hb : bits ≤ 128) : bits / 8 ≤ 8 * (cfg.W / 8) := by
  have := word_bytes hv
  omega

theorem words_le {cfg : Cfg} (hv : cfg.Valid) {bits : Nat} (hb : bits ≤ 128) : bits / 8 / (cfg.W / 8) ≤ 8 :=
  (Nat.div_le_div_left (word_bytes hv) (by norm_num)).trans (by omega)

/-! Floats -/

theorem takes_bitLenT (cfg : Cfg) (x : UBig) : Takes (UBig.bitLenT cfg x) 3 (fun _ => True) := by
  cases x with
  | small w => exact Takes.pure trivial
  | large b =>
    refine Takes.bind (takes_any 1 _) (by omega) (fun _ M hM _ => ?_)
    refine Takes.bind (takes_any 1 _) (by omega) (fun _ M1 hM1 _ => ?_)
    exact (takes_any 1 _).mono (by omega) fun _ h => h

theorem takes_toFloatSlow {cfg : Cfg} (hv : cfg.Valid) (c : FloatCode) {x : UBig} (hx : x.WF cfg) {L : Nat} (h1 : 1 ≤ L)
    (hL : c.maxLen ≤ L * cfg.W) (hp : c.prim ≤ 128) :
    Takes (UBig.toFloatSlow cfg c x) (5 * L + 54) (fun _ => True) := by
  unfold UBig.toFloatSlow
  have hb : Takes (UBig.bitLenT cfg x) 3 (fun n => n = bitLen (x.value cfg)) :=
    Takes.post (takes_bitLenT cfg x) (UBig.bitLenT_result cfg x)
      (by rw [UBig.bitLen_spec hv hx]; exact Post.ok rfl)
  refine Takes.bind hb (by omega) (fun n M hM hn => ?_)
  tone takes_assertR _ => _u
  refine Takes.ite (fun _ => Takes.pure trivial) (fun hlen => ?_)
  have hlen' : x.len ≤ L := by
    refine UBig.len_le hv hx h1 ?_
    exact (lt_two_pow_bitLen _).trans_le (Nat.pow_le_pow_right (by norm_num) (by omega))
  tone takes_assertR _ => _u
  refine Takes.bind (takes_any 1 _) (by omega) (fun s _ _ _ => ?_)
  refine Takes.bind (takes_ushr cfg .ref x s) (by omega) (fun sh _ _ _ => ?_)
  refine Takes.bind (takes_tryToUnsignedLoop c.prim sh (words_le hv hp)) (by omega) (fun u _ _ _ => ?_)
  refine Takes.bind (takes_any 1 _) (by omega) (fun _ _ _ _ => ?_)
  refine Takes.bind (takes_any 1 _) (by omega) (fun _ _ _ _ => ?_)
  refine Takes.bind (takes_any 1 _) (by omega) (fun _ _ _ _ => ?_)
  refine Takes.bind (takes_any (x.len + 1) _) (by omega) (fun _ _ _ _ => ?_)
  exact (takes_any 1 _).mono (by omega) fun _ h => h

theorem takes_toFloat {cfg : Cfg} (hv : cfg.Valid) (c : FloatCode) (f : FloatFmt) {x : UBig} (hx : x.WF cfg) {L : Nat}
    (h1 : 1 ≤ L) (hL : c.maxLen ≤ L * cfg.W) (hp : c.prim ≤ 128) :
    Takes (UBig.toFloat cfg c f x) (5 * L + 64) (fun _ => True) := by
  cases x with
  | small w => exact Takes.pure trivial
  | large b =>
    refine Takes.bind (takes_tryToUnsignedLoop c.prim _ (words_le hv hp)) (by omega) (fun u _ _ _ => ?_)
    cases u
    · exact (takes_toFloatSlow hv c hx h1 hL hp).mono (by omega) fun _ h => h
    · exact Takes.pure trivial

theorem takes_itoFloat {cfg : Cfg} (hv : cfg.Valid) (c : FloatCode) (f : FloatFmt) {x : IBig} (hx : x.WF cfg) {L : Nat}
    (h1 : 1 ≤ L) (hL : c.maxLen ≤ L * cfg.W) (hp : c.prim ≤ 128) :
    Takes (IBig.toFloat cfg c f x) (5 * L + 64) (fun _ => True) := by
  refine Takes.bind (takes_toFloat hv c f hx.mag h1 hL hp) (by omega) (fun _ _ _ _ => ?_)
  rcases x.sign <;> exact Takes.pure trivial

/-! Bits -/

theorem takes_bit (cfg : Cfg) (x : UBig) (n : Nat) : Takes (UBig.bit cfg x n) 1 (fun _ => True) := by
  cases x with
  | small w => exact Takes.pure trivial
  | large b =>
    refine Takes.ite (fun _ => ?_) (fun _ => Takes.pure trivial)
    exact Takes.bind (takes_any 1 _) (by omega) (fun _ _ _ _ => Takes.pure trivial)

theorem takes_setBit (cfg : Cfg) (x : UBig) (n : Nat) :
    Takes (UBig.setBit cfg x n) (2 * x.len + 3 * (n / cfg.W) + 11) (fun _ => True) := by
  cases x with
  | small w =>
    refine Takes.ite (fun _ => Takes.pure trivial) (fun _ => ?_)
    exact (takes_withBitWordSlow cfg w n).mono (by omega) fun _ h => h
  | large b =>
    have hl : (UBig.large b).len = b.words.length := rfl
    have hl' : b.len = b.words.length := rfl
    unfold UBig.setBit UBig.withBitLarge
    refine Takes.ite (fun _ => ?_) (fun h => ?_)
    · tone takes_getR _ _ => _w
      refine Takes.bind (takes_setR _ _ _) (by omega) (fun ws _ _ hws => ?_)
      refine (takes_ofBuffer cfg _).mono ?_ (fun _ h => h)
      dsimp only
      omega
    · refine Takes.bind (takes_ensureCapacity _ _ _) (by omega) (fun c _ _ hc => ?_)
      have hc' : c.len = b.words.length := by rw [Buffer.len, hc]
      refine Takes.bind (P := fun k => k + c.len = n / cfg.W) (n := 1) (Takes.pass ?_) (by omega) (fun k _ _ hk => ?_)
      · intro k hk
        unfold Ibig.ckSub at hk
        split_ifs at hk with h5
        · cases hk; omega
      refine Takes.bind (takes_pushZeros _ _) (by omega) (fun d _ _ hd => ?_)
      refine Takes.bind (takes_push _ _) (by omega) (fun e _ _ he => ?_)
      refine (takes_ofBuffer cfg e).mono ?_ (fun _ h => h)
      rw [he, hd, hc]
      simp only [List.length_append, List.length_replicate, List.length_cons, List.length_nil]
      omega

theorem takes_clearBit (cfg : Cfg) (x : UBig) (n : Nat) :
    Takes (UBig.clearBit cfg x n) (2 * x.len + 4) (fun _ => True) := by
  cases x with
  | small w => exact Takes.ite (fun _ => Takes.pure trivial) (fun _ => Takes.pure trivial)
  | large b =>
    have hl : (UBig.large b).len = b.words.length := rfl
    unfold UBig.clearBit UBig.withoutBitLarge
    refine Takes.ite (fun _ => ?_) (fun h => ?_)
    · tone takes_getR _ _ => _w
      refine Takes.bind (takes_setR _ _ _) (by omega) (fun ws _ _ hws => ?_)
      refine (takes_ofBuffer cfg _).mono ?_ (fun _ h => h)
      dsimp only
      omega
    · exact (takes_ofBuffer cfg b).mono (by omega) (fun _ h => h)

theorem takes_allZero (l : List Nat) : Takes (allZero l) l.length (fun _ => True) := by
  induction l with
  | nil => exact Takes.pure trivial
  | cons w ws ih =>
    rw [allZero, List.length_cons]
    refine Takes.bind takes_tick (by omega) (fun _ M hM _ => ?_)
    exact Takes.ite (fun _ => ih.mono (by omega) fun _ h => h) (fun _ => Takes.pure trivial)

theorem takes_isPowerOfTwo (x : UBig) : Takes (UBig.isPowerOfTwo x) (x.len + 3) (fun _ => True) := by
  cases x with
  | small w => exact Takes.pure trivial
  | large b =>
    have hl : (UBig.large b).len = b.words.length := rfl
    unfold UBig.isPowerOfTwo UBig.isPowerOfTwoLarge
    refine Takes.bind (takes_any 1 _) (by omega) (fun _ _ _ _ => ?_)
    tone takes_assertR _ => _u
    refine Takes.bind (takes_sliceR _ _ _) (by omega) (fun r _ _ hr => ?_)
    exact Takes.bind (takes_allZero r) (by omega) (fun _ _ _ _ => Takes.pure trivial)

theorem takes_clearLoop (l : List Nat) : ∀ s, Takes (clearLoop s l) l.length (fun p => p.1.length = l.length) := by
  induction l with
  | nil => intro s; exact Takes.pure rfl
  | cons w ws ih =>
    intro s
    rw [clearLoop, List.length_cons]
    refine Takes.bind takes_tick (by omega) (fun _ M hM _ => ?_)
    refine Takes.bind (ih _) (by omega) ?_
    rintro ⟨r, s'⟩ _ _ h
    exact Takes.pure (by dsimp only at h ⊢; rw [List.length_cons, h])

theorem takes_nextPowerOfTwoV {cfg : Cfg} (hv : cfg.Valid) {x : UBig} (hx : x.WF cfg) :
    Takes (UBig.nextPowerOfTwoV cfg x) (4 * x.len + 9) (fun _ => True) := by
  cases x with
  | small w =>
    have hl : (UBig.small w).len = 1 := rfl
    unfold UBig.nextPowerOfTwoV
    dsimp only
    cases wordNextPow2 cfg.W w
    · refine (takes_fromUnsignedLoop (by have := word_bytes hv; omega) _ _ (m := 2) ?_).mono (by omega) fun _ h => h
      rcases hv.word with h | h | h <;> rw [h] <;> norm_num
    · exact Takes.pure trivial
  | large b =>
    have hl : (UBig.large b).len = b.words.length := rfl
    have hl' : b.len = b.words.length := rfl
    have h2 : 1 ≤ b.words.length := one_le_len hx
    unfold UBig.nextPowerOfTwoV UBig.nextPowerOfTwoLarge
    dsimp only
    refine Takes.bind (takes_any 1 _) (by omega) (fun l _ _ _ => ?_)
    tone takes_assertR _ => _u
    refine Takes.bind (takes_sliceR _ _ _) (by omega) (fun r _ _ hr => ?_)
    refine Takes.bind (takes_clearLoop r _) (by omega) ?_
    rintro ⟨low, seen⟩ _ _ hlow
    dsimp only at hlow ⊢
    cases wordNextPow2Carry cfg.W l (if seen = true then 1 else 0)
    · refine Takes.bind (takes_ensureCapacity _ _ _)
        (by simp only [List.length_append, List.length_singleton]; omega) (fun c _ _ hc => ?_)
      refine Takes.bind (takes_push _ _) (by simp only [List.length_append, List.length_singleton] at *; omega)
        (fun d _ _ hd => ?_)
      refine (takes_ofBuffer cfg d).mono ?_ (fun _ h => h)
      rw [hd, hc]
      simp only [List.length_append, List.length_singleton] at *
      omega
    · refine (takes_ofBuffer cfg _).mono ?_ (fun _ h => h)
      simp only [List.length_append, List.length_singleton] at *
      omega

theorem takes_nextPowerOfTwo {cfg : Cfg} (hv : cfg.Valid) (o : Own) {x : UBig} (hx : x.WF cfg) :
    Takes (UBig.nextPowerOfTwo cfg o x) (5 * x.len + 10) (fun _ => True) := by
  cases o with
  | val => exact (takes_nextPowerOfTwoV hv hx).mono (by omega) fun _ h => h
  | ref =>
    have hc : Takes (UBig.clone cfg x) (x.len + 1) (fun c => c.WF cfg ∧ c.len = x.len) :=
      Takes.pass (Post.of_returns ?_)
    · refine Takes.bind hc (by omega) (fun c _ _ hc => ?_)
      exact (takes_nextPowerOfTwoV hv hc.1).mono (by omega) fun _ h => h
    · cases x with
      | small w => exact returns_ok.mpr ⟨hx, rfl⟩
      | large b =>
        refine Returns.bind (Buffer.clone_spec hx) ?_
        rintro c ⟨h1, h2⟩
        refine returns_ok.mpr ⟨h1, ?_⟩
        show c.words.length = b.words.length
        rw [h2]

end Ibig.Timed
