import Verif.Proofs.ShiftOpsTime
import Verif.Proofs.PowTime
import Verif.Proofs.EuclidTime
import Verif.Proofs.FmtLargeCost
import Verif.Proofs.Bits
import Verif.Proofs.ShiftOps
import Verif.Proofs.IBits
/-!
The number of steps of shifts and bitwise operators.
-/
namespace Ibig.Timed

theorem Takes.post {α : Type} {x : Timed α} {y : R α} {n : ℕ} {P Q : α → Prop} (hx : Takes x n P)
    (hr : x.result = y) (hp : Post y Q) : Takes x n Q :=
  fun a k h => ⟨(hx a k h).1, hp a (by rw [← hr]; exact result_of_ok h)⟩

theorem takes_pushZeros (b : Buffer) (n : Nat) :
    Takes (Buffer.pushZeros b n) (n + 1) (fun c => c.words = b.words ++ List.replicate n 0) := by
  refine Takes.pass ?_
  unfold Ibig.Buffer.pushZeros
  refine Post.bind (Post.true _) (fun _ _ => ?_)
  exact Post.bind (Post.true _) (fun _ _ => Post.ok rfl)

theorem takes_pushZerosFront (b : Buffer) (n : Nat) :
    Takes (Buffer.pushZerosFront b n) (b.words.length + n + 1)
      (fun c => c.words = List.replicate n 0 ++ b.words) := by
  refine Takes.pass ?_
  unfold Ibig.Buffer.pushZerosFront
  refine Post.bind (Post.true _) (fun _ _ => ?_)
  exact Post.bind (Post.true _) (fun _ _ => Post.ok rfl)

theorem takes_shlWordSlow (cfg : Cfg) (w n : Nat) :
    Takes (UBig.shlWordSlow cfg w n) (3 * (n / cfg.W) + 12) (fun _ => True) := by
  unfold UBig.shlWordSlow
  tone takes_ckAdd _ _ _ => _m
  refine Takes.bind (takes_allocate _ _) (by omega) (fun b M hM hb => ?_)
  refine Takes.bind (takes_pushZeros _ _) (by omega) (fun c M1 hM1 hc => ?_)
  refine Takes.bind (takes_push _ _) (by omega) (fun d M2 hM2 hd => ?_)
  refine Takes.bind (takes_push _ _) (by omega) (fun e M3 hM3 he => ?_)
  refine (takes_ofBuffer cfg e).mono ?_ (fun _ h => h)
  rw [he, hd, hc, hb]
  simp only [List.length_append, List.length_replicate, List.length_cons, List.length_nil]
  omega

theorem takes_shlWord (cfg : Cfg) (w n : Nat) :
    Takes (UBig.shlWord cfg w n) (3 * (n / cfg.W) + 33) (fun _ => True) := by
  unfold UBig.shlWord
  tone takes_assertR _ => _u
  refine Takes.ite (fun _ => ?_) (fun _ => ?_)
  · exact (Takes.pass (Post.true _)).mono (by omega) fun _ h => h
  · exact (takes_shlWordSlow cfg w n).mono (by omega) fun _ h => h

theorem takes_shlRefLarge (cfg : Cfg) (l : List Nat) (n : Nat) :
    Takes (UBig.shlRefLarge cfg l n) (4 * l.length + 3 * (n / cfg.W) + 13) (fun _ => True) := by
  unfold UBig.shlRefLarge
  tone takes_ckAdd _ _ _ => _m
  tone takes_ckAdd _ _ _ => _m
  refine Takes.bind (takes_allocate _ _) (by omega) (fun b M hM hb => ?_)
  refine Takes.bind (takes_pushZeros _ _) (by omega) (fun c M1 hM1 hc => ?_)
  refine Takes.bind (takes_extend _ _) (by omega) (fun d M2 hM2 hd => ?_)
  have h1 : d.words.length = n / cfg.W + l.length := by
    rw [hd, hc, hb]; simp only [List.nil_append, List.length_replicate]
  have hd2 : d.len = d.words.length := rfl
  refine Takes.bind (takes_onPass' 1 fun s => takes_shlInPlace cfg.W s _) (by omega) ?_
  rintro ⟨ws, k⟩ M3 hM3 ⟨h2, -⟩
  dsimp only at h2 ⊢
  refine Takes.bind (takes_push _ _) (by omega) (fun e M4 hM4 he => ?_)
  refine (takes_ofBuffer cfg e).mono ?_ (fun _ h => h)
  rw [he]
  simp only [List.length_append, List.length_cons, List.length_nil]
  omega

theorem takes_shlLarge (cfg : Cfg) (b : Buffer) (n : Nat) :
    Takes (UBig.shlLarge cfg b n) (4 * b.words.length + 3 * (n / cfg.W) + 15) (fun _ => True) := by
  unfold UBig.shlLarge
  tone takes_ckAdd _ _ _ => _m
  tone takes_ckAdd _ _ _ => _m
  refine Takes.ite (fun _ => ?_) (fun _ => ?_)
  · exact (takes_shlRefLarge cfg b.words n).mono (by omega) fun _ h => h
  · refine Takes.bind (takes_shlInPlace _ _ _) (by omega) ?_
    rintro ⟨ws, k⟩ M3 hM3 h2
    dsimp only at h2 ⊢
    refine Takes.bind (takes_push _ _) (by omega) (fun e M4 hM4 he => ?_)
    have h3 : e.words.length = b.words.length + 1 := by
      rw [he]; simp only [List.length_append, List.length_cons, List.length_nil]; omega
    refine Takes.bind (takes_pushZerosFront _ _) (by omega) (fun f M5 hM5 hf => ?_)
    refine (takes_ofBuffer cfg f).mono ?_ (fun _ h => h)
    rw [hf]
    simp only [List.length_append, List.length_replicate]
    omega

theorem takes_ushl (cfg : Cfg) (o : Own) (x : UBig) (n : Nat) :
    Takes (UBig.shl cfg o x n) (4 * x.len + 3 * (n / cfg.W) + 29) (fun _ => True) := by
  cases x with
  | small w =>
    refine Takes.ite (fun _ => Takes.pure trivial) (fun _ => ?_)
    exact (takes_shlWord cfg w n).mono (by show _ ≤ 4 * 1 + _ + 29; omega) fun _ h => h
  | large b =>
    have hl : (UBig.large b).len = b.words.length := rfl
    rw [hl]
    cases o
    · exact (takes_shlLarge cfg b n).mono (by omega) fun _ h => h
    · exact (takes_shlRefLarge cfg b.words n).mono (by omega) fun _ h => h

theorem takes_shrLarge (cfg : Cfg) (b : Buffer) (n : Nat) :
    Takes (UBig.shrLarge cfg b n) (4 * b.words.length + 4) (fun _ => True) := by
  unfold UBig.shrLarge
  refine Takes.ite (fun _ => Takes.pure trivial) (fun _ => ?_)
  refine Takes.bind (takes_eraseFront _ _) (by omega) (fun c M hM hc => ?_)
  refine Takes.bind (takes_shrInPlace _ _ _) (by omega) ?_
  rintro ⟨ws, k⟩ M3 hM3 h2
  dsimp only at h2 ⊢
  exact (takes_ofBuffer cfg _).mono (by dsimp only; omega) (fun _ h => h)

theorem takes_shrLargeRef (cfg : Cfg) (l : List Nat) (n : Nat) :
    Takes (UBig.shrLargeRef cfg l n) (4 * l.length + 33) (fun _ => True) := by
  unfold UBig.shrLargeRef
  refine Takes.bind (takes_sliceR _ _ _) (by omega) (fun ws M hM hs => ?_)
  have hlen : ws.length ≤ l.length := by
    rw [hs.1]
    exact Nat.sub_le _ _
  rcases ws with _ | ⟨w, _ | ⟨w1, _ | ⟨w2, ws⟩⟩⟩
  · exact Takes.pure trivial
  · exact Takes.pure trivial
  · exact (Takes.pass (Post.true _)).mono (by omega) fun _ h => h
  · dsimp only
    refine Takes.bind (takes_allocate _ _) (by omega) (fun b M1 hM1 hb => ?_)
    refine Takes.bind (takes_extend _ _) (by omega) (fun d M2 hM2 hd => ?_)
    rw [hb, List.length_nil, Nat.zero_add] at hd
    refine Takes.bind (takes_shrInPlace _ _ _) (by omega) ?_
    rintro ⟨ws', k⟩ M3 hM3 h2
    dsimp only at h2 ⊢
    exact (takes_ofBuffer cfg _).mono (by dsimp only; omega) (fun _ h => h)

theorem takes_ushr (cfg : Cfg) (o : Own) (x : UBig) (n : Nat) :
    Takes (UBig.shr cfg o x n) (4 * x.len + 33) (fun _ => True) := by
  cases x with
  | small w =>
    exact Takes.mono (x := pass 1 (.ok (UBig.shrWord cfg w n))) (takes_word1 _)
      (Nat.le_add_left_of_le (by norm_num)) fun _ h => h
  | large b =>
    have hl : (UBig.large b).len = b.words.length := rfl
    rw [hl]
    cases o
    · exact (takes_shrLarge cfg b n).mono (by omega) fun _ h => h
    · exact takes_shrLargeRef cfg b.words n

/-- the shift by value, which the loops of `gcd` use -/
theorem takes_ushrVal (cfg : Cfg) (x : UBig) (n : Nat) :
    Takes (UBig.shr cfg .val x n) (4 * x.len + 4) (fun _ => True) := by
  cases x with
  | small w =>
    exact Takes.mono (x := pass 1 (.ok (UBig.shrWord cfg w n))) (takes_word1 _)
      (Nat.le_add_left_of_le (by norm_num)) fun _ h => h
  | large b => exact takes_shrLarge cfg b n

theorem takes_ckMul (b x y : Nat) : Takes (ckMul b x y) 1 (fun _ => True) := Takes.pass (Post.true _)

theorem takes_trailingZerosLoop (W U : Nat) (l : List Nat) :
    ∀ i, Takes (trailingZerosLoop W U l i) (l.length + 2) (fun _ => True) := by
  induction l with
  | nil => intro i; exact Takes.throwT
  | cons w ws ih =>
    intro i
    rw [trailingZerosLoop, List.length_cons]
    refine Takes.bind takes_tick (by omega) (fun _ M hM _ => ?_)
    refine Takes.ite (fun _ => ?_) (fun _ => (ih _).mono (by omega) fun _ h => h)
    refine Takes.bind (takes_ckMul _ _ _) (by omega) (fun _ M1 hM1 _ => ?_)
    exact (takes_ckAdd _ _ _).mono (by omega) fun _ h => h

theorem takes_utrailingZeros (cfg : Cfg) (x : UBig) :
    Takes (UBig.trailingZeros cfg x) (x.len + 4) (fun _ => True) := by
  cases x with
  | small w => exact Takes.ite (fun _ => Takes.pure trivial) (fun _ => Takes.pure trivial)
  | large b =>
    unfold UBig.trailingZeros UBig.trailingZerosLarge
    have hl : (UBig.large b).len = b.words.length := rfl
    rw [hl]
    refine Takes.bind (n := b.words.length + 4) (P := fun _ => True) ?_ (by omega) (fun _ _ _ _ => Takes.pure trivial)
    refine Takes.bind (n := 1) (Takes.pass (Post.true _)) (by omega) (fun _ M1 hM1 _ => ?_)
    tone takes_assertR _ => _u
    exact (takes_trailingZerosLoop _ _ _ _).mono (by omega) fun _ h => h

/-! Bitwise operators -/

theorem takes_zipInPlace (f : Nat → Nat → Nat) (l : List Nat) :
    ∀ r, Takes (zipInPlace f l r) (min l.length r.length) (fun c => c.length = l.length) := by
  induction l with
  | nil => intro r; unfold zipInPlace; exact Takes.pure rfl
  | cons x xs ih =>
    intro r
    cases r with
    | nil => unfold zipInPlace; exact Takes.pure rfl
    | cons y ys =>
      rw [zipInPlace]
      simp only [List.length_cons]
      refine Takes.bind takes_tick (by omega) (fun _ M hM _ => ?_)
      refine Takes.bind (ih ys) (by omega) (fun c M1 hM1 hc => ?_)
      exact Takes.pure (by rw [List.length_cons, hc])

theorem takes_truncateTo (b : Buffer) (n : Nat) :
    Takes (Buffer.truncateTo b n) 1 (fun c => c.words.length ≤ n) := by
  unfold Buffer.truncateTo
  refine Takes.ite (fun _ => ?_) (fun h => Takes.pure (by unfold Buffer.len at h; omega))
  refine Takes.pass ?_
  unfold Ibig.Buffer.truncate
  exact Post.bind (Post.true _) (fun _ _ => Post.ok (by simp only [List.length_take]; omega))

theorem takes_bitandLarge (cfg : Cfg) (b : Buffer) (r : List Nat) :
    Takes (UBig.bitandLarge cfg b r) (3 * r.length + 3) (fun _ => True) := by
  unfold UBig.bitandLarge
  refine Takes.bind (takes_truncateTo _ _) (by omega) (fun c M hM hc => ?_)
  refine Takes.bind (takes_zipInPlace _ _ _) (by omega) (fun ws M1 hM1 hw => ?_)
  exact (takes_ofBuffer cfg _).mono (by dsimp only; omega) (fun _ h => h)

theorem takes_bitandWordLarge (w : Nat) (b : Buffer) :
    Takes (UBig.bitandWordLarge w b) 1 (fun _ => True) :=
  Takes.bind (Takes.pass (Post.true _)) (le_refl _) fun _ _ _ _ => Takes.pure trivial

section
variable {cfg : Cfg}

theorem takes_ubitand (o1 o2 : Own) {a b : UBig} (ha : a.WF cfg) (hb : b.WF cfg) :
    Takes (UBig.bitand cfg o1 o2 a b) (8 * (a.len + b.len)) (fun _ => True) := by
  have word : ∀ w c n, Takes (UBig.bitandWordLarge w c) (8 * (1 + n)) (fun _ => True) := fun w c n =>
    (takes_bitandWordLarge w c).mono (by omega) fun _ h => h
  have word' : ∀ w c n, Takes (UBig.bitandWordLarge w c) (8 * (n + 1)) (fun _ => True) := fun w c n =>
    (takes_bitandWordLarge w c).mono (by omega) fun _ h => h
  have vr : ∀ a b : UBig, a.WF cfg → b.WF cfg →
      Takes (UBig.bitandVR cfg a b) (8 * (a.len + b.len)) (fun _ => True) := by
    intro a b ha hb
    rcases a with a | a <;> rcases b with b | b
    · exact Takes.pure trivial
    · exact word _ _ _
    · exact word' _ _ _
    · exact (takes_bitandLarge cfg a b.words).mono
        (by have := two_le hb; show _ ≤ 8 * (a.words.length + b.words.length); omega) fun _ h => h
  cases o1 <;> cases o2
  · show Takes (UBig.bitandVV cfg a b) _ _
    rcases a with a | a <;> rcases b with b | b
    · exact Takes.pure trivial
    · exact word _ _ _
    · exact word' _ _ _
    · have := two_le hb
      have := two_le ha
      refine Takes.ite (fun _ => ?_) (fun _ => ?_)
      · exact (takes_bitandLarge cfg a b.words).mono
          (by show _ ≤ 8 * (a.words.length + b.words.length); omega) fun _ h => h
      · exact (takes_bitandLarge cfg b a.words).mono
          (by show _ ≤ 8 * (a.words.length + b.words.length); omega) fun _ h => h
  · exact vr a b ha hb
  · exact (vr b a hb ha).mono (by omega) fun _ h => h
  · show Takes (UBig.bitandRR cfg a b) _ _
    rcases a with a | a <;> rcases b with b | b
    · exact Takes.pure trivial
    · exact word _ _ _
    · exact word' _ _ _
    · have := two_le hb
      have := two_le ha
      show Takes _ (8 * (a.words.length + b.words.length)) _
      refine Takes.ite (fun _ => ?_) (fun _ => ?_)
      · refine (takes_cloneThen fun c _ => takes_bitandLarge cfg c b.words).mono (by omega) fun _ h => h
      · refine (takes_cloneThen fun c _ => takes_bitandLarge cfg c a.words).mono (by omega) fun _ h => h

theorem takes_bitopLargeWord (f : Nat → Nat → Nat) (b : Buffer) (w : Nat) :
    Takes (UBig.bitopLargeWord f cfg b w) (2 * b.words.length + 4) (fun _ => True) := by
  unfold UBig.bitopLargeWord
  tone takes_assertR _ => _u
  refine Takes.bind (n := 1) (P := fun ws => ws.length = b.words.length) (Takes.pass ?_) (by omega)
    (fun ws M1 hM1 hw => ?_)
  · rcases b.words with _ | ⟨x, xs⟩
    · exact Post.error
    · exact Post.ok rfl
  · exact (takes_ofBuffer cfg _).mono (by dsimp only; omega) (fun _ h => h)

theorem takes_bitopLarge (f : Nat → Nat → Nat) (b : Buffer) (r : List Nat) :
    Takes (UBig.bitopLarge f cfg b r) (4 * (b.words.length + r.length) + 6) (fun _ => True) := by
  unfold UBig.bitopLarge
  refine Takes.bind (takes_zipInPlace _ _ _) (by omega) (fun ws M1 hM1 hw => ?_)
  dsimp only
  refine Takes.ite (fun hlt => ?_) (fun _ => ?_)
  · have hlt : ws.length < r.length := hlt
    refine Takes.bind (takes_ensureCapacity _ _ _) (by dsimp only; omega) (fun c M2 hM2 hc => ?_)
    dsimp only at hM2 hc
    have hcl : c.len = ws.length := by unfold Buffer.len; rw [hc]
    refine Takes.bind (takes_sliceR _ _ _) (by omega) (fun hi M3 hM3 hh => ?_)
    refine Takes.bind (takes_extend _ _) (by omega) (fun d M4 hM4 hd => ?_)
    rw [hc] at hd
    exact (takes_ofBuffer cfg _).mono (by omega) (fun _ h => h)
  · exact (takes_ofBuffer cfg _).mono (by dsimp only; omega) (fun _ h => h)

theorem takes_ubitop (f : Nat → Nat → Nat) (o1 o2 : Own) {a b : UBig} (ha : a.WF cfg) (hb : b.WF cfg) :
    Takes (UBig.bitop f cfg o1 o2 a b) (8 * (a.len + b.len)) (fun _ => True) := by
  have word : ∀ (c : Buffer) w, Takes (UBig.bitopLargeWord f cfg c w) (8 * (1 + c.words.length)) (fun _ => True) :=
    fun c w => (takes_bitopLargeWord f c w).mono (by omega) fun _ h => h
  have word' : ∀ (c : Buffer) w, Takes (UBig.bitopLargeWord f cfg c w) (8 * (c.words.length + 1)) (fun _ => True) :=
    fun c w => (takes_bitopLargeWord f c w).mono (by omega) fun _ h => h
  have cword : ∀ (c : Buffer) w, Takes (do let c ← Buffer.clone cfg c; UBig.bitopLargeWord f cfg c w)
      (8 * (1 + c.words.length)) (fun _ => True) := fun c w =>
    (takes_cloneThen (n := 2 * c.words.length + 4) fun d hd => by
      rw [← hd]; exact takes_bitopLargeWord f d w).mono (by omega) fun _ h => h
  have cword' : ∀ (c : Buffer) w, Takes (do let c ← Buffer.clone cfg c; UBig.bitopLargeWord f cfg c w)
      (8 * (c.words.length + 1)) (fun _ => True) := fun c w =>
    (cword c w).mono (by omega) fun _ h => h
  have vr : ∀ a b : UBig, a.WF cfg → b.WF cfg →
      Takes (UBig.bitopVR f cfg a b) (8 * (a.len + b.len)) (fun _ => True) := by
    intro a b ha hb
    rcases a with a | a <;> rcases b with b | b
    · exact Takes.pure trivial
    · exact cword _ _
    · exact word' _ _
    · exact (takes_bitopLarge f a b.words).mono
        (by have := two_le hb; show _ ≤ 8 * (a.words.length + b.words.length); omega) fun _ h => h
  cases o1 <;> cases o2
  · show Takes (UBig.bitopVV f cfg a b) _ _
    rcases a with a | a <;> rcases b with b | b
    · exact Takes.pure trivial
    · exact word _ _
    · exact word' _ _
    · have := two_le hb
      have := two_le ha
      refine Takes.ite (fun _ => ?_) (fun _ => ?_)
      · exact (takes_bitopLarge f a b.words).mono
          (by show _ ≤ 8 * (a.words.length + b.words.length); omega) fun _ h => h
      · exact (takes_bitopLarge f b a.words).mono
          (by show _ ≤ 8 * (a.words.length + b.words.length); omega) fun _ h => h
  · exact vr a b ha hb
  · exact (vr b a hb ha).mono (by omega) fun _ h => h
  · show Takes (UBig.bitopRR f cfg a b) _ _
    rcases a with a | a <;> rcases b with b | b
    · exact Takes.pure trivial
    · exact cword _ _
    · exact cword' _ _
    · have := two_le hb
      have := two_le ha
      show Takes _ (8 * (a.words.length + b.words.length)) _
      refine Takes.ite (fun _ => ?_) (fun _ => ?_)
      · refine (takes_cloneThen (n := 4 * (a.words.length + b.words.length) + 6) fun c hc => ?_).mono
          (by omega) fun _ h => h
        rw [← hc]; exact takes_bitopLarge f c b.words
      · refine (takes_cloneThen (n := 4 * (b.words.length + a.words.length) + 6) fun c hc => ?_).mono
          (by omega) fun _ h => h
        rw [← hc]; exact takes_bitopLarge f c a.words

theorem takes_andNotLarge (b : Buffer) (r : List Nat) :
    Takes (UBig.andNotLarge cfg b r) (3 * b.words.length + 2) (fun _ => True) := by
  unfold UBig.andNotLarge
  refine Takes.bind (takes_zipInPlace _ _ _) (by omega) (fun ws M1 hM1 hw => ?_)
  exact (takes_ofBuffer cfg _).mono (by dsimp only; omega) (fun _ h => h)

theorem takes_uandNot (o1 o2 : Own) {a b : UBig} (ha : a.WF cfg) (hb : b.WF cfg) :
    Takes (UBig.andNot cfg o1 o2 a b) (8 * (a.len + b.len)) (fun _ => True) := by
  cases o1
  · show Takes (UBig.andNotV cfg a b) _ _
    rcases a with a | a <;> rcases b with b | b
    · exact Takes.pure trivial
    · exact Takes.bind (n := 1) (Takes.pass (Post.true _)) (by show 1 ≤ 8 * (1 + _); omega)
        fun _ _ _ _ => Takes.pure trivial
    · exact (takes_bitopLargeWord (fun x y => x &&& wordNot cfg.W y) a b).mono (by show _ ≤ 8 * (a.words.length + 1); omega) fun _ h => h
    · exact (takes_andNotLarge a b.words).mono
        (by have := two_le hb; show _ ≤ 8 * (a.words.length + b.words.length); omega) fun _ h => h
  · show Takes (UBig.andNotR cfg a b) _ _
    rcases a with a | a <;> rcases b with b | b
    · exact Takes.pure trivial
    · exact Takes.bind (n := 1) (Takes.pass (Post.true _)) (by show 1 ≤ 8 * (1 + _); omega)
        fun _ _ _ _ => Takes.pure trivial
    · refine (takes_cloneThen (n := 2 * a.words.length + 4) fun c hc => ?_).mono
        (by show _ ≤ 8 * (a.words.length + 1); omega) fun _ h => h
      rw [← hc]; exact takes_bitopLargeWord _ c b
    · have := two_le hb
      refine (takes_cloneThen (n := 3 * a.words.length + 2) fun c hc => ?_).mono
        (by show _ ≤ 8 * (a.words.length + b.words.length); omega) fun _ h => h
      rw [← hc]; exact takes_andNotLarge c b.words

/-- the result of a bitwise operator has no more words than the longer operand -/
theorem BitYields.len {x : R UBig} {p : Nat → Bool} (hv : cfg.Valid) (h : BitYields cfg x p) {a b : UBig}
    (ha : a.WF cfg) (hb : b.WF cfg)
    (hp : ∀ i, (a.value cfg).testBit i = false → (b.value cfg).testBit i = false → p i = false) :
    Post x (fun c => c.WF cfg ∧ c.len ≤ max a.len b.len) := by
  refine (Post.of_returns h).mono ?_
  rintro c ⟨h1, h2⟩
  refine ⟨h1, UBig.len_le hv h1 (le_max_of_le_left (one_le_len ha)) ?_⟩
  refine Nat.lt_pow_two_of_testBit _ fun i hi => ?_
  have key : ∀ d : UBig, d.WF cfg → d.len ≤ max a.len b.len → (d.value cfg).testBit i = false := fun d hd hl =>
    Nat.testBit_lt_two_pow (lt_of_lt_of_le (UBig.value_lt_len hd)
      (Nat.pow_le_pow_right (by norm_num) ((Nat.mul_le_mul_right _ hl).trans hi)))
  rw [h2]
  exact hp i (key a ha (le_max_left _ _)) (key b hb (le_max_right _ _))

theorem takes_ubitand' (hv : cfg.Valid) (o1 o2 : Own) {a b : UBig} (ha : a.WF cfg) (hb : b.WF cfg) :
    Takes (UBig.bitand cfg o1 o2 a b) (8 * (a.len + b.len)) (fun c => c.WF cfg ∧ c.len ≤ max a.len b.len) :=
  Takes.post (takes_ubitand o1 o2 ha hb) (UBig.bitand_result _ _ _ _ _)
    (BitYields.len hv (UBig.bitand_spec hv o1 o2 ha hb) ha hb fun i h1 h2 => by rw [h1, h2]; rfl)

theorem takes_ubitor' (hv : cfg.Valid) (o1 o2 : Own) {a b : UBig} (ha : a.WF cfg) (hb : b.WF cfg) :
    Takes (UBig.bitor cfg o1 o2 a b) (8 * (a.len + b.len)) (fun c => c.WF cfg ∧ c.len ≤ max a.len b.len) :=
  Takes.post (takes_ubitop (· ||| ·) o1 o2 ha hb) (UBig.bitop_result _ _ _ _ _ _)
    (BitYields.len hv (UBig.bitor_spec hv o1 o2 ha hb) ha hb fun i h1 h2 => by rw [h1, h2]; rfl)

theorem takes_ubitxor' (hv : cfg.Valid) (o1 o2 : Own) {a b : UBig} (ha : a.WF cfg) (hb : b.WF cfg) :
    Takes (UBig.bitxor cfg o1 o2 a b) (8 * (a.len + b.len)) (fun c => c.WF cfg ∧ c.len ≤ max a.len b.len) :=
  Takes.post (takes_ubitop (· ^^^ ·) o1 o2 ha hb) (UBig.bitop_result _ _ _ _ _ _)
    (BitYields.len hv (UBig.bitxor_spec hv o1 o2 ha hb) ha hb fun i h1 h2 => by rw [h1, h2]; rfl)

theorem takes_uandNot' (hv : cfg.Valid) (o1 o2 : Own) {a b : UBig} (ha : a.WF cfg) (hb : b.WF cfg) :
    Takes (UBig.andNot cfg o1 o2 a b) (8 * (a.len + b.len)) (fun c => c.WF cfg ∧ c.len ≤ max a.len b.len) :=
  Takes.post (takes_uandNot o1 o2 ha hb) (UBig.andNot_result _ _ _ _ _)
    (BitYields.len hv (UBig.andNot_spec hv o1 o2 ha hb) ha hb fun i h1 h2 => by rw [h1, h2]; rfl)

/-! `IBig` -/

theorem ofUBig_mag_eq (c : UBig) : (IBig.ofUBig c).mag = c := by
  unfold IBig.ofUBig IBig.fromSignMagnitude
  split <;> rfl

theorem takes_inot (hv : cfg.Valid) (o : Own) {x : IBig} (hx : x.mag.WF cfg) :
    Takes (IBig.not cfg o x) (13 * (x.mag.len + 1)) (fun _ => True) :=
  takes_negR (takes_iadd o .val hx (iOne_spec hv).1.mag)

theorem IYields.post' {x : R IBig} {z : Int} (h : IYields cfg x z) :
    Post x (fun c => c.WF cfg ∧ c.value cfg = z) := by
  intro c hc
  by_cases hf : Fits cfg z.natAbs
  · obtain ⟨d, h1, h2⟩ := h.1 hf
    rw [hc] at h1
    cases h1
    exact h2
  · rw [h.2 hf] at hc
    cases hc

theorem takes_inotAbs (hv : cfg.Valid) (o : Own) {x : IBig} (hx : x.WF cfg) (hs : x.sign = .neg) :
    Takes (IBig.notAbs cfg o x) (14 * x.mag.len + 14) (fun c => c.WF cfg ∧ c.len ≤ x.mag.len) := by
  have hr : (IBig.notAbs cfg o x).result = Ibig.IBig.notAbs cfg o x := IBig.notAbs_result _ _ _
  refine Takes.post (P := fun _ => True) ?_ hr ?_
  · unfold IBig.notAbs
    have h1 : Takes (IBig.not cfg o x) (13 * (x.mag.len + 1)) (fun y => y.mag.len ≤ x.mag.len) := by
      refine Takes.post (takes_inot hv o hx.mag) (IBig.not_result _ _ _) ?_
      refine (IYields.post' (IBig.not_spec hv o hx)).mono ?_
      rintro c ⟨h2, h3⟩
      refine ilen_le hv h2 hx ?_
      have h4 := IBig.value_of_neg (cfg := cfg) hs
      have h5 := hx.pos_of_neg hs
      omega
    refine Takes.bind h1 (by omega) (fun y M hM hy => ?_)
    exact (Takes.pass (Post.true _)).mono (by omega) fun _ h => h
  · refine (Post.of_returns (IBig.notAbs_spec hv o hx hs)).mono ?_
    rintro c ⟨h1, h2⟩
    refine ⟨h1, UBig.len_le hv h1 (one_le_len hx.mag) ?_⟩
    have h3 : x.value cfg = -(c.value cfg : Int) - 1 :=
      ibit_ext fun i => by rw [h2, ibit_not, ibit_natCast]
    rw [IBig.value_of_neg hs] at h3
    exact lt_trans (by omega) (UBig.value_lt_len hx.mag)

theorem takes_notOfUBig (hv : cfg.Valid) {m : Timed UBig} {N k : Nat}
    (h : Takes m N (fun c => c.WF cfg ∧ c.len ≤ k)) :
    Takes (notOfUBig cfg m) (N + 13 * (k + 1)) (fun _ => True) := by
  refine Takes.bind h (by omega) ?_
  rintro c M hM ⟨h1, h2⟩
  refine (takes_inot hv .val (x := IBig.ofUBig c) (by rw [ofUBig_mag_eq]; exact h1)).mono ?_ fun _ h => h
  rw [ofUBig_mag_eq]
  omega

theorem takes_ofUBigR' {m : Timed UBig} {N : Nat} {P : UBig → Prop} (h : Takes m N P) :
    Takes (ofUBigR m) N (fun _ => True) := takes_ofUBigR (h.mono (le_refl _) fun _ _ => trivial)

theorem takes_ibitandGen (hv : cfg.Valid) (ox oy : Own) {x y : IBig} (hx : x.WF cfg) (hy : y.WF cfg) :
    Takes (IBig.bitandGen cfg ox oy x y) (56 * (x.mag.len + y.mag.len)) (fun _ => True) := by
  have hn := one_le_len hx.mag
  have hm := one_le_len hy.mag
  unfold IBig.bitandGen
  rcases hsx : x.sign <;> rcases hsy : y.sign <;> dsimp only
  · exact (takes_ofUBigR' (takes_ubitand' hv ox oy hx.mag hy.mag)).mono (by omega) fun _ h => h
  · refine Takes.bind (takes_inotAbs hv oy hy hsy) (by omega) (fun c M hM hc => ?_)
    exact (takes_ofUBigR' (takes_uandNot' hv ox .val hx.mag hc.1)).mono (by omega) fun _ h => h
  · refine Takes.bind (takes_inotAbs hv ox hx hsx) (by omega) (fun c M hM hc => ?_)
    exact (takes_ofUBigR' (takes_uandNot' hv oy .val hy.mag hc.1)).mono (by omega) fun _ h => h
  · refine Takes.bind (takes_inotAbs hv ox hx hsx) (by omega) (fun c M hM hc => ?_)
    refine Takes.bind (takes_inotAbs hv oy hy hsy) (by omega) (fun d M1 hM1 hd => ?_)
    exact (takes_notOfUBig hv (takes_ubitor' hv .val .val hc.1 hd.1)).mono (by omega) fun _ h => h

theorem takes_ibitorGen (hv : cfg.Valid) (ox oy : Own) {x y : IBig} (hx : x.WF cfg) (hy : y.WF cfg) :
    Takes (IBig.bitorGen cfg ox oy x y) (56 * (x.mag.len + y.mag.len)) (fun _ => True) := by
  have hn := one_le_len hx.mag
  have hm := one_le_len hy.mag
  unfold IBig.bitorGen
  rcases hsx : x.sign <;> rcases hsy : y.sign <;> dsimp only
  · exact (takes_ofUBigR' (takes_ubitor' hv ox oy hx.mag hy.mag)).mono (by omega) fun _ h => h
  · refine Takes.bind (takes_inotAbs hv oy hy hsy) (by omega) (fun c M hM hc => ?_)
    exact (takes_notOfUBig hv (takes_uandNot' hv .val ox hc.1 hx.mag)).mono (by omega) fun _ h => h
  · refine Takes.bind (takes_inotAbs hv ox hx hsx) (by omega) (fun c M hM hc => ?_)
    exact (takes_notOfUBig hv (takes_uandNot' hv .val oy hc.1 hy.mag)).mono (by omega) fun _ h => h
  · refine Takes.bind (takes_inotAbs hv ox hx hsx) (by omega) (fun c M hM hc => ?_)
    refine Takes.bind (takes_inotAbs hv oy hy hsy) (by omega) (fun d M1 hM1 hd => ?_)
    exact (takes_notOfUBig hv (takes_ubitand' hv .val .val hc.1 hd.1)).mono (by omega) fun _ h => h

theorem takes_ibitxorGen (hv : cfg.Valid) (ox oy : Own) {x y : IBig} (hx : x.WF cfg) (hy : y.WF cfg) :
    Takes (IBig.bitxorGen cfg ox oy x y) (56 * (x.mag.len + y.mag.len)) (fun _ => True) := by
  have hn := one_le_len hx.mag
  have hm := one_le_len hy.mag
  unfold IBig.bitxorGen
  rcases hsx : x.sign <;> rcases hsy : y.sign <;> dsimp only
  · exact (takes_ofUBigR' (takes_ubitxor' hv ox oy hx.mag hy.mag)).mono (by omega) fun _ h => h
  · refine Takes.bind (takes_inotAbs hv oy hy hsy) (by omega) (fun c M hM hc => ?_)
    exact (takes_notOfUBig hv (takes_ubitxor' hv ox .val hx.mag hc.1)).mono (by omega) fun _ h => h
  · refine Takes.bind (takes_inotAbs hv ox hx hsx) (by omega) (fun c M hM hc => ?_)
    exact (takes_notOfUBig hv (takes_ubitxor' hv .val oy hc.1 hy.mag)).mono (by omega) fun _ h => h
  · refine Takes.bind (takes_inotAbs hv ox hx hsx) (by omega) (fun c M hM hc => ?_)
    refine Takes.bind (takes_inotAbs hv oy hy hsy) (by omega) (fun d M1 hM1 hd => ?_)
    exact (takes_ofUBigR' (takes_ubitxor' hv .val .val hc.1 hd.1)).mono (by omega) fun _ h => h

theorem takes_iandNot (hv : cfg.Valid) (ox oy : Own) {x y : IBig} (hx : x.WF cfg) (hy : y.WF cfg) :
    Takes (IBig.andNot cfg ox oy x y) (56 * (x.mag.len + y.mag.len)) (fun _ => True) := by
  have hn := one_le_len hx.mag
  have hm := one_le_len hy.mag
  unfold IBig.andNot
  rcases hsx : x.sign <;> rcases hsy : y.sign <;> dsimp only
  · exact (takes_ofUBigR' (takes_uandNot' hv ox oy hx.mag hy.mag)).mono (by omega) fun _ h => h
  · refine Takes.bind (takes_inotAbs hv oy hy hsy) (by omega) (fun c M hM hc => ?_)
    exact (takes_ofUBigR' (takes_ubitand' hv ox .val hx.mag hc.1)).mono (by omega) fun _ h => h
  · refine Takes.bind (takes_inotAbs hv ox hx hsx) (by omega) (fun c M hM hc => ?_)
    exact (takes_notOfUBig hv (takes_ubitor' hv .val oy hc.1 hy.mag)).mono (by omega) fun _ h => h
  · refine Takes.bind (takes_inotAbs hv oy hy hsy) (by omega) (fun c M hM hc => ?_)
    refine Takes.bind (takes_inotAbs hv ox hx hsx) (by omega) (fun d M1 hM1 hd => ?_)
    exact (takes_ofUBigR' (takes_uandNot' hv .val .val hc.1 hd.1)).mono (by omega) fun _ h => h

theorem takes_ibitand (hv : cfg.Valid) (ox oy : Own) {x y : IBig} (hx : x.WF cfg) (hy : y.WF cfg) :
    Takes (IBig.bitand cfg ox oy x y) (56 * (x.mag.len + y.mag.len)) (fun _ => True) := by
  cases ox <;> cases oy
  · exact takes_ibitandGen hv _ _ hx hy
  · exact takes_ibitandGen hv _ _ hx hy
  · rw [Nat.add_comm x.mag.len]; exact takes_ibitandGen hv _ _ hy hx
  · exact takes_ibitandGen hv _ _ hx hy

theorem takes_ibitor (hv : cfg.Valid) (ox oy : Own) {x y : IBig} (hx : x.WF cfg) (hy : y.WF cfg) :
    Takes (IBig.bitor cfg ox oy x y) (56 * (x.mag.len + y.mag.len)) (fun _ => True) := by
  cases ox <;> cases oy
  · exact takes_ibitorGen hv _ _ hx hy
  · exact takes_ibitorGen hv _ _ hx hy
  · rw [Nat.add_comm x.mag.len]; exact takes_ibitorGen hv _ _ hy hx
  · exact takes_ibitorGen hv _ _ hx hy

theorem takes_ibitxor (hv : cfg.Valid) (ox oy : Own) {x y : IBig} (hx : x.WF cfg) (hy : y.WF cfg) :
    Takes (IBig.bitxor cfg ox oy x y) (56 * (x.mag.len + y.mag.len)) (fun _ => True) := by
  cases ox <;> cases oy
  · exact takes_ibitxorGen hv _ _ hx hy
  · exact takes_ibitxorGen hv _ _ hx hy
  · rw [Nat.add_comm x.mag.len]; exact takes_ibitxorGen hv _ _ hy hx
  · exact takes_ibitxorGen hv _ _ hx hy

theorem takes_ishl (o : Own) (x : IBig) (n : Nat) :
    Takes (IBig.shl cfg o x n) (4 * x.mag.len + 3 * (n / cfg.W) + 29) (fun _ => True) :=
  Takes.bind (takes_ushl cfg o x.mag n) (le_refl _) fun _ _ _ _ => Takes.pure trivial

theorem takes_ishr (hv : cfg.Valid) (o : Own) {x : IBig} (hx : x.WF cfg) (n : Nat) :
    Takes (IBig.shr cfg o x n) (18 * x.mag.len + 47) (fun _ => True) := by
  have h1 := one_le_len hx.mag
  unfold IBig.shr
  rcases hs : x.sign <;> dsimp only
  · exact (takes_ofUBigR (takes_ushr cfg o x.mag n)).mono (by omega) fun _ h => h
  · refine Takes.bind (n := x.mag.len + 1) (Takes.pass (Post.true _)) (by omega) (fun b M hM _ => ?_)
    have h2 : Takes (UBig.shr cfg o x.mag n) (4 * x.mag.len + 33) (fun c => c.WF cfg ∧ c.len ≤ x.mag.len) := by
      refine Takes.post (takes_ushr cfg o x.mag n) (UBig.shr_result _ _ _ _) ?_
      refine (Post.of_returns (UBig.shr_spec hv o hx.mag n)).mono ?_
      rintro c ⟨h2, h3⟩
      refine ⟨h2, UBig.len_le hv h2 h1 ?_⟩
      rw [h3]
      exact lt_of_le_of_lt (Nat.div_le_self _ _) (UBig.value_lt_len hx.mag)
    refine Takes.bind h2 (by omega) ?_
    rintro c M1 hM1 ⟨h3, h4⟩
    have h5 : ((IBig.ofUBig c).neg).mag = c := by rw [neg_mag, ofUBig_mag_eq]
    have hw : (UBig.small b.toNat).WF cfg := wf_small (lt_of_le_of_lt (Bool.toNat_le b)
      (lt_of_lt_of_le one_lt_two (two_le_base hv.W1)))
    refine (takes_isub .val .val (x := (IBig.ofUBig c).neg) (y := .ofUBig (.small b.toNat))
      (by rw [h5]; exact h3) (by rw [ofUBig_mag_eq]; exact hw)).mono ?_ fun _ h => h
    rw [h5, ofUBig_mag_eq]
    show 13 * (c.len + 1) ≤ M1
    omega

end

end Ibig.Timed
