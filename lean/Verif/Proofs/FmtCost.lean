import Verif.Proofs.FmtTime
import Verif.Proofs.ParsePower
/-!
The number of steps of writing digits.  The cost of emptying the full buffer of the digit writer is spread over the
digits in it: reasoning with a potential.
-/
namespace Ibig.Timed

/-- if `x` returns then its steps and the potential of its result are at most `B`, and the result satisfies `P` -/
def Spends {α : Type} (x : Timed α) (B : ℝ) (Φ : α → ℝ) (P : α → Prop) : Prop :=
  ∀ a k, x = .ok (a, k) → (k : ℝ) + Φ a ≤ B ∧ P a

theorem Spends.step {α β : Type} {x : Timed α} {f : α → Timed β} {P : α → Prop} {Q : β → Prop} {Φ : α → ℝ}
    {Ψ : β → ℝ} {B C : ℝ} (hx : Spends x B Φ P) (hf : ∀ a, P a → Spends (f a) (Φ a + (C - B)) Ψ Q) :
    Spends (x >>= f) C Ψ Q := by
  intro b k hb
  rcases x with e | ⟨a, l⟩
  · cases hb
  · obtain ⟨hl, hP⟩ := hx a l rfl
    replace hb : (match f a with
      | .error e => Except.error e
      | .ok (b, m) => Except.ok (b, l + m) : R (β × Nat)) = .ok (b, k) := hb
    have := hf a hP
    generalize f a = y at hb this
    rcases y with e | ⟨b', m⟩
    · cases hb
    · cases hb
      obtain ⟨h1, h2⟩ := this b m rfl
      exact ⟨by push_cast; linarith, h2⟩

theorem Costs.spends {α : Type} {x : Timed α} {P : α → Prop} {B : ℝ} (hx : Costs x B P) :
    Spends x B (fun _ => 0) P := fun a k h => ⟨by rw [add_zero]; exact (hx a k h).1, (hx a k h).2⟩

theorem Costs.spend {α β : Type} {x : Timed α} {f : α → Timed β} {P : α → Prop} {Q : β → Prop}
    {Ψ : β → ℝ} {B C : ℝ} (hx : Costs x B P) (hf : ∀ a, P a → Spends (f a) (C - B) Ψ Q) :
    Spends (x >>= f) C Ψ Q :=
  hx.spends.step fun a ha => by rw [zero_add]; exact hf a ha

theorem Spends.mono {α : Type} {x : Timed α} {P Q : α → Prop} {Φ Ψ : α → ℝ} {B C : ℝ} (hx : Spends x B Φ P)
    (h : ∀ a, P a → B + Ψ a ≤ C + Φ a) (hQ : ∀ a, P a → Q a) : Spends x C Ψ Q := by
  intro a k ha
  obtain ⟨h1, h2⟩ := hx a k ha
  have := h a h2
  exact ⟨by linarith, hQ a h2⟩

theorem Spends.le {α : Type} {x : Timed α} {P : α → Prop} {Φ : α → ℝ} {B C : ℝ} (hx : Spends x B Φ P)
    (h : B ≤ C) : Spends x C Φ P := hx.mono (fun _ _ => by linarith) fun _ h => h

theorem Spends.pure {α : Type} {a : α} {P : α → Prop} {Φ : α → ℝ} {B : ℝ} (h : P a) (hB : Φ a ≤ B) :
    Spends (pure a : Timed α) B Φ P := by
  intro b k hb
  cases hb
  exact ⟨by rw [Nat.cast_zero, zero_add]; exact hB, h⟩

theorem Spends.throwT {α : Type} {e : Panic} {P : α → Prop} {Φ : α → ℝ} {B : ℝ} :
    Spends (throwT e : Timed α) B Φ P := by
  intro b k hb
  cases hb

theorem Spends.ite {α : Type} {c : Prop} [Decidable c] {x y : Timed α} {P : α → Prop} {Φ : α → ℝ} {B : ℝ}
    (hx : c → Spends x B Φ P) (hy : ¬ c → Spends y B Φ P) : Spends (if c then x else y) B Φ P := by
  by_cases h : c
  · rw [if_pos h]; exact hx h
  · rw [if_neg h]; exact hy h

theorem Spends.costs {α : Type} {x : Timed α} {P : α → Prop} {Φ : α → ℝ} {B C : ℝ} (hx : Spends x B Φ P)
    (h : ∀ a, P a → B ≤ C + Φ a) : Costs x C P := by
  intro a k ha
  obtain ⟨h1, h2⟩ := hx a k ha
  have := h a h2
  exact ⟨by linarith, h2⟩

/-- a property of the result, from the model -/
theorem Spends.and {α : Type} {x : Timed α} {y : R α} {B : ℝ} {Φ : α → ℝ} {P Q : α → Prop} (hx : Spends x B Φ P)
    (hr : x.result = y) (hp : Post y Q) : Spends x B Φ (fun a => P a ∧ Q a) :=
  fun a k h => ⟨(hx a k h).1, (hx a k h).2, hp a (by rw [← hr]; exact result_of_ok h)⟩

/-! ### The digit writer -/

theorem post_digitChunk (W : Nat) (be : Bool) (l : List Nat) (dc : DigitCase) :
    Post (Ibig.digitChunkToAscii W be l dc) (fun r => r.length = W / 8) := by
  unfold Ibig.digitChunkToAscii
  refine Post.bind (Post.true _) fun _ _ => Post.bind (Post.true _) fun _ _ => Post.bind (Post.true _) fun w _ => ?_
  refine Post.ok ?_
  cases be <;> simp [toLeBytesN_length]

theorem takes_chunksToAscii {W : Nat} (hW : 2 ≤ W / 8) (be : Bool) (dc : DigitCase) (k : Nat) : ∀ l : List Nat,
    Takes (chunksToAscii W be dc k l) (l.length / 2) (fun r => r.length = l.length) := by
  induction k with
  | zero => intro l; exact Takes.pure rfl
  | succ k ih =>
    intro l
    rw [chunksToAscii]
    refine Takes.ite (fun _ => Takes.pure rfl) fun h => ?_
    refine Takes.bind (Takes.pass (post_digitChunk W be _ dc)) (by omega) fun c M hM hc => ?_
    refine Takes.bind (ih _) (by rw [List.length_drop]; omega) fun r M hM hr => Takes.pure ?_
    rw [List.length_append, hc, hr, List.length_drop]
    omega

theorem post_fromUtf8 (l : List Nat) : Post (Ibig.fromUtf8Unchecked l) (fun r => r = l) :=
  Post.bind (Post.true _) fun _ _ => Post.ok rfl

/-- the number of steps of `flush`, with `r` the rounded length -/
theorem takes_flush {W : Nat} (hW : 2 ≤ W / 8) (dw : DigitWriter) (r : Nat)
    (hr : roundUp dw.buffer.length (W / 8) = r) (hle : dw.buffer.length ≤ r) :
    Takes (DigitWriter.flush W dw) (2 + r + r / 2)
      (fun d => d.buffer = [] ∧ d.out.length = dw.out.length + dw.buffer.length) := by
  unfold DigitWriter.flush
  rw [hr]
  refine Takes.bind (takes_assertR _) (by omega) fun _ M hM _ => ?_
  refine Takes.bind (Takes.pass (Post.ok rfl)) (by omega) fun p M hM hp => ?_
  have hl : p.length = r := by rw [← hp, List.length_append, List.length_replicate]; omega
  refine Takes.bind (takes_chunksToAscii hW _ _ _ p) (by rw [hl]; omega) fun a M hM ha => ?_
  have ht : (a.take dw.buffer.length).length = dw.buffer.length := by rw [List.length_take, ha, hl]; omega
  refine Takes.bind (Takes.pass (post_fromUtf8 _)) (by rw [ht]; omega) fun s M hM hs => Takes.pure ⟨rfl, ?_⟩
  rw [hs, List.length_append, ht]

theorem roundUp_bounds {W : Nat} (hW : W = 16 ∨ W = 32 ∨ W = 64) (n : Nat) :
    n ≤ roundUp n (W / 8) ∧ roundUp n (W / 8) ≤ n + 7 := by
  unfold roundUp ceilDiv
  rcases hW with rfl | rfl | rfl <;> constructor <;> simp <;> split <;> omega

/-- the number of digits written so far -/
def written (dw : DigitWriter) : Nat := dw.out.length + dw.buffer.length

/-- the end: the buffer is flushed -/
theorem takes_flush_last {W : Nat} (hW : W = 16 ∨ W = 32 ∨ W = 64) (dw : DigitWriter) :
    Takes (DigitWriter.flush W dw) (2 * dw.buffer.length + 16) (fun d => d.out.length = written dw) := by
  obtain ⟨h1, h2⟩ := roundUp_bounds hW dw.buffer.length
  exact (takes_flush (by omega) dw _ rfl h1).mono (by omega) fun _ h => h.2

theorem digitBufferLen_eq {W : Nat} (hW : W = 16 ∨ W = 32 ∨ W = 64) : digitBufferLen W = 32 := by
  rcases hW with rfl | rfl | rfl <;> rfl

/-- a full buffer is flushed -/
theorem takes_flush_full {W : Nat} (hW : W = 16 ∨ W = 32 ∨ W = 64) (dw : DigitWriter) (h : dw.buffer.length = 32) :
    Takes (DigitWriter.flush W dw) 50
      (fun d => d.buffer = [] ∧ d.out.length = dw.out.length + dw.buffer.length) := by
  refine takes_flush (by omega) dw 32 ?_ (by omega)
  rw [h]
  rcases hW with rfl | rfl | rfl <;> rfl

theorem spends_writeLoop {W : Nat} (hW : W = 16 ∨ W = 32 ∨ W = 64) (fuel : Nat) : ∀ (dw : DigitWriter) (buf : List Nat),
    dw.buffer.length < 32 →
    Spends (DigitWriter.writeLoop W fuel dw buf) (2 * dw.buffer.length + 3 * buf.length + 2)
      (fun d => 2 * (d.buffer.length : ℝ)) (fun d => d.buffer.length < 32 ∧ written d = written dw + buf.length) := by
  have hz : ∀ (fuel : Nat) (dw : DigitWriter), DigitWriter.writeLoop W fuel dw [] = pure dw := by
    intro fuel dw
    cases fuel <;> rw [DigitWriter.writeLoop, if_pos rfl]
  induction fuel with
  | zero =>
    intro dw buf h
    rw [DigitWriter.writeLoop]
    refine Spends.ite (fun hb => ?_) fun _ => Spends.throwT
    subst hb
    exact Spends.pure ⟨h, by simp⟩ (by simp)
  | succ fuel ih =>
    intro dw buf h
    rw [DigitWriter.writeLoop]
    refine Spends.ite (fun hb => ?_) fun hb => ?_
    · subst hb
      exact Spends.pure ⟨h, by simp⟩ (by simp)
    · refine Costs.spend (Takes.costs (P := fun r => r = 32 - dw.buffer.length)
        (Takes.pass (fun r hr => ?_))) fun room hroom => ?_
      · unfold Ibig.ckSub at hr
        rw [digitBufferLen_eq hW] at hr
        split at hr
        · cases hr; rfl
        · cases hr
      refine Costs.spend (Takes.costs (takes_splitR _ _)) ?_
      rintro ⟨ch, rest⟩ ⟨h1, h2, h3⟩
      dsimp only at h1 h2 ⊢
      refine Costs.spend (Takes.costs (Takes.pass (Post.ok rfl))) fun b hb' => ?_
      have hbl : b.length = dw.buffer.length + ch.length := by rw [← hb', List.length_append]
      have hlen : (rest.length : ℝ) + ch.length = buf.length := by
        have : rest.length + ch.length = buf.length := by omega
        exact_mod_cast this
      unfold DigitWriter.flushIfFull
      rw [digitBufferLen_eq hW]
      dsimp only
      by_cases hf : b.length = 32
      · rw [if_pos hf]
        refine Costs.spend (Takes.costs (takes_flush_full hW { dw with buffer := b } hf)) fun d hd => ?_
        have hd0 : d.buffer.length = 0 := by rw [hd.1]; rfl
        refine (ih d rest (by omega)).mono (fun _ _ => ?_) fun e he => ⟨he.1, ?_⟩
        · have h32 : (dw.buffer.length : ℝ) + ch.length = 32 := by
            have : dw.buffer.length + ch.length = 32 := by omega
            exact_mod_cast this
          rw [hd0]
          push_cast
          linarith
        · rw [he.2]
          unfold written
          rw [hd.2, hd0]
          dsimp only
          omega
      · rw [if_neg hf]
        have hr0 : rest = [] := List.length_eq_zero_iff.mp (by
          have : b.length ≤ 32 := by omega
          omega)
        subst hr0
        refine Costs.spend (Costs.pure (P := fun d => d = { dw with buffer := b }) rfl) fun d hd => ?_
        subst hd
        rw [hz]
        have hc : (ch.length : ℝ) = buf.length := by simpa using hlen
        refine Spends.pure ⟨show b.length < 32 by omega, ?_⟩ ?_
        · unfold written
          dsimp only
          have : ch.length = buf.length := by exact_mod_cast hc
          omega
        · show 2 * (b.length : ℝ) ≤ _
          rw [hbl]
          push_cast
          linarith

/-- The potential: `c` steps are paid for by each digit written. -/
def pot (c : ℝ) (dw : DigitWriter) : ℝ := 2 * dw.buffer.length - c * written dw

theorem spends_write (c : ℝ) {W : Nat} (hW : W = 16 ∨ W = 32 ∨ W = 64) (dw : DigitWriter) (buf : List Nat)
    (h : dw.buffer.length < 32) :
    Spends (DigitWriter.write W dw buf) (pot c dw + (3 - c) * buf.length + 2) (pot c)
      (fun d => d.buffer.length < 32) := by
  refine (spends_writeLoop hW _ dw buf h).mono (fun a ha => ?_) fun a ha => ha.1
  unfold pot
  rw [ha.2]
  push_cast
  linarith

/-! ### Power-of-two radix -/

theorem takes_pow2WordDigits (W word log mask n : Nat) :
    Takes (pow2WordDigits W word log mask n) (2 * n) (fun l => l.length = n) := by
  induction n with
  | zero => exact Takes.pure rfl
  | succ n ih =>
    refine Takes.bind (takes_word1 _) (by omega) fun _ M hM _ => ?_
    refine Takes.bind (takes_word1 _) (by omega) fun _ M hM _ => ?_
    refine Takes.bind ih (by omega) fun l M hM hl => Takes.pure ?_
    rw [List.length_cons, hl]

theorem spends_pow2WordWrite {W : Nat} (hW : W = 16 ∨ W = 32 ∨ W = 64) (word log width : Nat) (dw : DigitWriter)
    (h : dw.buffer.length < 32) :
    Spends (pow2WordWrite W word log width dw) (pot 9 dw + 4) (pot 9) (fun d => d.buffer.length < 32) := by
  unfold pow2WordWrite
  refine Costs.spend (Takes.costs (takes_word1 _)) fun mask _ => ?_
  refine Costs.spend (Takes.costs (takes_assertR _)) fun _ _ => ?_
  refine Costs.spend (Takes.costs (takes_pow2WordDigits _ _ _ _ _)) fun l hl => ?_
  refine (spends_write 9 hW dw l h).le ?_
  rw [hl]
  push_cast
  have : (0 : ℝ) ≤ width := Nat.cast_nonneg _
  linarith

theorem takes_pow2LargeStep (W log mask word bits : Nat) (rest : List Nat) :
    Takes (pow2LargeStep W log mask word bits rest) 4 (fun _ => True) := by
  unfold pow2LargeStep
  refine Takes.ite (fun _ => ?_) fun _ => ?_
  · rcases rest with _ | ⟨w, rest⟩
    · exact Takes.bind (takes_assertR _) (by omega) fun _ _ _ _ => Takes.pure trivial
    · refine Takes.bind (takes_word1 _) (by omega) fun _ M hM _ => ?_
      refine Takes.bind (takes_word1 _) (by omega) fun _ M hM _ => ?_
      refine Takes.bind (takes_word1 _) (by omega) fun _ M hM _ => ?_
      exact Takes.bind (takes_word1 _) (by omega) fun _ M hM _ => Takes.pure trivial
  · refine Takes.bind (takes_word1 _) (by omega) fun _ M hM _ => ?_
    exact Takes.bind (takes_word1 _) (by omega) fun _ M hM _ => Takes.pure trivial

theorem spends_pow2LargeLoop {W : Nat} (hW : W = 16 ∨ W = 32 ∨ W = 64) (log mask fuel : Nat) :
    ∀ word bits rest dw, dw.buffer.length < 32 →
    Spends (pow2LargeLoop' W log mask fuel word bits rest dw) (pot 9 dw + 4) (pot 9)
      (fun d => d.buffer.length < 32) := by
  induction fuel with
  | zero => intro _ _ _ _ _; exact Spends.throwT
  | succ fuel ih =>
    intro word bits rest dw h
    rw [pow2LargeLoop']
    refine Costs.spend (Takes.costs (takes_pow2LargeStep _ _ _ _ _ _)) ?_
    rintro (_ | ⟨d, w, b, r⟩) _
    · exact Spends.pure h (by push_cast; linarith)
    · refine (spends_write 9 hW dw [d] h).step fun e he => ?_
      refine (ih w b r e he).le ?_
      push_cast [List.length_singleton]
      linarith

theorem spends_pow2LargeWrite {cfg : Cfg} (hv : cfg.Valid) (words : List Nat) (log width : Nat) (dw : DigitWriter)
    (h : dw.buffer.length < 32) :
    Spends (pow2LargeWrite cfg words log width dw) (pot 9 dw + 9) (pot 9) (fun d => d.buffer.length < 32) := by
  unfold pow2LargeWrite
  refine Costs.spend (Takes.costs (takes_word1 _)) fun mask _ => ?_
  rcases words.reverse with _ | ⟨w, rest⟩
  · exact Spends.throwT
  · refine Costs.spend (Takes.costs (takes_word1 _)) fun _ _ => ?_
    refine Costs.spend (Takes.costs (takes_word1 _)) fun _ _ => ?_
    refine Costs.spend (Takes.costs (takes_word1 _)) fun _ _ => ?_
    refine Costs.spend (Takes.costs (takes_word1 _)) fun _ _ => ?_
    refine (spends_pow2LargeLoop hv.word _ _ _ _ _ _ dw h).le ?_
    push_cast
    linarith

theorem takes_pow2LargeWidth (cfg : Cfg) (words : List Nat) (log : Nat) :
    Takes (pow2LargeWidth cfg words log) 3 (fun _ => True) :=
  Takes.bind (takes_word1 _) (by omega) fun _ M hM _ => Takes.bind (takes_word1 _) (by omega) fun _ M hM _ =>
    Takes.bind (takes_word1 _) (by omega) fun _ M hM _ => Takes.pure trivial

/-! ### `format_prepared` -/

/-- The steps of `format_prepared`, from those of the width and those of writing the digits.  Each character of the
text pays for `c` steps. -/
theorem costs_formatPrepared {cfg : Cfg} (hv : cfg.Valid) (be : Bool) (sign : Sign) (pre : List Nat) (dc : DigitCase)
    (f : FmtFlags) (p : Prepared) {c A B : ℝ} (hc : 1 ≤ c) (hp : Costs p.width A (fun _ => True))
    (hw : ∀ dw, dw.buffer.length < 32 → Spends (p.write dw) (pot c dw + B) (pot c) (fun d => d.buffer.length < 32)) :
    Spends (formatPrepared cfg be sign pre dc f p) (A + B + 18) (fun text => - (c * text.length))
      (fun _ => True) := by
  unfold formatPrepared
  refine Costs.spend hp fun w _ => ?_
  refine Costs.spend (Takes.costs (takes_ckAdd _ _ _)) fun width _ => ?_
  have hd : Spends (writeDigits cfg.W be dc p) (B + 16) (fun l => - (c * l.length)) (fun _ => True) := by
    unfold writeDigits
    refine (hw _ (by decide : ([] : List Nat).length < 32)).step fun dw h => ?_
    refine Costs.spend (Takes.costs (takes_flush_last hv.word dw)) fun d hd => Spends.pure trivial ?_
    rw [hd]
    unfold pot written
    push_cast [List.length_nil]
    linarith
  refine hd.step fun digits _ => ?_
  have he : ∀ (n : Nat) (text : List Nat), (signStr sign f).length + pre.length + n + digits.length ≤ text.length →
      Spends (emit (signStr sign f) pre n text) (1 - c * digits.length) (fun text => - (c * text.length))
        (fun _ => True) := by
    intro n text h
    refine (Costs.spends (Takes.costs (Takes.pass (Post.ok (P := fun t => t = text) rfl)))).mono
      (fun a ha => ?_) fun _ _ => trivial
    rw [ha]
    have h' : ((signStr sign f).length : ℝ) + pre.length + n + digits.length ≤ text.length := by exact_mod_cast h
    have h0 : (0 : ℝ) ≤ (signStr sign f).length + pre.length + n := by positivity
    push_cast
    nlinarith
  rcases f.width with _ | m
  · refine (he 0 _ (by simp only [List.length_append]; omega)).le ?_
    push_cast
    linarith
  · refine Spends.ite (fun _ => ?_) fun _ => Spends.ite (fun _ => ?_) fun _ => ?_
    · refine (he 0 _ (by simp only [List.length_append]; omega)).le ?_
      push_cast
      linarith
    · refine (he _ _ (by simp only [List.length_append, List.length_replicate]; omega)).le ?_
      push_cast
      linarith
    · refine (he _ _ (by simp only [List.length_append, List.length_replicate]; omega)).le ?_
      push_cast
      linarith

theorem spends_fmtPow2 {cfg : Cfg} (hv : cfg.Valid) (be : Bool) (sign : Sign) (mag : UBig) (radix : Nat)
    (pre : List Nat) (dc : DigitCase) (f : FmtFlags) :
    Spends (fmtPow2 cfg be sign mag radix pre dc f) 32 (fun text => - (9 * text.length)) (fun _ => True) := by
  unfold fmtPow2
  refine Costs.spend (Takes.costs (takes_assertR _)) fun _ _ => ?_
  rcases mag with w | b
  · refine (costs_formatPrepared hv be sign pre dc f _ (c := 9) (A := 1) (B := 4) (by norm_num)
      (by simpa using Takes.costs (takes_word1 (.ok _)))
      fun dw h => spends_pow2WordWrite hv.word _ _ _ dw h).le ?_
    push_cast
    norm_num
  · refine Costs.spend (Takes.costs (takes_pow2LargeWidth _ _ _)) fun w _ => ?_
    refine (costs_formatPrepared hv be sign pre dc f _ (c := 9) (A := 1) (B := 9) (by norm_num)
      (by simpa using Takes.costs (takes_word1 (.ok _)))
      fun dw h => spends_pow2LargeWrite hv _ _ _ dw h).le ?_
    push_cast
    norm_num

end Ibig.Timed
