import Verif.Proofs.DivTime
import Verif.Proofs.DivPower
import Verif.Proofs.MulOpsTime
import Verif.Model.DivOpsTime
/-!
The number of steps of the operators `/`, `%` and `div_rem`.
-/
namespace Ibig.Timed

theorem UBig.divRemLargeWord_result (cfg : Cfg) (b : Buffer) (x : Nat) :
    (UBig.divRemLargeWord cfg b x).result = Ibig.UBig.divRemLargeWord cfg b x := by
  unfold UBig.divRemLargeWord Ibig.UBig.divRemLargeWord
  refine result_ite (fun _ => rfl) (fun _ => ?_)
  refine result_bind (divByWord_result _ _ _) ?_
  rintro ⟨ws, r⟩
  exact result_bind (result_pass _ _) (fun _ => rfl)

theorem UBig.divLargeWord_result (cfg : Cfg) (b : Buffer) (x : Nat) :
    (UBig.divLargeWord cfg b x).result = Ibig.UBig.divLargeWord cfg b x :=
  result_bind (UBig.divRemLargeWord_result _ _ _) (fun _ => rfl)

theorem UBig.remLargeWord_result (cfg : Cfg) (l : List Nat) (x : Nat) :
    (UBig.remLargeWord cfg l x).result = Ibig.UBig.remLargeWord cfg l x := by
  unfold UBig.remLargeWord Ibig.UBig.remLargeWord
  refine result_ite (fun _ => rfl) (fun _ => ?_)
  exact result_bind (remByWord_result _ _ _) (fun _ => rfl)

theorem Buffer.pushCarry_result (cfg : Cfg) (b : Buffer) (x : Nat) :
    (Buffer.pushCarry cfg b x).result = Ibig.Buffer.pushCarry cfg b x := by
  unfold Buffer.pushCarry Ibig.Buffer.pushCarry
  exact result_ite (fun _ => result_pass _ _) (fun _ => rfl)

theorem UBig.divRemInLhs_result (cfg : Cfg) (a b : Buffer) :
    (UBig.divRemInLhs cfg a b).result = Ibig.UBig.divRemInLhs cfg a b := by
  unfold UBig.divRemInLhs Ibig.UBig.divRemInLhs
  refine result_bind (normalizeLarge_result _ _) ?_
  rintro ⟨rw, shift, fd⟩
  refine result_bind (shlInPlace_result _ _ _) ?_
  rintro ⟨lw, k⟩
  refine result_bind (Buffer.pushCarry_result _ _ _) (fun _ => ?_)
  refine result_bind (result_pass _ _) (fun _ => ?_)
  refine result_bind (result_pass _ _) (fun _ => ?_)
  refine result_bind (divRemInPlace_result _ _ _ _ _) ?_
  rintro ⟨lw, k⟩
  exact result_bind (Buffer.pushCarry_result _ _ _) (fun _ => rfl)

theorem UBig.divLarge_result (cfg : Cfg) (a b : Buffer) :
    (UBig.divLarge cfg a b).result = Ibig.UBig.divLarge cfg a b := by
  refine result_bind (UBig.divRemInLhs_result _ _ _) ?_
  rintro ⟨l, r, s⟩
  exact result_bind (result_pass _ _) (fun _ => result_pass _ _)

theorem takeRemainder_result (W : Nat) (a b : Buffer) (s : Nat) :
    (takeRemainder W a b s).result = Ibig.takeRemainder W a b s := by
  refine result_bind (result_pass _ _) (fun _ => ?_)
  refine result_bind (shrInPlace_result _ _ _) ?_
  rintro ⟨l, k⟩
  exact result_bind (result_pass _ _) (fun _ => rfl)

theorem UBig.remLarge_result (cfg : Cfg) (a b : Buffer) :
    (UBig.remLarge cfg a b).result = Ibig.UBig.remLarge cfg a b := by
  refine result_bind (UBig.divRemInLhs_result _ _ _) ?_
  rintro ⟨l, r, s⟩
  exact result_bind (takeRemainder_result _ _ _ _) (fun _ => result_pass _ _)

theorem UBig.divRemLarge_result (cfg : Cfg) (a b : Buffer) :
    (UBig.divRemLarge cfg a b).result = Ibig.UBig.divRemLarge cfg a b := by
  refine result_bind (UBig.divRemInLhs_result _ _ _) ?_
  rintro ⟨l, r, s⟩
  refine result_bind (takeRemainder_result _ _ _ _) (fun _ => ?_)
  refine result_bind (result_pass _ _) (fun _ => ?_)
  refine result_bind (result_pass _ _) (fun _ => ?_)
  exact result_bind (result_pass _ _) (fun _ => rfl)

theorem Buffer.own_result (cfg : Cfg) (o : Own) (b : Buffer) :
    (Buffer.own cfg o b).result = Ibig.Buffer.own cfg o b := by
  cases o
  · rfl
  · exact result_pass _ _

theorem UBig.shorterRem_result (cfg : Cfg) (o0 o1 : Own) (a b : Buffer) :
    (UBig.shorterRem cfg o0 o1 a b).result = Ibig.UBig.shorterRem cfg o0 o1 a b := by
  cases o0 <;> cases o1
  · exact result_pass _ _
  · exact result_pass _ _
  · exact result_bind (result_pass _ _) (fun _ => result_pass _ _)
  · exact result_pass _ _

theorem UBig.div_result (cfg : Cfg) (o0 o1 : Own) (a b : UBig) :
    (UBig.div cfg o0 o1 a b).result = Ibig.UBig.div cfg o0 o1 a b := by
  cases a <;> cases b
  · exact result_pass _ _
  · rfl
  · exact result_bind (Buffer.own_result _ _ _) (fun _ => UBig.divLargeWord_result _ _ _)
  · refine result_ite (fun _ => ?_) (fun _ => rfl)
    refine result_bind (Buffer.own_result _ _ _) (fun _ => ?_)
    exact result_bind (Buffer.own_result _ _ _) (fun _ => UBig.divLarge_result _ _ _)

theorem UBig.rem_result (cfg : Cfg) (o0 o1 : Own) (a b : UBig) :
    (UBig.rem cfg o0 o1 a b).result = Ibig.UBig.rem cfg o0 o1 a b := by
  cases a <;> cases b
  · exact result_pass _ _
  · rfl
  · exact UBig.remLargeWord_result _ _ _
  · refine result_ite (fun _ => ?_) (fun _ => UBig.shorterRem_result _ _ _ _ _)
    refine result_bind (Buffer.own_result _ _ _) (fun _ => ?_)
    exact result_bind (Buffer.own_result _ _ _) (fun _ => UBig.remLarge_result _ _ _)

theorem UBig.divRem_result (cfg : Cfg) (o0 o1 : Own) (a b : UBig) :
    (UBig.divRem cfg o0 o1 a b).result = Ibig.UBig.divRem cfg o0 o1 a b := by
  cases a <;> cases b
  · exact result_pass _ _
  · rfl
  · exact result_bind (Buffer.own_result _ _ _) (fun _ => UBig.divRemLargeWord_result _ _ _)
  · refine result_ite (fun _ => ?_) (fun _ => result_bind (UBig.shorterRem_result _ _ _ _ _) (fun _ => rfl))
    refine result_bind (Buffer.own_result _ _ _) (fun _ => ?_)
    exact result_bind (Buffer.own_result _ _ _) (fun _ => UBig.divRemLarge_result _ _ _)

theorem IBig.div_result (cfg : Cfg) (o0 o1 : Own) (a b : IBig) :
    (IBig.div cfg o0 o1 a b).result = Ibig.IBig.div cfg o0 o1 a b :=
  result_bind (UBig.div_result _ _ _ _ _) (fun _ => rfl)

theorem IBig.rem_result (cfg : Cfg) (o0 o1 : Own) (a b : IBig) :
    (IBig.rem cfg o0 o1 a b).result = Ibig.IBig.rem cfg o0 o1 a b :=
  result_bind (UBig.rem_result _ _ _ _ _) (fun _ => rfl)

theorem IBig.divRem_result (cfg : Cfg) (o0 o1 : Own) (a b : IBig) :
    (IBig.divRem cfg o0 o1 a b).result = Ibig.IBig.divRem cfg o0 o1 a b :=
  result_bind (UBig.divRem_result _ _ _ _ _) (fun _ => rfl)

/-! The number of steps -/

/-- A bound for the steps of a division of `n` words by `m` words. -/
noncomputable def divBound (n m : ℕ) : ℝ := 210 * n * ((min n m : ℕ) : ℝ) ^ (47 / 100 : ℝ)

theorem le_divBound {n m : ℕ} (hn : 1 ≤ n) (hm : 1 ≤ m) : 210 * (n : ℝ) ≤ divBound n m := by
  unfold divBound
  have h := one_le_rpow47 (b := min n m) (by omega)
  have h5 : (0 : ℝ) ≤ n := Nat.cast_nonneg n
  nlinarith

theorem divBound_mono {n n' m m' : ℕ} (h : n ≤ n') (h' : m ≤ m') : divBound n m ≤ divBound n' m' := by
  unfold divBound
  have h1 : (n : ℝ) ≤ n' := by exact_mod_cast h
  have h4 := rpow47_mono (show min n m ≤ min n' m' by omega)
  have h5 : (0 : ℝ) ≤ n := Nat.cast_nonneg n
  exact mul_le_mul (by linarith) h4 (rpow47_nonneg _) (by linarith)

theorem takes_normalizeLarge {W : Nat} (hW : 1 ≤ W) (l : List Nat) :
    Takes (normalizeLarge W l) (l.length + 6) (fun p => p.1.length = l.length ∧ TopNorm W p.1) := by
  unfold normalizeLarge
  tone takes_assertR _ => _u
  tone takes_getR _ _ => top
  refine Takes.bind (takes_shlInPlace W l _) (by omega) ?_
  rintro ⟨l1, o⟩ M1 hM1 h1
  dsimp only at h1 ⊢
  tone takes_assertR _ => _u
  refine Takes.bind (n := 1) (P := fun x => l1.getLast? = some x) (Takes.pass ?_) (by omega) ?_
  · unfold Ibig.getR
    rw [← List.getLast?_eq_getElem?]
    cases e : l1.getLast? with
    | none => exact Post.error
    | some x => exact Post.ok rfl
  rintro top M2 hM2 h2
  refine Takes.bind (n := 1) (P := fun _ => base W ≤ 2 * top) (Takes.pass ?_) (by omega) ?_
  · unfold Ibig.FastDivideNormalized.new
    refine Post.bind (post_assertR _) (fun _ hz => ?_)
    have hle : base W ≤ 2 * top := by
      unfold leadingZeros at hz
      have h2 : base W = 2 * 2 ^ (W - 1) := by
        unfold base; rw [← pow_succ']; congr 1; omega
      have h3 : ¬ bitLen top ≤ W - 1 := by omega
      rw [bitLen_le_iff] at h3
      omega
    exact fun _ _ => hle
  rintro fd M3 hM3 h3
  refine Takes.pure ⟨h1, fun x hx => ?_⟩
  rw [show l1.getLast? = some x from hx] at h2
  cases h2
  exact h3

theorem takes_pushCarry (cfg : Cfg) (b : Buffer) (x : Nat) :
    Takes (Buffer.pushCarry cfg b x) (b.words.length + 2)
      (fun c => c.words.length = b.words.length ∨ c.words.length = b.words.length + 1) := by
  unfold Buffer.pushCarry
  refine Takes.ite (fun _ => ?_) (fun _ => Takes.pure (Or.inl rfl))
  refine Takes.pass ((pushMayReallocate_words cfg b x).mono (fun c hc => Or.inr ?_))
  rw [hc, List.length_append]
  rfl

theorem takes_divRemInLhs {cfg : Cfg} (hW : 1 ≤ cfg.W) (a b : Buffer) :
    Takes (UBig.divRemInLhs cfg a b)
      (inPlaceBound (a.words.length + 1) b.words.length + 3 * a.words.length + b.words.length + 15)
      (fun p => p.1.words.length ≤ a.words.length + 2 ∧ p.2.1.words.length = b.words.length ∧
        2 ≤ b.words.length) := by
  unfold UBig.divRemInLhs
  refine Takes.bind (takes_normalizeLarge hW b.words) (by omega) ?_
  rintro ⟨rw', shift, fd⟩ M1 hM1 ⟨h1, hT⟩
  dsimp only at h1 hT ⊢
  refine Takes.bind (takes_shlInPlace _ _ _) (by omega) ?_
  rintro ⟨lw, c⟩ M2 hM2 h2
  dsimp only at h2 ⊢
  refine Takes.bind (takes_pushCarry cfg _ c) (by dsimp only; omega) ?_
  rintro l M3 hM3 h3
  dsimp only at h3 hM3
  refine Takes.bind (n := 1) (P := fun _ => True) (Takes.pass (Post.true _)) (by omega) ?_
  rintro req M4 hM4 -
  refine Takes.bind (n := 1) (P := fun _ => True) (Takes.pass (Post.true _)) (by omega) ?_
  rintro mem M5 hM5 -
  have hb : inPlaceBound l.words.length rw'.length ≤ inPlaceBound (a.words.length + 1) b.words.length := by
    rw [h1]
    exact inPlaceBound_mono (by omega)
  refine Takes.bind (takes_divRemInPlace_bound hT) (by omega) ?_
  rintro ⟨lw2, o⟩ M6 hM6 h4
  dsimp only at h4 ⊢
  refine Takes.bind (takes_pushCarry cfg _ _) (by dsimp only; omega) ?_
  rintro l2 M7 hM7 h5
  dsimp only at h5 ⊢
  exact Takes.pure ⟨by dsimp only; omega, h1, by omega⟩

theorem takes_ofBuffer (cfg : Cfg) (b : Buffer) :
    Takes (UBig.ofBuffer cfg b) (2 * b.words.length + 2) (fun _ => True) := Takes.pass (Post.true _)

theorem takes_eraseFront (b : Buffer) (n : Nat) :
    Takes (Buffer.eraseFront b n) (b.words.length + 1) (fun c => c.words.length ≤ b.words.length) := by
  refine Takes.pass ?_
  unfold Ibig.Buffer.eraseFront
  refine Post.bind (Post.true _) (fun _ _ => Post.ok ?_)
  simp

theorem takes_takeRemainder (W : Nat) (a b : Buffer) (s : Nat) :
    Takes (takeRemainder W a b s) (2 * b.words.length + 3) (fun c => c.words.length = b.words.length) := by
  unfold takeRemainder
  have hb : b.len = b.words.length := rfl
  refine Takes.bind (Takes.pass (post_sliceR a.words 0 b.len)) (by omega) (fun r M hM hr => ?_)
  refine Takes.bind (takes_shrInPlace W r s) (by omega) ?_
  rintro ⟨ws, k⟩ M1 hM1 h1
  tone takes_assertR _ => _u
  exact Takes.pure (by dsimp only at h1 ⊢; omega)

theorem takes_own (cfg : Cfg) (o : Own) (b : Buffer) :
    Takes (Buffer.own cfg o b) (b.words.length + 1) (fun c => c.words = b.words) := by
  cases o
  · exact Takes.pure rfl
  · refine Takes.pass ?_
    unfold Ibig.Buffer.clone
    refine Post.bind (Post.true _) (fun _ _ => ?_)
    unfold Ibig.Buffer.cloneFrom
    exact Post.bind (Post.true _) (fun _ _ => Post.ok rfl)

/-- the steps of a division of large numbers, after copying the operands -/
noncomputable def largeBound (N n : ℕ) : ℕ := inPlaceBound (N + 1) n + 6 * N + 5 * n + 35

theorem takes_divLarge {cfg : Cfg} (hW : 1 ≤ cfg.W) (a b : Buffer) :
    Takes (UBig.divLarge cfg a b) (largeBound a.words.length b.words.length) (fun _ => 2 ≤ b.words.length) := by
  unfold UBig.divLarge largeBound
  refine Takes.bind (takes_divRemInLhs hW a b) (by omega) ?_
  rintro ⟨l, r, s⟩ M hM h
  dsimp only at h ⊢
  refine Takes.bind (takes_eraseFront _ _) (by omega) (fun l1 M1 hM1 h1 => ?_)
  exact (takes_ofBuffer cfg l1).mono (by omega) (fun _ _ => h.2.2)

theorem takes_remLarge {cfg : Cfg} (hW : 1 ≤ cfg.W) (a b : Buffer) :
    Takes (UBig.remLarge cfg a b) (largeBound a.words.length b.words.length) (fun _ => 2 ≤ b.words.length) := by
  unfold UBig.remLarge largeBound
  refine Takes.bind (takes_divRemInLhs hW a b) (by omega) ?_
  rintro ⟨l, r, s⟩ M hM h
  dsimp only at h ⊢
  refine Takes.bind (takes_takeRemainder _ _ _ _) (by omega) (fun r1 M1 hM1 h1 => ?_)
  exact (takes_ofBuffer cfg r1).mono (by omega) (fun _ _ => h.2.2)

theorem takes_divRemLarge {cfg : Cfg} (hW : 1 ≤ cfg.W) (a b : Buffer) :
    Takes (UBig.divRemLarge cfg a b) (largeBound a.words.length b.words.length)
      (fun _ => 2 ≤ b.words.length) := by
  unfold UBig.divRemLarge largeBound
  refine Takes.bind (takes_divRemInLhs hW a b) (by omega) ?_
  rintro ⟨l, r, s⟩ M hM h
  dsimp only at h ⊢
  refine Takes.bind (takes_takeRemainder _ _ _ _) (by omega) (fun r1 M1 hM1 h1 => ?_)
  refine Takes.bind (takes_eraseFront _ _) (by omega) (fun l1 M2 hM2 h2 => ?_)
  refine Takes.bind (takes_ofBuffer cfg l1) (by omega) (fun q M3 hM3 _ => ?_)
  refine Takes.bind (takes_ofBuffer cfg r1) (by omega) (fun q M3 hM3 _ => ?_)
  exact Takes.pure h.2.2

/-- copying the operands before -/
theorem takes_owned {α : Type} {cfg : Cfg} {f : Buffer → Buffer → Timed α} {a b : Buffer} (o0 o1 : Own)
    (h : ∀ a b, Takes (f a b) (largeBound a.words.length b.words.length) (fun _ => 2 ≤ b.words.length)) :
    Takes (do
      let b0 ← Buffer.own cfg o0 a
      let b1 ← Buffer.own cfg o1 b
      f b0 b1) (largeBound a.words.length b.words.length + a.words.length + b.words.length + 2)
      (fun _ => 2 ≤ b.words.length) := by
  refine Takes.bind (takes_own cfg o0 a) (by omega) (fun b0 M1 hM1 h1 => ?_)
  refine Takes.bind (takes_own cfg o1 b) (by omega) (fun b1 M2 hM2 h2 => ?_)
  have := h b0 b1
  rw [h1, h2] at this
  exact this.mono (by omega) (fun _ h => h)

theorem large_steps {α : Type} {x : Timed α} {N n : ℕ} (hnN : n ≤ N)
    (hx : Takes x (largeBound N n + N + n + 2) (fun _ => 2 ≤ n)) {r : α} {k : Nat} (h : x = .ok (r, k)) :
    (k : ℝ) ≤ divBound N n := by
  obtain ⟨h1, h2⟩ := hx r k h
  unfold largeBound at h1
  have h1' : (k : ℝ) ≤ inPlaceBound (N + 1) n + 6 * N + 5 * n + 35 + N + n + 2 := by exact_mod_cast h1
  unfold divBound
  rw [Nat.min_eq_right hnN]
  have hn2 : (2 : ℝ) ≤ n := by exact_mod_cast h2
  have hnN' : (n : ℝ) ≤ N := by exact_mod_cast hnN
  have hQ := one_le_rpow47 (b := n) (by omega)
  have hNQ := mul_le_mul_of_nonneg_left hQ (show (0 : ℝ) ≤ N by linarith)
  unfold inPlaceBound at h1'
  by_cases hs : N + 1 < 66 ∨ n < 33
  · rw [if_pos hs] at h1'
    have hf := Nat.floor_le (show (0 : ℝ) ≤ 60 * ((N + 1 : ℕ) : ℝ) * (n : ℝ) ^ (47 / 100 : ℝ) by positivity)
    push_cast at hf h1'
    nlinarith
  · rw [if_neg hs] at h1'
    have hf := Nat.floor_le (show (0 : ℝ) ≤ 195 * ((N + 1 : ℕ) : ℝ) * (n : ℝ) ^ (47 / 100 : ℝ) by positivity)
    have h5 := five_le_rpow47 (n := n) (by omega)
    have h65 : (65 : ℝ) ≤ N := by
      have : 65 ≤ N := by omega
      exact_mod_cast this
    push_cast at hf h1'
    generalize (n : ℝ) ^ (47 / 100 : ℝ) = Q at *
    have a1 := mul_le_mul_of_nonneg_left h5 (show (0 : ℝ) ≤ N by linarith)
    have a2 := mul_le_mul_of_nonneg_right h65 (show (0 : ℝ) ≤ Q by linarith)
    nlinarith

theorem linear_steps {α : Type} {x : Timed α} {N n : ℕ} (hN : 1 ≤ N) (hn : 1 ≤ n)
    (hx : Takes x (5 * N + 9) (fun _ => True)) {r : α} {k : Nat} (h : x = .ok (r, k)) :
    (k : ℝ) ≤ divBound N n := by
  have h1 : (k : ℝ) ≤ 5 * N + 9 := by exact_mod_cast (hx r k h).1
  have h2 := le_divBound hN hn
  have h3 : (1 : ℝ) ≤ N := by exact_mod_cast hN
  linarith

theorem takes_divRemLargeWord (cfg : Cfg) (b : Buffer) (x : Nat) :
    Takes (UBig.divRemLargeWord cfg b x) (4 * b.words.length + 6) (fun _ => True) := by
  unfold UBig.divRemLargeWord
  refine Takes.ite (fun _ => Takes.throwT) (fun _ => ?_)
  refine Takes.bind (takes_divByWord _ _ _) (by omega) ?_
  rintro ⟨ws, r⟩ M hM h
  refine Takes.bind (takes_ofBuffer cfg _) (by dsimp only at h ⊢; omega) (fun q _ _ _ => Takes.pure trivial)

theorem takes_divLargeWord (cfg : Cfg) (b : Buffer) (x : Nat) :
    Takes (UBig.divLargeWord cfg b x) (4 * b.words.length + 6) (fun _ => True) := by
  refine Takes.bind (takes_divRemLargeWord cfg b x) (le_refl _) ?_
  rintro ⟨q, r⟩ _ _ _
  exact Takes.pure trivial

theorem takes_remLargeWord (cfg : Cfg) (l : List Nat) (x : Nat) :
    Takes (UBig.remLargeWord cfg l x) (l.length + 3) (fun _ => True) := by
  unfold UBig.remLargeWord
  refine Takes.ite (fun _ => Takes.throwT) (fun _ => ?_)
  exact Takes.bind (takes_remByWord _ _ _) (le_refl _) (fun _ _ _ _ => Takes.pure trivial)

theorem takes_ownWord {α : Type} {cfg : Cfg} {f : Buffer → Timed α} {a : Buffer} (o : Own)
    (h : ∀ a, Takes (f a) (4 * a.words.length + 6) (fun _ => True)) :
    Takes (do
      let b0 ← Buffer.own cfg o a
      f b0) (5 * a.words.length + 9) (fun _ => True) := by
  refine Takes.bind (takes_own cfg o a) (by omega) (fun b0 M1 hM1 h1 => ?_)
  have := h b0
  rw [h1] at this
  exact this.mono (by omega) (fun _ h => h)

theorem takes_shorterRem (cfg : Cfg) (o0 o1 : Own) (a b : Buffer) :
    Takes (UBig.shorterRem cfg o0 o1 a b) (3 * a.words.length + 4) (fun _ => True) := by
  have own : Takes (UBig.ofBuffer cfg a) (3 * a.words.length + 4) (fun _ => True) :=
    (takes_ofBuffer cfg a).mono (by omega) (fun _ h => h)
  cases o0 <;> cases o1
  · exact own
  · exact own
  · refine Takes.bind (n := a.words.length + 2) (P := fun c => c.words.length = a.words.length) (Takes.pass ?_)
      (by omega) (fun c M hM hc => (takes_ofBuffer cfg c).mono (by omega) (fun _ h => h))
    have hclone : ∀ s : Buffer, Post (s.cloneFrom a) (fun c => c.words.length = a.words.length) := by
      intro s
      unfold Ibig.Buffer.cloneFrom
      exact Post.bind (Post.true _) (fun _ _ => Post.ok rfl)
    have hc2 : Post (a.clone cfg) (fun c => c.words.length = a.words.length) := by
      unfold Ibig.Buffer.clone
      exact Post.bind (Post.true _) (fun _ _ => hclone _)
    unfold Ibig.Buffer.resizingCloneFrom
    refine Post.ite (fun _ => ?_) (fun _ => hc2)
    exact Post.bind (Post.true _) (fun _ _ => Post.ite (fun _ => hclone _) (fun _ => hc2))
  · exact (Takes.pass (Post.true _)).mono
      (show a.words.length + 1 ≤ 3 * a.words.length + 4 by omega) (fun _ h => h)

theorem one_le_W {cfg : Cfg} (hv : cfg.Valid) : 1 ≤ cfg.W := by rcases hv.word with h | h | h <;> omega

theorem UBig.div_steps {cfg : Cfg} (hv : cfg.Valid) (o0 o1 : Own) {a b : UBig} (ha : a.WF cfg) (hb : b.WF cfg)
    {r : UBig} {k : Nat} (h : UBig.div cfg o0 o1 a b = .ok (r, k)) : (k : ℝ) ≤ divBound a.len b.len := by
  cases a with
  | small w0 =>
    cases b with
    | small w1 => exact linear_steps (le_refl 1) (le_refl 1) ((Takes.pass (Post.true _)).mono (by omega) fun _ h => h) h
    | large b1 =>
      have hb : b1.WF cfg := hb
      have h2 := hb.two
      exact linear_steps (N := 1) (n := b1.words.length) (le_refl 1) (by omega) (Takes.pure trivial) h
  | large b0 =>
    have ha : b0.WF cfg := ha
    have h2 := ha.two
    cases b with
    | small w1 =>
      exact linear_steps (N := b0.words.length) (n := 1) (by omega) (le_refl 1)
        (takes_ownWord o0 fun c => takes_divLargeWord cfg c w1) h
    | large b1 =>
      have hb : b1.WF cfg := hb
      have h3 := hb.two
      show (k : ℝ) ≤ divBound b0.words.length b1.words.length
      rw [UBig.div] at h
      by_cases hl : b1.len ≤ b0.len
      · rw [if_pos hl] at h
        exact large_steps hl (takes_owned o0 o1 (takes_divLarge (one_le_W hv))) h
      · rw [if_neg hl] at h
        exact linear_steps (by omega) (by omega) (Takes.pure trivial) h

theorem UBig.rem_steps {cfg : Cfg} (hv : cfg.Valid) (o0 o1 : Own) {a b : UBig} (ha : a.WF cfg) (hb : b.WF cfg)
    {r : UBig} {k : Nat} (h : UBig.rem cfg o0 o1 a b = .ok (r, k)) : (k : ℝ) ≤ divBound a.len b.len := by
  cases a with
  | small w0 =>
    cases b with
    | small w1 => exact linear_steps (le_refl 1) (le_refl 1) ((Takes.pass (Post.true _)).mono (by omega) fun _ h => h) h
    | large b1 =>
      have hb : b1.WF cfg := hb
      have h2 := hb.two
      exact linear_steps (N := 1) (n := b1.words.length) (le_refl 1) (by omega) (Takes.pure trivial) h
  | large b0 =>
    have ha : b0.WF cfg := ha
    have h2 := ha.two
    cases b with
    | small w1 =>
      exact linear_steps (N := b0.words.length) (n := 1) (by omega) (le_refl 1)
        ((takes_remLargeWord cfg b0.words w1).mono (by omega) fun _ h => h) h
    | large b1 =>
      have hb : b1.WF cfg := hb
      have h3 := hb.two
      show (k : ℝ) ≤ divBound b0.words.length b1.words.length
      rw [UBig.rem] at h
      by_cases hl : b1.len ≤ b0.len
      · rw [if_pos hl] at h
        exact large_steps hl (takes_owned o0 o1 (takes_remLarge (one_le_W hv))) h
      · rw [if_neg hl] at h
        exact linear_steps (by omega) (by omega) ((takes_shorterRem cfg o0 o1 b0 b1).mono (by omega) fun _ h => h) h

theorem UBig.divRem_steps {cfg : Cfg} (hv : cfg.Valid) (o0 o1 : Own) {a b : UBig} (ha : a.WF cfg) (hb : b.WF cfg)
    {r : UBig × UBig} {k : Nat} (h : UBig.divRem cfg o0 o1 a b = .ok (r, k)) : (k : ℝ) ≤ divBound a.len b.len := by
  cases a with
  | small w0 =>
    cases b with
    | small w1 => exact linear_steps (le_refl 1) (le_refl 1) ((Takes.pass (Post.true _)).mono (by omega) fun _ h => h) h
    | large b1 =>
      have hb : b1.WF cfg := hb
      have h2 := hb.two
      exact linear_steps (N := 1) (n := b1.words.length) (le_refl 1) (by omega) (Takes.pure trivial) h
  | large b0 =>
    have ha : b0.WF cfg := ha
    have h2 := ha.two
    cases b with
    | small w1 =>
      exact linear_steps (N := b0.words.length) (n := 1) (by omega) (le_refl 1)
        (takes_ownWord o0 fun c => takes_divRemLargeWord cfg c w1) h
    | large b1 =>
      have hb : b1.WF cfg := hb
      have h3 := hb.two
      show (k : ℝ) ≤ divBound b0.words.length b1.words.length
      rw [UBig.divRem] at h
      by_cases hl : b1.len ≤ b0.len
      · rw [if_pos hl] at h
        exact large_steps hl (takes_owned o0 o1 (takes_divRemLarge (one_le_W hv))) h
      · rw [if_neg hl] at h
        refine linear_steps (by omega) (by omega) ?_ h
        exact Takes.bind (takes_shorterRem cfg o0 o1 b0 b1) (by omega) (fun _ _ _ _ => Takes.pure trivial)

/-- a computation that ends with attaching signs -/
theorem steps_map {α β : Type} {x : Timed α} {f : α → β} {B : ℝ} (hx : ∀ m l, x = .ok (m, l) → (l : ℝ) ≤ B)
    {r : β} {k : Nat} (hr : (do let m ← x; pure (f m) : Timed β) = .ok (r, k)) : (k : ℝ) ≤ B := by
  rcases x with e | ⟨m, l⟩
  · cases hr
  · cases hr
    exact hx m l rfl

theorem IBig.div_steps {cfg : Cfg} (hv : cfg.Valid) (o0 o1 : Own) {a b : IBig} (ha : a.WF cfg) (hb : b.WF cfg)
    {r : IBig} {k : Nat} (h : IBig.div cfg o0 o1 a b = .ok (r, k)) : (k : ℝ) ≤ divBound a.mag.len b.mag.len :=
  steps_map (fun _ _ hm => UBig.div_steps hv o0 o1 ha.mag hb.mag hm) h

theorem IBig.rem_steps {cfg : Cfg} (hv : cfg.Valid) (o0 o1 : Own) {a b : IBig} (ha : a.WF cfg) (hb : b.WF cfg)
    {r : IBig} {k : Nat} (h : IBig.rem cfg o0 o1 a b = .ok (r, k)) : (k : ℝ) ≤ divBound a.mag.len b.mag.len :=
  steps_map (fun _ _ hm => UBig.rem_steps hv o0 o1 ha.mag hb.mag hm) h

theorem IBig.divRem_steps {cfg : Cfg} (hv : cfg.Valid) (o0 o1 : Own) {a b : IBig} (ha : a.WF cfg) (hb : b.WF cfg)
    {r : IBig × IBig} {k : Nat} (h : IBig.divRem cfg o0 o1 a b = .ok (r, k)) :
    (k : ℝ) ≤ divBound a.mag.len b.mag.len :=
  steps_map (fun _ _ hm => UBig.divRem_steps hv o0 o1 ha.mag hb.mag hm) h

end Ibig.Timed
