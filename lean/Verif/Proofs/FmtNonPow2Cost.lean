import Verif.Proofs.FmtCost
import Verif.Proofs.FmtEntry
/-!
The number of steps of writing a chunk of digits when the radix is not a power of two.
-/
namespace Ibig.Timed

theorem spends_npDigitsLoop (W : Nat) (fd : FastDivideSmall) (m fuel : Nat) : ∀ w s (ds : List Nat),
    Spends (npDigitsLoop W fd m fuel w s ds) (- (2 * ds.length)) (fun l => - (2 * (l.length : ℝ))) (fun _ => True) := by
  induction fuel with
  | zero => intro _ _ _; exact Spends.throwT
  | succ fuel ih =>
    intro w s ds
    rw [npDigitsLoop]
    refine Spends.ite (fun _ => ?_) fun _ => Spends.pure trivial (le_refl _)
    refine Costs.spend (Takes.costs (takes_word1 _)) ?_
    rintro ⟨q, d⟩ _
    refine Costs.spend (Takes.costs (takes_word1 _)) fun s' _ => ?_
    refine (ih q s' (d % 256 :: ds)).le ?_
    push_cast [List.length_cons]
    linarith

theorem spends_npWordNew (W w r m : Nat) :
    Spends (npWordNew W w r m) 4 (fun l => - (2 * (l.length : ℝ))) (fun _ => True) := by
  unfold npWordNew
  refine Costs.spend (Takes.costs (takes_assertR _)) fun _ _ => ?_
  refine Costs.spend (Takes.costs (takes_word1 _)) fun info _ => ?_
  refine Costs.spend (Takes.costs (takes_word1 _)) fun md _ => ?_
  refine Costs.spend (Takes.costs (takes_word1 _)) fun ms _ => ?_
  refine (spends_npDigitsLoop W _ _ _ _ _ []).le ?_
  push_cast [List.length_nil]
  linarith

theorem spends_npWriteGroups {W : Nat} (hW : W = 16 ∨ W = 32 ∨ W = 64) (r D : Nat) (gs : List Nat) :
    ∀ dw : DigitWriter, dw.buffer.length < 32 →
      Spends (npWriteGroups W r D gs dw) (pot 9 dw + 6 * gs.length) (pot 9) (fun d => d.buffer.length < 32) := by
  induction gs with
  | nil => intro dw h; exact Spends.pure h (by simp)
  | cons g gs ih =>
    intro dw h
    refine (spends_npWordNew W g r D).step fun l _ => ?_
    refine (spends_write 9 hW dw l h).step fun d hd => ?_
    refine (ih d hd).le ?_
    have : (0 : ℝ) ≤ l.length := Nat.cast_nonneg _
    push_cast [List.length_cons]
    linarith

theorem popZeros_length_le (l : List Nat) : (Ibig.popZeros l).length ≤ l.length := by
  unfold Ibig.popZeros
  rw [List.length_reverse]
  exact (List.dropWhile_sublist _).length_le.trans (by rw [List.length_reverse])

theorem takes_popZeros (l : List Nat) : Takes (popZeros l) (l.length + 1) (fun q => q.length ≤ l.length) :=
  Takes.pass (Post.ok (popZeros_length_le l))

theorem takes_chunkBuffer (x : UBig) : Takes (chunkBuffer x) 33 (fun b => b.length ≤ 16) := by
  intro b k h
  have h1 : Post (Ibig.chunkBuffer x) (fun b => b = x.asWords ∧ b.length ≤ 16) := by
    unfold Ibig.chunkBuffer
    exact Post.bind (post_assertR _) fun _ h => Post.ok ⟨rfl, h⟩
  have h2 := Takes.pass (n := fmtChunkLen + x.asWords.length + 1) h1 b k h
  have h3 := h2.2.1
  have h4 := h2.2.2
  have h5 := h2.1
  refine ⟨?_, h4⟩
  rw [← h3] at h5
  unfold fmtChunkLen at h5
  omega

theorem takes_npMediumLoop (W : Nat) (info : RadixInfo) (fuel : Nat) : ∀ buf gs : List Nat, buf.length ≤ 16 →
    gs.length ≤ 16 → Takes (npMediumLoop W info fuel buf gs) (50 * fuel) (fun p => p.2.length ≤ 16) := by
  induction fuel with
  | zero => intro _ _ _ _; exact Takes.throwT
  | succ fuel ih =>
    intro buf gs hb hg
    rw [npMediumLoop]
    refine Takes.ite (fun _ => ?_) fun _ => Takes.pure hg
    refine Takes.bind (takes_fastDivByWord _ _ _ _) (by omega) ?_
    rintro ⟨q, rem⟩ M hM hq
    dsimp only at hq ⊢
    refine Takes.ite (fun hlt => ?_) fun _ => Takes.throwT
    refine Takes.bind (takes_popZeros q) (by omega) fun q' N hN hq' => ?_
    refine Takes.ite (fun _ => Takes.throwT) fun _ => ?_
    refine (ih q' (rem :: gs) (by omega) ?_).mono (by omega) fun _ h => h
    unfold fmtChunkLen at hlt
    rw [List.length_cons]
    omega

theorem spends_npMediumNew (W : Nat) (x : UBig) (r : Nat) :
    Spends (npMediumNew W x r) 939 (fun p => - (2 * (p.top.length : ℝ))) (fun p => p.low.length ≤ 16) := by
  unfold npMediumNew
  refine Costs.spend (Takes.costs (takes_assertR _)) fun _ _ => ?_
  refine Costs.spend (Takes.costs (takes_word1 _)) fun info _ => ?_
  refine Costs.spend (Takes.costs (takes_chunkBuffer x)) fun b hb => ?_
  refine Costs.spend (Takes.costs (takes_npMediumLoop W info (fmtChunkLen + 2) b [] hb (by simp))) ?_
  rintro ⟨buf, gs⟩ hg
  dsimp only at hg ⊢
  rcases buf with _ | ⟨w, _ | ⟨w', l⟩⟩
  · exact Spends.throwT
  · refine (spends_npWordNew W w r 1).step fun top _ => Spends.pure hg ?_
    unfold fmtChunkLen
    push_cast
    linarith
  · exact Spends.throwT

theorem takes_npMediumWidth (cfg : Cfg) (p : PreparedMedium) (r : Nat) :
    Takes (npMediumWidth cfg p r) 3 (fun _ => True) :=
  Takes.bind (takes_word1 _) (by omega) fun _ M hM _ => Takes.bind (takes_word1 _) (by omega) fun _ M hM _ =>
    (takes_ckAdd _ _ _).mono (by omega) fun _ h => h

theorem spends_npMediumWrite {W : Nat} (hW : W = 16 ∨ W = 32 ∨ W = 64) {p : PreparedMedium}
    (hp : p.low.length ≤ 16) (r : Nat) (dw : DigitWriter) (h : dw.buffer.length < 32) :
    Spends (npMediumWrite W p r dw) (pot 9 dw + (99 - 6 * p.top.length)) (pot 9)
      (fun d => d.buffer.length < 32) := by
  unfold npMediumWrite
  refine Costs.spend (Takes.costs (takes_word1 _)) fun info _ => ?_
  refine (spends_write 9 hW dw p.top h).step fun d hd => ?_
  refine (spends_npWriteGroups hW r _ p.low d hd).le ?_
  have : (p.low.length : ℝ) ≤ 16 := by exact_mod_cast hp
  push_cast
  linarith

theorem takes_npChunkGroups (W : Nat) (info : RadixInfo) (n : Nat) : ∀ buf gs : List Nat, buf.length ≤ 16 →
    Takes (npChunkGroups W info n buf gs) (50 * n) (fun p => p.2.length = gs.length + n) := by
  induction n with
  | zero => intro _ _ _; exact Takes.pure rfl
  | succ n ih =>
    intro buf gs hb
    rw [npChunkGroups]
    refine Takes.bind (takes_fastDivByWord _ _ _ _) (by omega) ?_
    rintro ⟨q, rem⟩ M hM hq
    dsimp only at hq ⊢
    refine Takes.bind (takes_popZeros q) (by omega) fun q' N hN hq' => ?_
    refine (ih q' (rem :: gs) (by omega)).mono (by omega) fun p hp => ?_
    rw [hp, List.length_cons]
    omega

theorem spends_npWriteChunk {W : Nat} (hW : W = 16 ∨ W = 32 ∨ W = 64) (r : Nat) (dw : DigitWriter) (x : UBig)
    (h : dw.buffer.length < 32) :
    Spends (npWriteChunk W r dw x) (pot 9 dw + 931) (pot 9) (fun d => d.buffer.length < 32) := by
  unfold npWriteChunk
  refine Costs.spend (Takes.costs (takes_word1 _)) fun info _ => ?_
  refine Costs.spend (Takes.costs (takes_chunkBuffer x)) fun b hb => ?_
  refine Costs.spend (Takes.costs (takes_npChunkGroups W info fmtChunkLen b [] hb)) ?_
  rintro ⟨buf, gs⟩ hg
  dsimp only at hg ⊢
  refine Costs.spend (Takes.costs (takes_assertR _)) fun _ _ => ?_
  refine (spends_npWriteGroups hW r _ gs dw h).le ?_
  rw [hg]
  unfold fmtChunkLen
  push_cast [List.length_nil]
  linarith

end Ibig.Timed
