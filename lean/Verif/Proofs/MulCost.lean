import Verif.Proofs.Takes
/-!
The number of steps of multiplication, as recurrences.
-/
namespace Ibig.Timed

theorem takes_assertR (p : Prop) [Decidable p] : Takes (assertR p) 1 (fun _ => p) := Takes.pass (post_assertR p)
theorem takes_ckInt (b : Nat) (x : Int) : Takes (ckInt b x) 1 (fun _ => True) := Takes.pass (Post.true _)
theorem takes_ckAdd (b x y : Nat) : Takes (ckAdd b x y) 1 (fun _ => True) := Takes.pass (Post.true _)
theorem takes_getR (l : List Nat) (x : Nat) : Takes (getR l x) 1 (fun _ => True) := Takes.pass (Post.true _)
theorem takes_setR (l : List Nat) (i x : Nat) : Takes (setR l i x) 1 (fun s => s.length = l.length) :=
  Takes.pass (post_setR l i x)
theorem takes_splitR (l : List Nat) (n : Nat) :
    Takes (splitR l n) 1 (fun p => p.1.length = n ∧ p.2.length = l.length - n ∧ n ≤ l.length) :=
  Takes.pass (post_splitR l n)
theorem takes_sliceR (l : List Nat) (i j : Nat) :
    Takes (sliceR l i j) 1 (fun s => s.length = j - i ∧ i ≤ j ∧ j ≤ l.length) := Takes.pass (post_sliceR l i j)
theorem takes_allocFill (mem n x : Nat) : Takes (allocFill mem n x) (n + 1) (fun p => p.1.length = n) :=
  Takes.pass (allocFill_len mem n x)
theorem takes_allocCopy (mem : Nat) (l : List Nat) :
    Takes (allocCopy mem l) (l.length + 1) (fun p => p.1.length = l.length) := Takes.pass (allocCopy_len mem l)
theorem takes_allocCopyFill (mem n : Nat) (l : List Nat) (x : Nat) :
    Takes (allocCopyFill mem n l x) (n + 1) (fun p => p.1.length = n) := Takes.pass (allocCopyFill_len mem n l x)
theorem takes_tick : Takes tick 1 (fun _ => True) := Takes.pass (Post.true _)

/-! Loops over words -/

theorem takes_addOne (W : Nat) (l : List Nat) : Takes (addOne W l) l.length (fun p => p.1.length = l.length) := by
  induction l with
  | nil => exact Takes.pure rfl
  | cons w ws ih =>
    rw [addOne, List.length_cons]
    refine Takes.bind takes_tick (by omega) (fun _ M hM _ => ?_)
    rcases overflowingAdd W w 1 with ⟨a, o⟩
    refine Takes.ite (fun _ => Takes.pure rfl) (fun _ => ?_)
    refine Takes.bind ih (by omega) ?_
    rintro ⟨r, c⟩ _ _ h
    exact Takes.pure (by simp only [List.length_cons] at h ⊢; omega)

theorem takes_subOne (W : Nat) (l : List Nat) : Takes (subOne W l) l.length (fun p => p.1.length = l.length) := by
  induction l with
  | nil => exact Takes.pure rfl
  | cons w ws ih =>
    rw [subOne, List.length_cons]
    refine Takes.bind takes_tick (by omega) (fun _ M hM _ => ?_)
    rcases overflowingSub W w 1 with ⟨a, o⟩
    refine Takes.ite (fun _ => Takes.pure rfl) (fun _ => ?_)
    refine Takes.bind ih (by omega) ?_
    rintro ⟨r, c⟩ _ _ h
    exact Takes.pure (by simp only [List.length_cons] at h ⊢; omega)

theorem takes_addWord (W : Nat) (l : List Nat) (x : Nat) :
    Takes (addWord W l x) l.length (fun p => p.1.length = l.length) := by
  cases l with
  | nil => exact Takes.throwT
  | cons w ws =>
    rw [addWord, List.length_cons]
    refine Takes.bind takes_tick (by omega) (fun _ M hM _ => ?_)
    rcases overflowingAdd W w x with ⟨a, o⟩
    refine Takes.ite (fun _ => ?_) (fun _ => Takes.pure rfl)
    refine Takes.bind (takes_addOne W ws) (by omega) ?_
    rintro ⟨r, c⟩ _ _ h
    exact Takes.pure (by simp only [List.length_cons] at h ⊢; omega)

theorem takes_subWord (W : Nat) (l : List Nat) (x : Nat) :
    Takes (subWord W l x) l.length (fun p => p.1.length = l.length) := by
  cases l with
  | nil => exact Takes.throwT
  | cons w ws =>
    rw [subWord, List.length_cons]
    refine Takes.bind takes_tick (by omega) (fun _ M hM _ => ?_)
    rcases overflowingSub W w x with ⟨a, o⟩
    refine Takes.ite (fun _ => ?_) (fun _ => Takes.pure rfl)
    refine Takes.bind (takes_subOne W ws) (by omega) ?_
    rintro ⟨r, c⟩ _ _ h
    exact Takes.pure (by simp only [List.length_cons] at h ⊢; omega)

theorem takes_addLoop (W : Nat) (l : List Nat) :
    ∀ r k, Takes (addLoop W l r k) l.length (fun p => p.1.length = l.length) := by
  induction l with
  | nil => intro r k; cases r <;> exact Takes.pure rfl
  | cons w ws ih =>
    intro r k
    cases r with
    | nil => exact Takes.pure rfl
    | cons b bs =>
      rw [addLoop, List.length_cons]
      refine Takes.bind takes_tick (by omega) (fun _ M hM _ => ?_)
      refine Takes.bind (ih bs _) (by omega) ?_
      rintro ⟨r, c⟩ _ _ h
      exact Takes.pure (by simp only [List.length_cons] at h ⊢; omega)

theorem takes_subLoop (W : Nat) (l : List Nat) :
    ∀ r k, Takes (subLoop W l r k) l.length (fun p => p.1.length = l.length) := by
  induction l with
  | nil => intro r k; cases r <;> exact Takes.pure rfl
  | cons w ws ih =>
    intro r k
    cases r with
    | nil => exact Takes.pure rfl
    | cons b bs =>
      rw [subLoop, List.length_cons]
      refine Takes.bind takes_tick (by omega) (fun _ M hM _ => ?_)
      refine Takes.bind (ih bs _) (by omega) ?_
      rintro ⟨r, c⟩ _ _ h
      exact Takes.pure (by simp only [List.length_cons] at h ⊢; omega)

theorem takes_subSwapLoop (W : Nat) (l : List Nat) :
    ∀ r k, Takes (subSwapLoop W l r k) r.length (fun p => p.1.length = r.length) := by
  induction l with
  | nil => intro r k; cases r <;> exact Takes.pure rfl
  | cons w ws ih =>
    intro r k
    cases r with
    | nil => exact Takes.pure rfl
    | cons b bs =>
      rw [subSwapLoop, List.length_cons]
      refine Takes.bind takes_tick (by omega) (fun _ M hM _ => ?_)
      refine Takes.bind (ih bs _) (by omega) ?_
      rintro ⟨r, c⟩ _ _ h
      exact Takes.pure (by simp only [List.length_cons] at h ⊢; omega)

theorem takes_addSameLen (W : Nat) (l r : List Nat) :
    Takes (addSameLen W l r) (l.length + 1) (fun p => p.1.length = l.length) :=
  Takes.bind (takes_assertR _) (by omega) fun _ _ h _ => (takes_addLoop W l r false).mono (by omega) fun _ h => h

theorem takes_subSameLen (W : Nat) (l r : List Nat) :
    Takes (subSameLen W l r) (l.length + 1) (fun p => p.1.length = l.length) :=
  Takes.bind (takes_assertR _) (by omega) fun _ _ h _ => (takes_subLoop W l r false).mono (by omega) fun _ h => h

theorem takes_subSameLenSwap (W : Nat) (l r : List Nat) :
    Takes (subSameLenSwap W l r) (r.length + 1) (fun p => p.1.length = r.length) :=
  Takes.bind (takes_assertR _) (by omega) fun _ _ h _ => (takes_subSwapLoop W l r false).mono (by omega) fun _ h => h

theorem takes_addInPlace (W : Nat) (l r : List Nat) :
    Takes (addInPlace W l r) (l.length + 2) (fun p => p.1.length = l.length) := by
  unfold addInPlace
  refine Takes.bind (takes_splitR l r.length) (by omega) ?_
  rintro ⟨lo, hi⟩ M hM h
  dsimp only at h
  refine Takes.bind (takes_addSameLen W lo r) (by omega) ?_
  rintro ⟨lo', k⟩ M' hM' h'
  dsimp only at h'
  refine Takes.ite (fun _ => ?_) (fun _ => Takes.pure (by simp only [List.length_append]; omega))
  refine Takes.bind (takes_addOne W hi) (by omega) ?_
  rintro ⟨hi', c⟩ _ _ h2
  exact Takes.pure (by simp only [List.length_append] at h2 ⊢; omega)

theorem takes_subInPlace (W : Nat) (l r : List Nat) :
    Takes (subInPlace W l r) (l.length + 2) (fun p => p.1.length = l.length) := by
  unfold subInPlace
  refine Takes.bind (takes_splitR l r.length) (by omega) ?_
  rintro ⟨lo, hi⟩ M hM h
  dsimp only at h
  refine Takes.bind (takes_subSameLen W lo r) (by omega) ?_
  rintro ⟨lo', k⟩ M' hM' h'
  dsimp only at h'
  refine Takes.ite (fun _ => ?_) (fun _ => Takes.pure (by simp only [List.length_append]; omega))
  refine Takes.bind (takes_subOne W hi) (by omega) ?_
  rintro ⟨hi', c⟩ _ _ h2
  exact Takes.pure (by simp only [List.length_append] at h2 ⊢; omega)

/-- An operation whose number of steps is at most the length of the slice and `e` more. -/
theorem takes_onPass {α : Type} {c : List Nat} {i j : Nat} {f : List Nat → Timed (List Nat × α)}
    {Q : List Nat → Prop} {P : Prop} (e : Nat)
    (h : ∀ s, Takes (f s) (s.length + e) (fun p => p.1.length = s.length ∧ Q s))
    (hQ : ∀ s : List Nat, s.length = j - i → Q s → P) :
    Takes (onSlice c i j f) (j - i + (e + 1))
      (fun r => r.1.length = c.length ∧ i ≤ j ∧ j ≤ c.length ∧ P) := by
  refine (Takes.onSlice (n := j - i + e) (fun s hs _ _ => ?_)).mono (by omega) (fun _ h => h)
  refine (h s).mono (by omega) (fun r hr => ⟨hr.1, hQ s hs hr.2⟩)

/-- the same without `Q` -/
theorem takes_onPass' {α : Type} {c : List Nat} {i j : Nat} {f : List Nat → Timed (List Nat × α)} (e : Nat)
    (h : ∀ s, Takes (f s) (s.length + e) (fun p => p.1.length = s.length)) :
    Takes (onSlice c i j f) (j - i + (e + 1))
      (fun r => r.1.length = c.length ∧ i ≤ j ∧ j ≤ c.length ∧ True) :=
  takes_onPass (Q := fun _ => True) e (fun s => (h s).mono (le_refl _) fun _ h => ⟨h, trivial⟩) (fun _ _ h => h)

theorem takes_strippedLen (l : List Nat) (n : Nat) : Takes (strippedLen l n) n (fun x => x ≤ n) := by
  induction n with
  | zero => exact Takes.pure (le_refl _)
  | succ n ih =>
    rw [strippedLen]
    refine Takes.bind (takes_getR _ _) (by omega) (fun x M hM _ => ?_)
    exact Takes.ite (fun _ => ih.mono (by omega) (fun _ h => by omega)) (fun _ => Takes.pure (le_refl _))

theorem takes_subSignLoop (W : Nat) (r : List Nat) (n : Nat) :
    ∀ l, Takes (subSignLoop W l r n) (3 * n + 8) (fun p => p.1.length = l.length) := by
  induction n with
  | zero => intro l; exact Takes.pure rfl
  | succ n ih =>
    intro l
    rw [subSignLoop]
    refine Takes.bind (takes_getR _ _) (by omega) (fun x M hM _ => ?_)
    refine Takes.bind (takes_getR _ _) (by omega) (fun y M' hM' _ => ?_)
    refine Takes.ite (fun _ => ?_) (fun _ => Takes.ite (fun _ => ?_) (fun _ => ?_))
    · refine Takes.bind (takes_sliceR _ _ _) (by omega) (fun s M1 hM1 _ => ?_)
      refine Takes.bind (takes_onPass' 1 fun _ => takes_subSameLen W _ _) (by omega) ?_
      rintro ⟨l', o⟩ M2 hM2 h
      exact Takes.bind (takes_assertR _) (by omega) (fun _ _ _ _ => Takes.pure h.1)
    · refine Takes.bind (takes_sliceR _ _ _) (by omega) (fun s M1 hM1 _ => ?_)
      refine Takes.bind (takes_onPass' 1 fun _ => takes_subSameLenSwap W _ _) (by omega) ?_
      rintro ⟨l', o⟩ M2 hM2 h
      exact Takes.bind (takes_assertR _) (by omega) (fun _ _ _ _ => Takes.pure h.1)
    · refine Takes.bind (takes_setR _ _ _) (by omega) (fun l' M1 hM1 h => ?_)
      exact (ih l').mono (by omega) (fun p hp => hp.trans h)

theorem takes_copyFromSlice (s r : List Nat) :
    Takes (copyFromSlice s r) (s.length + 1) (fun p => p.1.length = s.length) := by
  have h : Takes (copyFromSlice s r) (r.length + 1) (fun p => p.1.length = s.length ∧ s.length = r.length) :=
    Takes.pass (Post.bind (post_assertR _) fun _ h => Post.ok ⟨h.symm, h⟩)
  intro a k hak
  obtain ⟨h1, h2, h3⟩ := h a k hak
  exact ⟨by omega, h2⟩

theorem takes_subInPlaceWithSign (W : Nat) (l r : List Nat) :
    Takes (subInPlaceWithSign W l r) (5 * l.length + 10) (fun p => p.1.length = l.length) := by
  unfold subInPlaceWithSign
  refine Takes.bind (takes_assertR _) (by omega) (fun _ M hM hlr => ?_)
  refine Takes.bind (takes_strippedLen l _) (by omega) (fun ll M1 hM1 hll => ?_)
  refine Takes.bind (takes_strippedLen r _) (by omega) (fun rl M2 hM2 hrl => ?_)
  refine Takes.ite (fun _ => ?_) (fun _ => Takes.ite (fun _ => ?_) (fun _ => ?_))
  · refine Takes.bind (takes_sliceR _ _ _) (by omega) (fun s M3 hM3 _ => ?_)
    refine Takes.bind (takes_onPass' 2 fun _ => takes_subInPlace W _ _) (by omega) ?_
    rintro ⟨l', o⟩ M4 hM4 h
    exact Takes.bind (takes_assertR _) (by omega) (fun _ _ _ _ => Takes.pure h.1)
  · refine Takes.bind (takes_sliceR _ _ _) (by omega) (fun s M3 hM3 _ => ?_)
    refine Takes.bind (takes_onPass' 1 fun _ => takes_subSameLenSwap W _ _) (by omega) ?_
    rintro ⟨l', o⟩ M4 hM4 h
    dsimp only at h
    refine Takes.bind (takes_sliceR _ _ _) (by omega) (fun rHi M5 hM5 _ => ?_)
    refine Takes.bind (takes_onPass' 1 fun _ => takes_copyFromSlice _ _) (by omega) ?_
    rintro ⟨l'', u⟩ M6 hM6 h''
    dsimp only at h''
    refine Takes.ite (fun _ => ?_) (fun _ => Takes.pure (by dsimp only; omega))
    refine Takes.bind (takes_onPass' 0 fun _ => takes_subOne W _) (by omega) ?_
    rintro ⟨l3, o⟩ M7 hM7 h3
    dsimp only at h3
    exact Takes.bind (takes_assertR _) (by omega) (fun _ _ _ _ => Takes.pure (by dsimp only; omega))
  · exact (takes_subSignLoop W r ll l).mono (by omega) (fun _ h => h)

theorem takes_addSignedWord (W : Nat) (l : List Nat) (x : Int) :
    Takes (addSignedWord W l x) (l.length + 0) (fun p => p.1.length = l.length) := by
  unfold addSignedWord
  refine Takes.ite (fun _ => Takes.pure rfl) (fun _ => Takes.ite (fun _ => ?_) (fun _ => ?_))
  · refine Takes.bind (takes_addWord W l _) (by omega) ?_
    rintro ⟨l', c⟩ _ _ h
    exact Takes.pure h
  · refine Takes.bind (takes_subWord W l _) (by omega) ?_
    rintro ⟨l', c⟩ _ _ h
    exact Takes.pure h

theorem takes_addSignedSameLen (W : Nat) (l : List Nat) (s : Sign) (r : List Nat) :
    Takes (addSignedSameLen W l s r) (l.length + 2) (fun p => p.1.length = l.length ∧ l.length = r.length) := by
  unfold addSignedSameLen
  refine Takes.bind (takes_assertR _) (by omega) (fun _ M hM hl => ?_)
  cases s
  · refine Takes.bind (takes_addSameLen W l _) (by omega) ?_
    rintro ⟨l', c⟩ _ _ h
    exact Takes.pure ⟨h, hl⟩
  · refine Takes.bind (takes_subSameLen W l _) (by omega) ?_
    rintro ⟨l', c⟩ _ _ h
    exact Takes.pure ⟨h, hl⟩

theorem takes_addSignedInPlace (W : Nat) (l : List Nat) (s : Sign) (r : List Nat) :
    Takes (addSignedInPlace W l s r) (l.length + 3) (fun p => p.1.length = l.length) := by
  unfold addSignedInPlace
  refine Takes.bind (takes_assertR _) (by omega) (fun _ M hM hl => ?_)
  cases s
  · refine Takes.bind (takes_addInPlace W l _) (by omega) ?_
    rintro ⟨l', c⟩ _ _ h
    exact Takes.pure h
  · refine Takes.bind (takes_subInPlace W l _) (by omega) ?_
    rintro ⟨l', c⟩ _ _ h
    exact Takes.pure h

theorem takes_mulWordLoop (W x : Nat) (l : List Nat) :
    ∀ k, Takes (mulWordLoop W x l k) l.length (fun p => p.1.length = l.length) := by
  induction l with
  | nil => intro k; exact Takes.pure rfl
  | cons w ws ih =>
    intro k
    rw [mulWordLoop, List.length_cons]
    refine Takes.bind takes_tick (by omega) (fun _ M hM _ => ?_)
    refine Takes.bind (ih _) (by omega) ?_
    rintro ⟨r, c⟩ _ _ h
    exact Takes.pure (by simp only [List.length_cons] at h ⊢; omega)

theorem takes_mulWord (W : Nat) (l : List Nat) (x : Nat) :
    Takes (mulWord W l x) l.length (fun p => p.1.length = l.length) := takes_mulWordLoop W x l 0

theorem takes_addMulWordLoop (W x : Nat) (l : List Nat) :
    ∀ r k, Takes (addMulWordLoop W x l r k) l.length (fun p => p.1.length = l.length) := by
  induction l with
  | nil => intro r k; cases r <;> exact Takes.pure rfl
  | cons w ws ih =>
    intro r k
    cases r with
    | nil => exact Takes.pure rfl
    | cons b bs =>
      rw [addMulWordLoop, List.length_cons]
      refine Takes.bind takes_tick (by omega) (fun _ M hM _ => ?_)
      refine Takes.bind (ih bs _) (by omega) ?_
      rintro ⟨r, c⟩ _ _ h
      exact Takes.pure (by simp only [List.length_cons] at h ⊢; omega)

theorem takes_subMulWordLoop (W x : Nat) (l : List Nat) :
    ∀ r k, Takes (subMulWordLoop W x l r k) l.length (fun p => p.1.length = l.length) := by
  induction l with
  | nil => intro r k; cases r <;> exact Takes.pure rfl
  | cons w ws ih =>
    intro r k
    cases r with
    | nil => exact Takes.pure rfl
    | cons b bs =>
      rw [subMulWordLoop, List.length_cons]
      refine Takes.bind (Takes.pass (Post.true _)) (by omega) (fun v M hM _ => ?_)
      refine Takes.bind (ih bs _) (by omega) ?_
      rintro ⟨r, c⟩ _ _ h
      exact Takes.pure (by simp only [List.length_cons] at h ⊢; omega)

theorem takes_addMulWordSameLen (W : Nat) (l : List Nat) (x : Nat) (r : List Nat) :
    Takes (addMulWordSameLen W l x r) (l.length + 1) (fun p => p.1.length = l.length ∧ l.length = r.length) :=
  Takes.bind (takes_assertR _) (by omega) fun _ _ _ hl =>
    (takes_addMulWordLoop W x l r 0).mono (by omega) fun _ h => ⟨h, hl⟩

theorem takes_subMulWordSameLen (W : Nat) (l : List Nat) (x : Nat) (r : List Nat) :
    Takes (subMulWordSameLen W l x r) (l.length + 2) (fun p => p.1.length = l.length ∧ l.length = r.length) := by
  unfold subMulWordSameLen
  refine Takes.bind (takes_assertR _) (by omega) fun _ M hM hl => ?_
  refine Takes.bind (takes_subMulWordLoop W x l r _) (by omega) ?_
  rintro ⟨l', c⟩ M' hM' h
  exact Takes.bind (Takes.pass (Post.true _)) (by omega) (fun _ _ _ _ => Takes.pure ⟨h, hl⟩)

theorem takes_addMulWord (W : Nat) (l : List Nat) (x : Nat) (r : List Nat) :
    Takes (addMulWord W l x r) (l.length + 4) (fun p => p.1.length = l.length) := by
  unfold addMulWord
  refine Takes.bind (takes_assertR _) (by omega) fun _ M hM hl => ?_
  refine Takes.bind (takes_onPass' 1 fun s =>
    (takes_addMulWordSameLen W s x r).mono (le_refl _) fun _ h => h.1) (by omega) ?_
  rintro ⟨l', c⟩ M' hM' h
  dsimp only at h ⊢
  refine Takes.ite (fun _ => ?_) (fun _ => Takes.pure h.1)
  refine Takes.bind (takes_onPass' 0 fun s => takes_addWord W s _) (by omega) ?_
  rintro ⟨l'', c'⟩ M2 hM2 h'
  exact Takes.pure (h'.1.trans h.1)

theorem takes_shlLoop (W s : Nat) (l : List Nat) :
    ∀ k, Takes (shlLoop W s l k) l.length (fun p => p.1.length = l.length) := by
  induction l with
  | nil => intro k; exact Takes.pure rfl
  | cons w ws ih =>
    intro k
    rw [shlLoop, List.length_cons]
    refine Takes.bind takes_tick (by omega) (fun _ M hM _ => ?_)
    refine Takes.bind (ih _) (by omega) ?_
    rintro ⟨r, c⟩ _ _ h
    exact Takes.pure (by simp only [List.length_cons] at h ⊢; omega)

theorem takes_shlInPlace (W : Nat) (l : List Nat) (s : Nat) :
    Takes (shlInPlace W l s) (l.length + 1) (fun p => p.1.length = l.length) := by
  unfold shlInPlace
  refine Takes.bind (takes_assertR _) (by omega) fun _ M hM _ => ?_
  exact Takes.ite (fun _ => Takes.pure rfl) (fun _ => (takes_shlLoop W s l 0).mono (by omega) fun _ h => h)

theorem takes_shrLoop (W s : Nat) (l : List Nat) :
    Takes (shrLoop W s l) l.length (fun p => p.1.length = l.length) := by
  induction l with
  | nil => exact Takes.pure rfl
  | cons w ws ih =>
    rw [shrLoop, List.length_cons]
    refine Takes.bind takes_tick (by omega) (fun _ M hM _ => ?_)
    refine Takes.bind ih (by omega) ?_
    rintro ⟨r, c⟩ _ _ h
    exact Takes.pure (by simp only [List.length_cons] at h ⊢; omega)

theorem takes_shrInPlace (W : Nat) (l : List Nat) (s : Nat) :
    Takes (shrInPlace W l s) (l.length + 1) (fun p => p.1.length = l.length) := by
  unfold shrInPlace
  refine Takes.bind (takes_assertR _) (by omega) fun _ M hM _ => ?_
  refine Takes.ite (fun _ => Takes.pure rfl) (fun _ => ?_)
  refine Takes.bind (takes_shrLoop W s l) (by omega) ?_
  rintro ⟨r, c⟩ _ _ h
  exact Takes.pure h

theorem takes_fastDivLoop (W : Nat) (fd : FastDivideNormalized) (l : List Nat) :
    ∀ k, Takes (fastDivLoop W fd l k) l.length (fun p => p.1.length = l.length) := by
  induction l with
  | nil => intro k; exact Takes.pure rfl
  | cons w ws ih =>
    intro k
    rw [fastDivLoop, List.length_cons]
    refine Takes.bind (ih _) (by omega) ?_
    rintro ⟨qs, rem⟩ M hM h
    refine Takes.bind (Takes.pass (Post.true _)) (by omega) ?_
    rintro ⟨q, r⟩ _ _ _
    exact Takes.pure (by simp only [List.length_cons] at h ⊢; omega)

theorem takes_fastDivByWord (W : Nat) (l : List Nat) (x : Nat) (fd : FastDivideNormalized) :
    Takes (fastDivByWord W l x fd) (2 * l.length + 1) (fun p => p.1.length = l.length) := by
  unfold fastDivByWord
  dsimp only
  refine Takes.bind (takes_shlInPlace W l _) (by omega) ?_
  rintro ⟨l', k⟩ M hM h
  dsimp only at h
  refine Takes.bind (takes_fastDivLoop W fd l' k) (by omega) ?_
  rintro ⟨qs, r⟩ _ _ h'
  exact Takes.pure (by dsimp only at h' ⊢; omega)

theorem takes_divByWord (W : Nat) (l : List Nat) (x : Nat) :
    Takes (divByWord W l x) (2 * l.length + 3) (fun p => p.1.length = l.length) := by
  unfold divByWord
  refine Takes.bind (takes_assertR _) (by omega) fun _ M hM _ => ?_
  refine Takes.ite (fun _ => Takes.pure rfl) (fun _ => Takes.ite (fun _ => ?_) (fun _ => ?_))
  · exact (takes_shrInPlace W l _).mono (by omega) fun _ h => h
  · refine Takes.bind (Takes.pass (Post.true _)) (by omega) (fun fd _ _ _ => ?_)
    exact (takes_fastDivByWord W l x fd).mono (by omega) fun _ h => h

/-! On slices -/

theorem takes_onAddSignedSameLen (W : Nat) (c : List Nat) (i j : Nat) (s : Sign) (r : List Nat) :
    Takes (onSlice c i j (fun x => addSignedSameLen W x s r)) (j - i + 3)
      (fun p => p.1.length = c.length ∧ i ≤ j ∧ j ≤ c.length ∧ j - i = r.length) :=
  takes_onPass 2 (fun x => takes_addSignedSameLen W x s r) (fun _ h h' => h ▸ h')

theorem takes_onAddSignedInPlace (W : Nat) (c : List Nat) (i j : Nat) (s : Sign) (r : List Nat) :
    Takes (onSlice c i j (fun x => addSignedInPlace W x s r)) (j - i + 4)
      (fun p => p.1.length = c.length ∧ i ≤ j ∧ j ≤ c.length ∧ True) :=
  takes_onPass' 3 (fun x => takes_addSignedInPlace W x s r)

theorem takes_onAddSignedWord (W : Nat) (c : List Nat) (i j : Nat) (k : Int) :
    Takes (onSlice c i j (fun x => addSignedWord W x k)) (j - i + 1)
      (fun p => p.1.length = c.length ∧ i ≤ j ∧ j ≤ c.length ∧ True) :=
  takes_onPass' 0 (fun x => takes_addSignedWord W x k)

theorem takes_onAddMulWordSameLen (W : Nat) (c : List Nat) (i j : Nat) (m : Nat) (r : List Nat) :
    Takes (onSlice c i j (fun x => addMulWordSameLen W x m r)) (j - i + 2)
      (fun p => p.1.length = c.length ∧ i ≤ j ∧ j ≤ c.length ∧ j - i = r.length) :=
  takes_onPass 1 (fun x => takes_addMulWordSameLen W x m r) (fun _ h h' => h ▸ h')

theorem takes_onSubMulWordSameLen (W : Nat) (c : List Nat) (i j : Nat) (m : Nat) (r : List Nat) :
    Takes (onSlice c i j (fun x => subMulWordSameLen W x m r)) (j - i + 3)
      (fun p => p.1.length = c.length ∧ i ≤ j ∧ j ≤ c.length ∧ j - i = r.length) :=
  takes_onPass 2 (fun x => takes_subMulWordSameLen W x m r) (fun _ h h' => h ▸ h')

theorem takes_onAddMulWord (W : Nat) (c : List Nat) (i j : Nat) (m : Nat) (r : List Nat) :
    Takes (onSlice c i j (fun x => addMulWord W x m r)) (j - i + 5)
      (fun p => p.1.length = c.length ∧ i ≤ j ∧ j ≤ c.length ∧ True) :=
  takes_onPass' 4 (fun x => takes_addMulWord W x m r)

theorem takes_onAddInPlace (W : Nat) (c : List Nat) (i j : Nat) (r : List Nat) :
    Takes (onSlice c i j (fun x => addInPlace W x r)) (j - i + 3)
      (fun p => p.1.length = c.length ∧ i ≤ j ∧ j ≤ c.length ∧ True) :=
  takes_onPass' 2 (fun x => takes_addInPlace W x r)

theorem takes_onAddSameLen (W : Nat) (c : List Nat) (i j : Nat) (r : List Nat) :
    Takes (onSlice c i j (fun x => addSameLen W x r)) (j - i + 2)
      (fun p => p.1.length = c.length ∧ i ≤ j ∧ j ≤ c.length ∧ True) :=
  takes_onPass' 1 (fun x => takes_addSameLen W x r)

/-- next step, with a result that is a pair -/
macro "tpair " t:term " => " c:ident k:ident : tactic =>
  `(tactic| (refine Takes.bind $t (by omega) ?_; rintro ⟨$c, $k⟩ _ _ h; (try dsimp only at h); revert h; intro _))
/-- next step -/
macro "tone " t:term " => " c:ident : tactic =>
  `(tactic| (refine Takes.bind $t (by omega) ?_; rintro $c:ident _ _ _))

/-! Schoolbook multiplication -/

theorem takes_addMulChunkLoop (W : Nat) (a b : List Nat) :
    ∀ c i k, Takes (addMulChunkLoop W a c i b k) (b.length * (a.length + 5)) (fun r => r.1.length = c.length) := by
  induction b with
  | nil => intro c i k; exact Takes.pure rfl
  | cons m bs ih =>
    intro c i k
    rw [addMulChunkLoop]
    have : (m :: bs).length * (a.length + 5) = bs.length * (a.length + 5) + (a.length + 5) := by
      rw [List.length_cons]; ring
    tpair takes_onAddMulWordSameLen W c i (i + a.length) m a => c' k1
    tone takes_getR _ _ => x
    tone takes_setR _ _ _ => c2
    exact (ih _ _ _).mono (by omega) (fun r hr => by omega)

theorem takes_subMulChunkLoop (W : Nat) (a b : List Nat) :
    ∀ c i k, Takes (subMulChunkLoop W a c i b k) (b.length * (a.length + 5)) (fun r => r.1.length = c.length) := by
  induction b with
  | nil => intro c i k; exact Takes.pure rfl
  | cons m bs ih =>
    intro c i k
    rw [subMulChunkLoop]
    have : (m :: bs).length * (a.length + 5) = bs.length * (a.length + 5) + (a.length + 5) := by
      rw [List.length_cons]; ring
    tpair takes_onSubMulWordSameLen W c i (i + a.length) m a => c' k1
    tone takes_getR _ _ => x
    tone takes_setR _ _ _ => c2
    exact (ih _ _ _).mono (by omega) (fun r hr => by omega)

theorem takes_simpleMulChunk (W : Nat) (c : List Nat) (sign : Sign) (a b : List Nat) (mem : Nat) :
    Takes (simpleMulChunk W c sign a b mem) (b.length * (a.length + 5) + 4)
      (fun r => r.1.length = c.length ∧ c.length = a.length + b.length) := by
  unfold simpleMulChunk
  tone takes_assertR _ => _u
  tone takes_assertR _ => _u
  cases sign
  · refine Takes.bind (n := b.length * (a.length + 5) + 2) (P := fun r => r.1.length = c.length) ?_ (by omega) ?_
    · unfold addMulChunk
      tone takes_assertR _ => _u
      tone takes_assertR _ => _u
      exact (takes_addMulChunkLoop W a b _ _ _).mono (by omega) (fun _ h => h)
    · rintro ⟨c', k⟩ _ _ h
      exact Takes.pure ⟨h, by omega⟩
  · refine Takes.bind (n := b.length * (a.length + 5) + 2) (P := fun r => r.1.length = c.length) ?_ (by omega) ?_
    · unfold subMulChunk
      tone takes_assertR _ => _u
      tone takes_assertR _ => _u
      exact (takes_subMulChunkLoop W a b _ _ _).mono (by omega) (fun _ h => h)
    · rintro ⟨c', k⟩ _ _ h
      exact Takes.pure ⟨h, by omega⟩

/-- the steps of a multiplication of slices of the same length -/
def SameTakes (f : MulFn) (B : Nat → Nat) : Prop :=
  ∀ (n : Nat) (c : List Nat) (sign : Sign) (a b : List Nat) (mem : Nat), c.length = 2 * n →
    Takes (f c sign a b mem) (B n) (fun r => r.1.length = 2 * n)

theorem takes_simpleMulSameLen (W : Nat) : SameTakes (simpleMulSameLen W) (fun n => n * (n + 5) + 6) := by
  intro n c sign a b mem hc
  show Takes _ (n * (n + 5) + 6) _
  unfold simpleMulSameLen
  refine Takes.bind (takes_assertR _) (by omega) ?_
  rintro - M hM ⟨h1, h2⟩
  obtain rfl : a.length = n := by omega
  tone takes_assertR _ => _u
  refine (takes_simpleMulChunk W c sign a b mem).mono ?_ (fun r hr => by omega)
  rw [← h1]
  omega

/-! Karatsuba -/

set_option maxHeartbeats 600000 in
theorem takes_karatsubaSameLen (W : Nat) {f : MulFn} {B : Nat → Nat} (hf : SameTakes f B) :
    SameTakes (karatsubaSameLen W f)
      (fun n => 2 * B ((n + 1) / 2) + B (n - (n + 1) / 2) + (13 * n + 80)) := by
  intro n c sign a b mem hc
  show Takes _ (2 * B ((n + 1) / 2) + B (n - (n + 1) / 2) + (13 * n + 80)) _
  unfold karatsubaSameLen
  refine Takes.bind (takes_assertR _) (by omega) ?_
  rintro - M hM ⟨h1, h2⟩
  obtain rfl : a.length = n := by omega
  tone takes_assertR _ => _u
  dsimp only
  generalize hmid : (a.length + 1) / 2 = mid at *
  tpair takes_splitR a mid => a_lo a_hi
  tpair takes_splitR b mid => b_lo b_hi
  tpair takes_allocFill mem (2 * mid) 0 => c_lo mem1
  tpair hf mid c_lo .pos a_lo b_lo mem1 (by omega) => c_lo ov
  tone takes_assertR _ => _u
  tpair takes_onAddSignedSameLen W c 0 (2 * mid) sign c_lo => c k0
  tpair takes_onAddSignedSameLen W c mid (3 * mid) sign c_lo => c k1
  tpair takes_allocFill mem (2 * (a.length - mid)) 0 => c_hi mem2
  tpair hf (a.length - mid) c_hi .pos a_hi b_hi mem2 (by omega) => c_hi ov
  tone takes_assertR _ => _u
  tpair takes_onAddSignedSameLen W c (2 * mid) c.length sign c_hi => c k2
  tpair takes_onAddSignedInPlace W c mid (3 * mid) sign c_hi => c k3
  tone takes_ckInt _ _ => _u
  tpair takes_allocCopy mem a_lo => a_diff mem3
  tpair takes_subInPlaceWithSign W a_diff a_hi => a_diff s1
  tpair takes_allocCopy mem3 b_lo => b_diff mem4
  tpair takes_subInPlaceWithSign W b_diff b_hi => b_diff s2
  refine Takes.bind (Takes.onSlice (Q := True) (n := B mid) (fun s hs _ _ => ?_)) (by omega) ?_
  · exact (hf mid s _ a_diff b_diff mem4 (by omega)).mono (le_refl _) (fun r hr => ⟨by omega, trivial⟩)
  rintro ⟨c, k4⟩ _ _ h
  dsimp only at h
  tone takes_ckInt _ _ => _u
  tpair takes_onAddSignedWord W c (2 * mid) (3 * mid) _ => c k5
  tone takes_ckInt _ _ => _u
  tpair takes_onAddSignedWord W c (3 * mid) c.length _ => c k6
  tone takes_ckInt _ _ => _u
  tone takes_assertR _ => _u
  exact Takes.pure (by dsimp only; omega)

/-! Toom-3 -/

theorem takes_toom3Eval2 (W : Nat) (eval : List Nat) (n3 : Nat) (x1 x2 : List Nat) :
    Takes (toom3SameLen.toom3Eval2 W eval n3 x1 x2) (2 * n3 + 11) (fun r => r.length = eval.length) := by
  unfold toom3SameLen.toom3Eval2
  tpair takes_onAddMulWordSameLen W eval 0 n3 2 x1 => e1 k1
  tone takes_setR _ _ _ => e2
  tpair takes_onAddMulWord W e2 0 n3 4 x2 => e3 k3
  tone takes_getR _ _ => top
  tone takes_ckAdd _ _ _ => top
  exact (takes_setR _ _ _).mono (by omega) (fun r hr => by omega)

theorem takes_toom3Eval1 (W : Nat) (eval : List Nat) (n3 : Nat) (x1 x2 : List Nat) :
    Takes (toom3SameLen.toom3Eval1 W eval n3 x1 x2) (2 * n3 + 11)
      (fun r => r.1.length = eval.length ∧ r.2.length = eval.length) := by
  unfold toom3SameLen.toom3Eval1
  tpair takes_onAddInPlace W eval 0 n3 x2 => e1 k1
  tone takes_setR _ _ _ => e2
  tpair takes_onAddSameLen W e2 0 n3 x1 => e3 k3
  tone takes_getR _ _ => top
  tone takes_ckAdd _ _ _ => top
  tone takes_setR _ _ _ => e4
  exact Takes.pure (by dsimp only; omega)

theorem takes_toom3AddNeg1 (W : Nat) (t1 : List Nat) (s : Sign) (c : List Nat) :
    Takes (toom3SameLen.toom3AddNeg1 W t1 s c) (t1.length + 2) (fun r => r.1.length = t1.length) := by
  cases s
  · exact (takes_addMulWordSameLen W t1 2 c).mono (by omega) (fun r hr => hr.1)
  · exact (takes_subMulWordSameLen W t1 2 c).mono (le_refl _) (fun r hr => hr.1)

theorem takes_toom3Finish (W : Nat) (c : List Nat) (sign : Sign) (n n3 : Nat) (t1 t2 : List Nat)
    (k0 k1 k2 k : Int) (hc : c.length = 2 * n) :
    Takes (toom3SameLen.toom3Finish W c sign n3 t1 t2 k0 k1 k2 k) (6 * n3 + 2 * n + 45)
      (fun r => r.1.length = 2 * n) := by
  unfold toom3SameLen.toom3Finish
  tpair takes_onAddSignedSameLen W c n3 (3 * n3 + 2) sign.negate t1 => c1 k4
  tone takes_ckInt _ _ => _u
  tpair takes_onAddSignedSameLen W c1 (3 * n3) (5 * n3 + 2) sign t1 => c2 k5
  tpair takes_onAddSignedSameLen W c2 (2 * n3) (4 * n3 + 2) sign t2 => c3 k6
  tone takes_ckInt _ _ => _u
  tpair takes_onAddSignedSameLen W c3 (3 * n3) (5 * n3 + 2) sign.negate t2 => c4 k7
  tone takes_ckInt _ _ => _u
  tpair takes_onAddSignedWord W c4 (2 * n3) (3 * n3 + 2) _ => c5 k8
  tone takes_ckInt _ _ => _u
  tpair takes_onAddSignedWord W c5 (3 * n3 + 2) (4 * n3 + 2) _ => c6 k9
  tone takes_ckInt _ _ => _u
  tpair takes_onAddSignedWord W c6 (4 * n3 + 2) (5 * n3 + 2) _ => c7 k10
  tone takes_ckInt _ _ => _u
  tpair takes_onAddSignedWord W c7 (5 * n3 + 2) c7.length _ => c8 k11
  tone takes_ckInt _ _ => _u
  tone takes_assertR _ => _u
  exact Takes.pure (by dsimp only; omega)

section
variable (W : Nat) {f : MulFn} {B : Nat → Nat} (hf : SameTakes f B)
include hf

theorem takes_toom3Zero (c : List Nat) (sign : Sign) (n3 : Nat) (t1 a0 b0 : List Nat) (mem : Nat) :
    Takes (toom3SameLen.toom3Zero W f c sign n3 t1 a0 b0 mem) (B n3 + 6 * n3 + 14)
      (fun r => r.1.length = c.length ∧ r.2.1.length = 2 * n3 + 2) := by
  unfold toom3SameLen.toom3Zero
  tone takes_sliceR _ _ _ => t1s
  tpair hf n3 t1s .pos a0 b0 mem (by omega) => t1s ov
  tone takes_assertR _ => _u
  tpair takes_onAddSignedSameLen W c 0 (2 * n3) sign t1s => c1 k4
  tpair takes_onAddSignedInPlace W c1 (2 * n3) (4 * n3 + 2) sign.negate t1s => c2 k4
  tpair takes_mulWord W t1s 3 => t1s top
  exact Takes.pure (by simp only [List.length_append, List.length_cons, List.length_nil]; omega)

theorem takes_toom3Two (n3 : Nat) (t1 a_eval b_eval a1 a2 b1 b2 : List Nat) (mem : Nat)
    (ht : t1.length = 2 * n3 + 2) :
    Takes (toom3SameLen.toom3Two W f n3 t1 a_eval b_eval a1 a2 b1 b2 mem) (B (n3 + 1) + 4 * n3 + 24)
      (fun r => r.length = 2 * n3 + 2) := by
  unfold toom3SameLen.toom3Two
  tone takes_toom3Eval2 W _ _ _ _ => ae
  tone takes_toom3Eval2 W _ _ _ _ => be
  tpair hf (n3 + 1) t1 .pos ae be mem (by omega) => t1 ov
  tone takes_assertR _ => _u
  exact Takes.pure (by omega)

theorem takes_toom3Inf (c : List Nat) (sign : Sign) (n n3 n3_short : Nat) (t1 a2 b2 : List Nat) (mem : Nat)
    (hc : c.length = 2 * n) (ht : t1.length = 2 * n3 + 2) :
    Takes (toom3SameLen.toom3Inf W f c sign n3 n3_short t1 a2 b2 mem) (B n3_short + 6 * n3 + 4 * n3_short + 26)
      (fun r => r.1.length = 2 * n ∧ r.2.1.length = 2 * n3 + 2) := by
  unfold toom3SameLen.toom3Inf
  tpair takes_allocFill mem (2 * n3 + 2) 0 => ce mem
  tone takes_sliceR _ _ _ => ces
  tpair hf n3_short ces .pos a2 b2 mem (by omega) => ces ov
  tone takes_assertR _ => _u
  tpair takes_onAddSignedInPlace W c (2 * n3) (4 * n3 + 2) sign.negate ces => c1 k1
  refine Takes.bind (n := 2 * n3_short + 3) (P := fun r => r.1.length = c1.length) ?_ (by omega) ?_
  · have h := takes_onAddSignedSameLen W c1 (4 * n3) c1.length sign ces
    intro a k hak
    obtain ⟨h1, h2⟩ := h a k hak
    exact ⟨by omega, h2.1⟩
  rintro ⟨c2, k2⟩ _ _ h
  dsimp only at h
  tpair takes_mulWord W ces 12 => ces top
  tpair takes_subInPlace W t1 (ces ++ [top]) => t2 ov
  tone takes_assertR _ => _u
  exact Takes.pure (by dsimp only; omega)

theorem takes_toom3One (c : List Nat) (sign : Sign) (n3 : Nat) (t2 a0 a1 a2 b0 b1 b2 : List Nat) (mem : Nat)
    (ht : t2.length = 2 * n3 + 2) :
    Takes (toom3SameLen.toom3One W f c sign n3 t2 a0 a1 a2 b0 b1 b2 mem) (B (n3 + 1) + 8 * n3 + 36)
      (fun r => r.1.length = c.length ∧ r.2.1.length = 2 * n3 + 2 ∧ r.2.2.1.length = n3 + 1 ∧
        r.2.2.2.1.length = n3 + 1) := by
  unfold toom3SameLen.toom3One
  tpair takes_allocCopyFill mem (n3 + 1) a0 0 => a02 mem
  tpair takes_toom3Eval1 W a02 n3 a1 a2 => a02 ae
  tpair takes_allocCopyFill mem (n3 + 1) b0 0 => b02 mem
  tpair takes_toom3Eval1 W b02 n3 b1 b2 => b02 be
  tpair hf (n3 + 1) t2 .pos ae be mem (by omega) => t2 ov
  tone takes_assertR _ => _u
  tpair takes_onAddSignedInPlace W c n3 (3 * n3 + 2) sign t2 => c1 k1
  exact Takes.pure (by dsimp only; omega)

theorem takes_toom3NegOne (n3 : Nat) (t1 t2 a02 a1 b02 b1 : List Nat) (mem : Nat)
    (ht1 : t1.length = 2 * n3 + 2) (ht2 : t2.length = 2 * n3 + 2) (ha : a02.length = n3 + 1)
    (hb : b02.length = n3 + 1) :
    Takes (toom3SameLen.toom3NegOne W f n3 t1 t2 a02 a1 b02 b1 mem) (B (n3 + 1) + 22 * n3 + 60)
      (fun _ => True) := by
  unfold toom3SameLen.toom3NegOne
  tpair takes_subInPlaceWithSign W a02 a1 => ae s1
  tpair takes_subInPlaceWithSign W b02 b1 => be s2
  tpair takes_allocFill mem (2 * (n3 + 1)) 0 => ce mem
  tpair hf (n3 + 1) ce .pos ae be mem (by omega) => ce ov
  tone takes_assertR _ => _u
  refine Takes.bind (takes_addSignedSameLen W t2 _ ce) (by omega) ?_
  rintro ⟨t2', ov⟩ _ _ h
  dsimp only at h
  tone takes_assertR _ => _u
  tpair takes_toom3AddNeg1 W t1 _ ce => t1' ov
  tone takes_assertR _ => _u
  tpair takes_divByWord W t1' 6 => t1'' r1
  tpair takes_shrInPlace W t2' 1 => t2'' r2
  tone takes_assertR _ => _u
  tone takes_assertR _ => _u
  exact Takes.pure trivial

set_option maxHeartbeats 600000 in
theorem takes_toom3SameLen :
    SameTakes (toom3SameLen W f)
      (fun n => B ((n + 2) / 3) + 3 * B ((n + 2) / 3 + 1) + B (n - 2 * ((n + 2) / 3)) + (26 * n + 280)) := by
  intro n c sign a b mem hc
  show Takes _ (B ((n + 2) / 3) + 3 * B ((n + 2) / 3 + 1) + B (n - 2 * ((n + 2) / 3)) + (26 * n + 280)) _
  unfold toom3SameLen
  refine Takes.bind (takes_assertR _) (by omega) ?_
  rintro - M hM ⟨h1, h2⟩
  obtain rfl : a.length = n := by omega
  tone takes_assertR _ => _u
  dsimp only
  generalize hn3 : (a.length + 2) / 3 = n3 at *
  refine Takes.bind (n := 1) (P := fun x => x = a.length - 2 * n3) (Takes.pass ?_) (by omega) ?_
  · unfold Ibig.ckSub
    exact Post.ite (fun _ => Post.ok rfl) (fun _ => Post.error)
  rintro _ M1 hM1 rfl
  generalize hns : a.length - 2 * n3 = ns at *
  tpair takes_splitR a n3 => a0 a12
  tpair takes_splitR a12 n3 => a1 a2
  tpair takes_splitR b n3 => b0 b12
  tpair takes_splitR b12 n3 => b1 b2
  tpair takes_allocFill mem (2 * n3 + 2) 0 => t1 mem
  refine Takes.bind (takes_toom3Zero W hf c sign n3 t1 a0 b0 mem) (by omega) ?_
  rintro ⟨c1, t1, k0, k2⟩ _ _ ⟨hc1, ht1⟩
  dsimp only at hc1 ht1
  tpair takes_allocCopyFill mem (n3 + 1) a0 0 => ae mem
  tpair takes_allocCopyFill mem (n3 + 1) b0 0 => be mem
  tone takes_toom3Two W hf n3 t1 ae be a1 a2 b1 b2 mem ht1 => t1'
  refine Takes.bind (takes_toom3Inf W hf c1 sign a.length n3 ns t1' a2 b2 mem (by omega) (by omega)) (by omega) ?_
  rintro ⟨c2, t1'', k, carry⟩ _ _ ⟨hc2, ht1'⟩
  dsimp only at hc2 ht1'
  tone takes_ckInt _ _ => _u
  tpair takes_allocFill mem (2 * n3 + 2) 0 => t2 mem
  refine Takes.bind (takes_toom3One W hf c2 sign n3 t2 a0 a1 a2 b0 b1 b2 mem (by omega)) (by omega) ?_
  rintro ⟨c3, t2', a02, b02, k1⟩ _ _ ⟨hc3, ht2, ha02, hb02⟩
  dsimp only at hc3 ht2 ha02 hb02
  tpair takes_toom3NegOne W hf n3 t1'' t2' a02 a1 b02 b1 mem (by omega) (by omega) (by omega) (by omega) => t1f t2f
  exact (takes_toom3Finish W c3 sign a.length n3 t1f t2f _ _ _ _ (by omega)).mono (by omega) (fun _ h => h)

end

/-! Same length, and the recursion -/

/-- A bound for the steps of `add_signed_mul_same_len` with `n` words, as a recurrence; the first argument limits
the depth of the recursion. -/
def mulCost : Nat → Nat → Nat
  | 0, _ => 0
  | fuel + 1, n =>
    if n ≤ 24 then n * (n + 5) + 7
    else if n ≤ 192 then 2 * mulCost fuel ((n + 1) / 2) + mulCost fuel (n - (n + 1) / 2) + (13 * n + 81)
    else mulCost fuel ((n + 2) / 3) + 3 * mulCost fuel ((n + 2) / 3 + 1) + mulCost fuel (n - 2 * ((n + 2) / 3)) +
      (26 * n + 281)

theorem takes_mulSameLen (W fuel : Nat) : SameTakes (mulSameLen W fuel) (mulCost fuel) := by
  induction fuel with
  | zero => intro n c sign a b mem hc; exact Takes.throwT
  | succ fuel ih =>
    intro n c sign a b mem hc
    rw [mulSameLen, mulCost]
    have step : ∀ {x : Timed (List Nat × Int)} {P : List Nat × Int → Prop} {m : Nat},
        (a.length = n → Takes x m P) →
        Takes (do assertR (b.length = a.length ∧ c.length = 2 * a.length); x) (m + 1) P := by
      intro x P m h
      refine Takes.bind (takes_assertR _) (by omega) ?_
      rintro - M hM ⟨h1, h2⟩
      exact (h (by omega)).mono (by omega) (fun _ h => h)
    by_cases h1 : n ≤ 24
    · rw [if_pos h1]
      refine (step (m := n * (n + 5) + 6) fun ha => ?_).mono (by omega) (fun _ h => h)
      rw [if_pos (show a.length ≤ mulMaxLenSimple by unfold mulMaxLenSimple; omega)]
      exact takes_simpleMulSameLen W n c sign a b mem hc
    · rw [if_neg h1]
      by_cases h2 : n ≤ 192
      · rw [if_pos h2]
        refine (step (m := 2 * mulCost fuel ((n + 1) / 2) + mulCost fuel (n - (n + 1) / 2) + (13 * n + 80))
          fun ha => ?_).mono (by omega) (fun _ h => h)
        rw [if_neg (show ¬ a.length ≤ mulMaxLenSimple by unfold mulMaxLenSimple; omega),
          if_pos (show a.length ≤ mulMaxLenKaratsuba by unfold mulMaxLenKaratsuba; omega)]
        exact takes_karatsubaSameLen W ih n c sign a b mem hc
      · rw [if_neg h2]
        refine (step (m := mulCost fuel ((n + 2) / 3) + 3 * mulCost fuel ((n + 2) / 3 + 1) +
          mulCost fuel (n - 2 * ((n + 2) / 3)) + (26 * n + 280)) fun ha => ?_).mono (by omega) (fun _ h => h)
        rw [if_neg (show ¬ a.length ≤ mulMaxLenSimple by unfold mulMaxLenSimple; omega),
          if_neg (show ¬ a.length ≤ mulMaxLenKaratsuba by unfold mulMaxLenKaratsuba; omega)]
        exact takes_toom3SameLen W ih n c sign a b mem hc

theorem mulCost_fuel (k : Nat) : ∀ fuel n, n ≤ 24 * 2 ^ k → mulCost fuel n ≤ mulCost (k + 1) n := by
  induction k with
  | zero =>
    intro fuel n hn
    cases fuel with
    | zero => exact Nat.zero_le _
    | succ fuel =>
      rw [mulCost, mulCost, if_pos (by omega), if_pos (by omega)]
  | succ k ih =>
    intro fuel n hn
    cases fuel with
    | zero => exact Nat.zero_le _
    | succ fuel =>
      rw [mulCost, mulCost]
      have hp : 2 ^ (k + 1) = 2 * 2 ^ k := by ring
      by_cases h1 : n ≤ 24
      · rw [if_pos h1, if_pos h1]
      · rw [if_neg h1, if_neg h1]
        by_cases h2 : n ≤ 192
        · rw [if_pos h2, if_pos h2]
          have e1 := ih fuel ((n + 1) / 2) (by omega)
          have e2 := ih fuel (n - (n + 1) / 2) (by omega)
          omega
        · rw [if_neg h2, if_neg h2]
          have e1 := ih fuel ((n + 2) / 3) (by omega)
          have e2 := ih fuel ((n + 2) / 3 + 1) (by omega)
          have e3 := ih fuel (n - 2 * ((n + 2) / 3)) (by omega)
          omega

/-! Different lengths -/

theorem takes_splitChunksLoop (W L : Nat) (f : MulFn) (sign : Sign) (b : List Nat) (mem S : Nat) (hL : 0 < L)
    (hf : ∀ c a, a.length = L → c.length = L + b.length →
      Takes (f c sign a b mem) S (fun r => r.1.length = c.length)) (fuel : Nat) :
    ∀ c off a k, c.length = off + a.length + b.length →
      Takes (splitChunksLoop W L f sign b mem fuel c off a k) (a.length / L * (S + L + 5))
        (fun r => r.1.length = c.length ∧ r.2.1 + r.2.2.1.length = off + a.length ∧
          r.2.2.1.length = a.length % L) := by
  induction fuel with
  | zero => intro c off a k hc; exact Takes.throwT
  | succ fuel ih =>
    intro c off a k hc
    rw [splitChunksLoop]
    refine Takes.ite (fun h => ?_) (fun h => ?_)
    · have hq : a.length / L = (a.length - L) / L + 1 := by
        rw [Nat.div_eq_sub_div hL h]
      have hm : a.length % L = (a.length - L) % L := Nat.mod_eq_sub_mod h
      have hmul : a.length / L * (S + L + 5) = (a.length - L) / L * (S + L + 5) + (S + L + 5) := by
        rw [hq]; ring
      dsimp only
      tpair takes_splitR a L => aLo aHi
      tpair takes_onAddSignedWord W c (off + b.length) (off + (L + b.length)) k => c1 k1
      refine Takes.bind (n := S + 1) (P := fun r => r.1.length = c.length) ?_ (by omega) ?_
      · refine (Takes.onSlice (l := c1) (Q := True) (n := S) (fun s hs _ _ => ?_)).mono (le_refl _) (fun r hr => by omega)
        exact (hf s aLo (by omega) (by omega)).mono (le_refl _) (fun r hr => ⟨hr, trivial⟩)
      rintro ⟨c2, k2⟩ _ _ hc2
      dsimp only at hc2
      tone takes_ckInt _ _ => k'
      have hl : aHi.length = a.length - L := by omega
      refine (ih c2 (off + L) aHi k' (by omega)).mono (by rw [hl]; omega) (fun r hr => ?_)
      rw [hl] at hr
      omega
    · refine Takes.pure ⟨rfl, rfl, ?_⟩
      rw [Nat.mod_eq_of_lt (by omega)]

/-- A bound for the steps of `add_signed_mul` with `a ≥ b` words, as a recurrence. -/
def mulCost2 : Nat → Nat → Nat → Nat
  | 0, _, _ => 0
  | fuel + 1, a, b =>
    if b ≤ 24 then
      if a ≤ 1024 then b * (a + 5) + 7
      else a / 1024 * (b * 1029 + 1033) + a % 1024 + 10 +
        (if b ≤ a % 1024 then mulCost2 fuel (a % 1024) b
        else if a % 1024 ≠ 0 then mulCost2 fuel b (a % 1024) else 0)
    else a / b * (mulCost (fuel + 1) b + b + 5) + a % b + 10 +
      (if a % b ≠ 0 then mulCost2 fuel b (a % b) else 0)

/-- the steps of a multiplication of slices -/
def MulTakes (f : MulFn) (B : Nat → Nat → Nat) : Prop :=
  ∀ (c : List Nat) (sign : Sign) (a b : List Nat) (mem : Nat), b.length ≤ a.length →
    Takes (f c sign a b mem) (B a.length b.length) (fun r => r.1.length = c.length)

theorem takes_splitIntoChunks (W : Nat) {m : MulFn} {B : Nat → Nat → Nat} (hm : MulTakes m B) (L : Nat) (f : MulFn)
    (S : Nat) (hL : 0 < L) (c : List Nat) (sign : Sign) (a b : List Nat) (mem : Nat)
    (hf : ∀ c a, a.length = L → c.length = L + b.length →
      Takes (f c sign a b mem) S (fun r => r.1.length = c.length)) :
    Takes (splitIntoChunks W m L f c sign a b mem)
      (a.length / L * (S + L + 5) + a.length % L + 6 +
        (if b.length ≤ a.length % L then B (a.length % L) b.length
        else if a.length % L ≠ 0 then B b.length (a.length % L) else 0))
      (fun r => r.1.length = c.length) := by
  unfold splitIntoChunks
  refine Takes.bind (takes_assertR _) (by omega) ?_
  rintro - M hM ⟨h1, h2⟩
  refine Takes.bind (takes_assertR _) (by omega) ?_
  rintro - M1 hM1 h3
  refine Takes.bind (takes_splitChunksLoop W L f sign b mem S hL hf (a.length + 1) c 0 a 0 (by omega)) (by omega) ?_
  rintro ⟨c1, off, a1, k⟩ M2 hM2 ⟨hc1, hoff, ha1⟩
  dsimp only at hc1 hoff ha1 ⊢
  refine Takes.bind (n := a.length % L + 2) (P := fun r => r.1.length = c.length)
    ((takes_onAddSignedWord W c1 (off + b.length) c1.length k).mono (by omega) (fun r hr => by omega)) (by omega) ?_
  rintro ⟨c2, k2⟩ M3 hM3 hc2
  dsimp only at hc2 ⊢
  refine Takes.ite (fun h => ?_) (fun h => Takes.ite (fun h' => ?_) (fun h' => ?_))
  · rw [if_pos (by omega)] at hM
    refine Takes.bind (n := B (a.length % L) b.length + 1) (P := fun r => r.1.length = c.length) ?_ (by omega) ?_
    · refine (Takes.onSlice (Q := True) (n := B (a.length % L) b.length) (fun s hs _ _ => ?_)).mono (le_refl _)
        (fun r hr => by omega)
      refine (hm s sign a1 b mem h).mono (by rw [ha1]) (fun r hr => ⟨hr, trivial⟩)
    · rintro ⟨c3, k3⟩ M4 hM4 hc3
      tone takes_ckInt _ _ => k'
      exact Takes.pure hc3
  · have h'' : a1.length ≠ 0 := fun h0 => h' (List.length_eq_zero_iff.mp h0)
    rw [if_neg (by omega), if_pos (by omega)] at hM
    refine Takes.bind (n := B b.length (a.length % L) + 1) (P := fun r => r.1.length = c.length) ?_ (by omega) ?_
    · refine (Takes.onSlice (Q := True) (n := B b.length (a.length % L)) (fun s hs _ _ => ?_)).mono (le_refl _)
        (fun r hr => by omega)
      refine (hm s sign b a1 mem (by omega)).mono (by rw [ha1]) (fun r hr => ⟨hr, trivial⟩)
    · rintro ⟨c3, k3⟩ M4 hM4 hc3
      tone takes_ckInt _ _ => k'
      exact Takes.pure hc3
  · exact Takes.pure hc2

theorem takes_addSignedMulFuel (W fuel : Nat) : ∀ (c : List Nat) (sign : Sign) (a b : List Nat) (mem : Nat),
    Takes (addSignedMulFuel W fuel c sign a b mem) (mulCost2 fuel (max a.length b.length) (min a.length b.length))
      (fun r => r.1.length = c.length) := by
  induction fuel with
  | zero => intro c sign a b mem; exact Takes.throwT
  | succ fuel ih =>
    intro c sign a0 b0 mem
    have ih' : MulTakes (addSignedMulFuel W fuel) (mulCost2 fuel) := by
      intro c sign a b mem hab
      have := ih c sign a b mem
      rwa [Nat.max_eq_left hab, Nat.min_eq_right hab] at this
    rw [addSignedMulFuel]
    obtain ⟨a, b, hab, he, hmax, hmin⟩ : ∃ a b : List Nat, b.length ≤ a.length ∧
        (if a0.length < b0.length then (b0, a0) else (a0, b0)) = (a, b) ∧
        max a0.length b0.length = a.length ∧ min a0.length b0.length = b.length := by
      by_cases h : a0.length < b0.length
      · exact ⟨b0, a0, by omega, if_pos h, by omega, by omega⟩
      · exact ⟨a0, b0, by omega, if_neg h, by omega, by omega⟩
    beta_reduce
    rw [he, hmax, hmin, mulCost2]
    dsimp only
    refine Takes.bind (n := 1) (takes_assertR _) ?_ ?_
    · split
      · split <;> omega
      · omega
    rintro - M hM -
    by_cases h1 : b.length ≤ 24
    · rw [if_pos h1] at hM
      rw [if_pos (show b.length ≤ mulMaxLenSimple from h1)]
      unfold simpleMul
      refine Takes.bind (takes_assertR _) ?_ ?_
      · split at hM <;> omega
      rintro - M1 hM1 ⟨g1, g2⟩
      refine Takes.bind (takes_assertR _) ?_ ?_
      · split at hM <;> omega
      rintro - M2 hM2 g3
      by_cases h2 : a.length ≤ 1024
      · rw [if_pos h2] at hM
        rw [if_pos (show a.length ≤ mulChunkLen from h2)]
        exact (takes_simpleMulChunk W c sign a b mem).mono (by omega) (fun r hr => hr.1)
      · rw [if_neg h2] at hM
        rw [if_neg (show ¬ a.length ≤ mulChunkLen from h2)]
        refine (takes_splitIntoChunks W ih' 1024 (simpleMulChunk W) (b.length * 1029 + 4) (by omega) c sign a b mem
          ?_).mono ?_ (fun _ h => h)
        · intro c' a' ha' _
          have := takes_simpleMulChunk W c' sign a' b mem
          rw [ha'] at this
          exact this.mono (by omega) (fun r hr => hr.1)
        · have : b.length * 1029 + 4 + 1024 + 5 = b.length * 1029 + 1033 := by ring
          rw [this]
          clear this he hmax hmin ih ih' g1 g2 g3
          omega
    · rw [if_neg h1] at hM
      rw [if_neg (show ¬ b.length ≤ mulMaxLenSimple from h1)]
      have hlt : a.length % b.length < b.length := Nat.mod_lt _ (by omega)
      have hrest : (if b.length ≤ a.length % b.length then mulCost2 fuel (a.length % b.length) b.length
          else if a.length % b.length ≠ 0 then mulCost2 fuel b.length (a.length % b.length) else 0) =
          (if a.length % b.length ≠ 0 then mulCost2 fuel b.length (a.length % b.length) else 0) := by
        rw [if_neg (by omega)]
      have hS : ∀ S, S ≤ mulCost (fuel + 1) b.length →
          a.length / b.length * (S + b.length + 5) ≤
            a.length / b.length * (mulCost (fuel + 1) b.length + b.length + 5) :=
        fun S hS => Nat.mul_le_mul_left _ (by omega)
      by_cases h2 : b.length ≤ 192
      · rw [if_pos (show b.length ≤ mulMaxLenKaratsuba from h2)]
        unfold karatsubaMul
        refine Takes.bind (takes_assertR _) (by omega) ?_
        rintro - M1 hM1 g
        have := takes_splitIntoChunks W ih' b.length (karatsubaSameLen W (mulSameLen W fuel))
          (2 * mulCost fuel ((b.length + 1) / 2) + mulCost fuel (b.length - (b.length + 1) / 2) + (13 * b.length + 80))
          (by omega) c sign a b mem (by
            intro c' a' ha' hc'
            have hc2 : c'.length = 2 * b.length := by omega
            have := takes_karatsubaSameLen W (takes_mulSameLen W fuel) b.length c' sign a' b mem hc2
            exact this.mono (le_refl _) (fun r hr => by omega))
        refine this.mono ?_ (fun _ h => h)
        rw [hrest]
        have := hS (2 * mulCost fuel ((b.length + 1) / 2) + mulCost fuel (b.length - (b.length + 1) / 2) +
          (13 * b.length + 80)) (by rw [mulCost, if_neg h1, if_pos h2]; omega)
        omega
      · rw [if_neg (show ¬ b.length ≤ mulMaxLenKaratsuba from h2)]
        unfold toom3Mul
        refine Takes.bind (takes_assertR _) (by omega) ?_
        rintro - M1 hM1 g
        have := takes_splitIntoChunks W ih' b.length (toom3SameLen W (mulSameLen W fuel))
          (mulCost fuel ((b.length + 2) / 3) + 3 * mulCost fuel ((b.length + 2) / 3 + 1) +
            mulCost fuel (b.length - 2 * ((b.length + 2) / 3)) + (26 * b.length + 280))
          (by omega) c sign a b mem (by
            intro c' a' ha' hc'
            have hc2 : c'.length = 2 * b.length := by omega
            have := takes_toom3SameLen W (takes_mulSameLen W fuel) b.length c' sign a' b mem hc2
            exact this.mono (le_refl _) (fun r hr => by omega))
        refine this.mono ?_ (fun _ h => h)
        rw [hrest]
        have := hS (mulCost fuel ((b.length + 2) / 3) + 3 * mulCost fuel ((b.length + 2) / 3 + 1) +
          mulCost fuel (b.length - 2 * ((b.length + 2) / 3)) + (26 * b.length + 280))
          (by rw [mulCost, if_neg h1, if_neg h2]; omega)
        omega

end Ibig.Timed
