import Verif.Model.MulTime
import Mathlib.Tactic.Ring
/-!
Reasoning about the number of steps: `Post x P`: if `x` returns, then `P` of the result;
`Takes x n P`: if `x` returns, then after at most `n` steps and with `P` of the result.
-/
namespace Ibig

/-- if `x` returns then its result satisfies `P` -/
def Post {α : Type} (x : R α) (P : α → Prop) : Prop := ∀ a, x = .ok a → P a

theorem Post.bind {α β : Type} {x : R α} {f : α → R β} {P : α → Prop} {Q : β → Prop}
    (hx : Post x P) (hf : ∀ a, P a → Post (f a) Q) : Post (x >>= f) Q := by
  intro b hb
  rcases x with e | a
  · cases hb
  · exact hf a (hx a rfl) b hb

theorem Post.ok {α : Type} {a : α} {P : α → Prop} (h : P a) : Post (.ok a) P := by
  intro b hb
  cases hb
  exact h

theorem Post.error {α : Type} {e : Panic} {P : α → Prop} : Post (.error e) P := by
  intro b hb
  cases hb

theorem Post.mono {α : Type} {x : R α} {P Q : α → Prop} (hx : Post x P) (h : ∀ a, P a → Q a) : Post x Q :=
  fun a ha => h a (hx a ha)

theorem Post.ite {α : Type} {c : Prop} [Decidable c] {x y : R α} {P : α → Prop} (hx : c → Post x P)
    (hy : ¬ c → Post y P) : Post (if c then x else y) P := by
  by_cases h : c
  · rw [if_pos h]; exact hx h
  · rw [if_neg h]; exact hy h

theorem Post.true {α : Type} (x : R α) : Post x (fun _ => True) := fun _ _ => trivial

theorem post_assertR (p : Prop) [Decidable p] : Post (assertR p) (fun _ => p) := by
  unfold assertR
  exact Post.ite (fun h => Post.ok h) (fun _ => Post.error)

theorem post_splitR (l : List Nat) (n : Nat) :
    Post (splitR l n) (fun p => p.1.length = n ∧ p.2.length = l.length - n ∧ n ≤ l.length) := by
  unfold splitR
  refine Post.ite (fun h => Post.ok ⟨?_, ?_, h⟩) (fun _ => Post.error)
  · simp only [List.length_take]; omega
  · simp only [List.length_drop]

theorem post_sliceR (l : List Nat) (i j : Nat) :
    Post (sliceR l i j) (fun s => s.length = j - i ∧ i ≤ j ∧ j ≤ l.length) := by
  unfold sliceR
  refine Post.ite (fun h => Post.ok ⟨?_, h⟩) (fun _ => Post.error)
  simp only [List.length_take, List.length_drop]
  omega

theorem post_setR (l : List Nat) (i x : Nat) : Post (setR l i x) (fun s => s.length = l.length) := by
  unfold setR
  refine Post.ite (fun h => Post.ok ?_) (fun _ => Post.error)
  simp

/-- an operation on a slice that keeps its length keeps the length of the whole -/
theorem post_onSlice {α : Type} {l : List Nat} {i j : Nat} {f : List Nat → R (List Nat × α)}
    (h : ∀ s, s.length = j - i → Post (f s) (fun r => r.1.length = s.length)) :
    Post (onSlice l i j f) (fun r => r.1.length = l.length) := by
  unfold onSlice
  refine Post.bind (post_sliceR l i j) (fun s hs => ?_)
  refine Post.bind (h s hs.1) ?_
  rintro ⟨s', k⟩ h'
  refine Post.ok ?_
  simp only [List.length_append, List.length_take, List.length_drop] at h' ⊢
  omega

theorem addOne_len (W : Nat) (l : List Nat) : (addOne W l).1.length = l.length := by
  induction l with
  | nil => rfl
  | cons w ws ih =>
    rw [addOne]
    rcases overflowingAdd W w 1 with ⟨a, o⟩
    cases o
    · rfl
    · show (addOne W ws).1.length + 1 = _
      rw [ih]; rfl

theorem subOne_len (W : Nat) (l : List Nat) : (subOne W l).1.length = l.length := by
  induction l with
  | nil => rfl
  | cons w ws ih =>
    rw [subOne]
    rcases overflowingSub W w 1 with ⟨a, o⟩
    cases o
    · rfl
    · show (subOne W ws).1.length + 1 = _
      rw [ih]; rfl

theorem addWord_len (W : Nat) (l : List Nat) (x : Nat) :
    Post (addWord W l x) (fun r => r.1.length = l.length) := by
  cases l with
  | nil => exact Post.error
  | cons w ws =>
    rw [addWord]
    rcases overflowingAdd W w x with ⟨a, o⟩
    cases o
    · exact Post.ok rfl
    · refine Post.ok ?_
      show (addOne W ws).1.length + 1 = _
      rw [addOne_len]; rfl

theorem subWord_len (W : Nat) (l : List Nat) (x : Nat) :
    Post (subWord W l x) (fun r => r.1.length = l.length) := by
  cases l with
  | nil => exact Post.error
  | cons w ws =>
    rw [subWord]
    rcases overflowingSub W w x with ⟨a, o⟩
    cases o
    · exact Post.ok rfl
    · refine Post.ok ?_
      show (subOne W ws).1.length + 1 = _
      rw [subOne_len]; rfl

theorem addLoop_len (W : Nat) (l : List Nat) : ∀ (r : List Nat) (k : Bool), (addLoop W l r k).1.length = l.length := by
  induction l with
  | nil => intro r k; cases r <;> rfl
  | cons w ws ih =>
    intro r k
    cases r with
    | nil => rfl
    | cons b bs =>
      show (addLoop W ws bs _).1.length + 1 = _
      rw [ih]; rfl

theorem subLoop_len (W : Nat) (l : List Nat) : ∀ (r : List Nat) (k : Bool), (subLoop W l r k).1.length = l.length := by
  induction l with
  | nil => intro r k; cases r <;> rfl
  | cons w ws ih =>
    intro r k
    cases r with
    | nil => rfl
    | cons b bs =>
      show (subLoop W ws bs _).1.length + 1 = _
      rw [ih]; rfl

theorem subSwapLoop_len (W : Nat) (l : List Nat) :
    ∀ (r : List Nat) (k : Bool), (subSwapLoop W l r k).1.length = r.length := by
  induction l with
  | nil => intro r k; cases r <;> rfl
  | cons w ws ih =>
    intro r k
    cases r with
    | nil => rfl
    | cons b bs =>
      show (subSwapLoop W ws bs _).1.length + 1 = _
      rw [ih]; rfl

theorem addSameLen_len (W : Nat) (l r : List Nat) : Post (addSameLen W l r) (fun p => p.1.length = l.length) :=
  Post.bind (Post.true _) fun _ _ => Post.ok (addLoop_len W l r false)

theorem subSameLen_len (W : Nat) (l r : List Nat) : Post (subSameLen W l r) (fun p => p.1.length = l.length) :=
  Post.bind (Post.true _) fun _ _ => Post.ok (subLoop_len W l r false)

theorem subSameLenSwap_len (W : Nat) (l r : List Nat) :
    Post (subSameLenSwap W l r) (fun p => p.1.length = r.length) :=
  Post.bind (Post.true _) fun _ _ => Post.ok (subSwapLoop_len W l r false)

theorem addInPlace_len (W : Nat) (l r : List Nat) : Post (addInPlace W l r) (fun p => p.1.length = l.length) := by
  unfold addInPlace
  refine Post.bind (post_splitR l r.length) ?_
  rintro ⟨lo, hi⟩ h
  refine Post.bind (addSameLen_len W lo r) ?_
  rintro ⟨lo', k⟩ h'
  dsimp only at h h' ⊢
  refine Post.ite (fun _ => Post.ok ?_) (fun _ => Post.ok ?_)
  · simp only [List.length_append, addOne_len]; omega
  · simp only [List.length_append]; omega

theorem subInPlace_len (W : Nat) (l r : List Nat) : Post (subInPlace W l r) (fun p => p.1.length = l.length) := by
  unfold subInPlace
  refine Post.bind (post_splitR l r.length) ?_
  rintro ⟨lo, hi⟩ h
  refine Post.bind (subSameLen_len W lo r) ?_
  rintro ⟨lo', k⟩ h'
  dsimp only at h h' ⊢
  refine Post.ite (fun _ => Post.ok ?_) (fun _ => Post.ok ?_)
  · simp only [List.length_append, subOne_len]; omega
  · simp only [List.length_append]; omega

theorem subSignLoop_len (W : Nat) (r : List Nat) (n : Nat) :
    ∀ l : List Nat, Post (subSignLoop W l r n) (fun p => p.1.length = l.length) := by
  induction n with
  | zero => intro l; exact Post.ok rfl
  | succ n ih =>
    intro l
    rw [subSignLoop]
    refine Post.bind (Post.true _) (fun x _ => ?_)
    refine Post.bind (Post.true _) (fun y _ => ?_)
    refine Post.ite (fun _ => ?_) (fun _ => Post.ite (fun _ => ?_) (fun _ => ?_))
    · refine Post.bind (Post.true _) (fun s _ => ?_)
      refine Post.bind (post_onSlice (fun _ _ => subSameLen_len W _ _)) ?_
      rintro ⟨l', o⟩ h
      exact Post.bind (Post.true _) (fun _ _ => Post.ok h)
    · refine Post.bind (Post.true _) (fun s _ => ?_)
      refine Post.bind (post_onSlice (fun _ _ => subSameLenSwap_len W _ _)) ?_
      rintro ⟨l', o⟩ h
      exact Post.bind (Post.true _) (fun _ _ => Post.ok h)
    · refine Post.bind (post_setR _ _ _) (fun l' h => ?_)
      exact (ih l').mono (fun p hp => hp.trans h)

theorem subInPlaceWithSign_len (W : Nat) (l r : List Nat) :
    Post (subInPlaceWithSign W l r) (fun p => p.1.length = l.length) := by
  unfold subInPlaceWithSign
  refine Post.bind (Post.true _) (fun _ _ => ?_)
  refine Post.bind (Post.true _) (fun ll _ => ?_)
  refine Post.bind (Post.true _) (fun rl _ => ?_)
  refine Post.ite (fun _ => ?_) (fun _ => Post.ite (fun _ => ?_) (fun _ => subSignLoop_len W r _ l))
  · refine Post.bind (Post.true _) (fun s _ => ?_)
    refine Post.bind (post_onSlice (fun _ _ => subInPlace_len W _ _)) ?_
    rintro ⟨l', o⟩ h
    exact Post.bind (Post.true _) (fun _ _ => Post.ok h)
  · refine Post.bind (Post.true _) (fun s _ => ?_)
    refine Post.bind (post_onSlice (fun _ _ => subSameLenSwap_len W _ _)) ?_
    rintro ⟨l', o⟩ h
    refine Post.bind (Post.true _) (fun rHi _ => ?_)
    refine Post.bind (P := fun p => p.1.length = l.length) ?_ ?_
    · refine (post_onSlice (l := l') ?_).mono (fun p hp => hp.trans h)
      intro s _
      exact Post.bind (post_assertR _) (fun _ hs => Post.ok hs.symm)
    · rintro ⟨l'', u⟩ h''
      refine Post.ite (fun _ => ?_) (fun _ => Post.ok h'')
      refine Post.bind (P := fun p => p.1.length = l.length) ?_ ?_
      · exact (post_onSlice (fun s _ => Post.ok (subOne_len W s))).mono (fun p hp => hp.trans h'')
      · rintro ⟨l3, o⟩ h3
        exact Post.bind (Post.true _) (fun _ _ => Post.ok h3)

theorem addSignedWord_len (W : Nat) (l : List Nat) (x : Int) :
    Post (addSignedWord W l x) (fun p => p.1.length = l.length) := by
  unfold addSignedWord
  refine Post.ite (fun _ => Post.ok rfl) (fun _ => Post.ite (fun _ => ?_) (fun _ => ?_))
  · refine Post.bind (addWord_len W l _) ?_
    rintro ⟨l', c⟩ h
    exact Post.ok h
  · refine Post.bind (subWord_len W l _) ?_
    rintro ⟨l', c⟩ h
    exact Post.ok h

theorem addSignedSameLen_len (W : Nat) (l : List Nat) (s : Sign) (r : List Nat) :
    Post (addSignedSameLen W l s r) (fun p => p.1.length = l.length ∧ l.length = r.length) := by
  unfold addSignedSameLen
  refine Post.bind (post_assertR _) (fun _ hl => ?_)
  cases s
  · refine Post.bind (addSameLen_len W l _) ?_
    rintro ⟨l', c⟩ h
    exact Post.ok ⟨h, hl⟩
  · refine Post.bind (subSameLen_len W l _) ?_
    rintro ⟨l', c⟩ h
    exact Post.ok ⟨h, hl⟩

theorem addSignedInPlace_len (W : Nat) (l : List Nat) (s : Sign) (r : List Nat) :
    Post (addSignedInPlace W l s r) (fun p => p.1.length = l.length) := by
  unfold addSignedInPlace
  refine Post.bind (post_assertR _) (fun _ hl => ?_)
  cases s
  · refine Post.bind (addInPlace_len W l _) ?_
    rintro ⟨l', c⟩ h
    exact Post.ok h
  · refine Post.bind (subInPlace_len W l _) ?_
    rintro ⟨l', c⟩ h
    exact Post.ok h

theorem mulWordLoop_len (W x : Nat) (l : List Nat) : ∀ k, (mulWordLoop W x l k).1.length = l.length := by
  induction l with
  | nil => intro k; rfl
  | cons w ws ih =>
    intro k
    show (mulWordLoop W x ws _).1.length + 1 = _
    rw [ih]; rfl

theorem addMulWordLoop_len (W x : Nat) (l : List Nat) : ∀ r k, (addMulWordLoop W x l r k).1.length = l.length := by
  induction l with
  | nil => intro r k; cases r <;> rfl
  | cons w ws ih =>
    intro r k
    cases r with
    | nil => rfl
    | cons b bs =>
      show (addMulWordLoop W x ws bs _).1.length + 1 = _
      rw [ih]; rfl

theorem subMulWordLoop_len (W x : Nat) (l : List Nat) :
    ∀ r k, Post (subMulWordLoop W x l r k) (fun p => p.1.length = l.length) := by
  induction l with
  | nil => intro r k; cases r <;> exact Post.ok rfl
  | cons w ws ih =>
    intro r k
    cases r with
    | nil => exact Post.ok rfl
    | cons b bs =>
      rw [subMulWordLoop]
      refine Post.bind (Post.true _) (fun _ _ => ?_)
      refine Post.bind (Post.true _) (fun v _ => ?_)
      refine Post.bind (ih bs _) ?_
      rintro ⟨l', c⟩ h
      refine Post.ok ?_
      simp only [List.length_cons] at h ⊢
      omega

theorem addMulWordSameLen_len (W : Nat) (l : List Nat) (x : Nat) (r : List Nat) :
    Post (addMulWordSameLen W l x r) (fun p => p.1.length = l.length ∧ l.length = r.length) :=
  Post.bind (post_assertR _) fun _ h => Post.ok ⟨addMulWordLoop_len W x l r 0, h⟩

theorem subMulWordSameLen_len (W : Nat) (l : List Nat) (x : Nat) (r : List Nat) :
    Post (subMulWordSameLen W l x r) (fun p => p.1.length = l.length ∧ l.length = r.length) := by
  refine Post.bind (post_assertR _) fun _ hl => ?_
  refine Post.bind (subMulWordLoop_len W x l r _) ?_
  rintro ⟨l', c⟩ h
  exact Post.bind (Post.true _) (fun _ _ => Post.ok ⟨h, hl⟩)

theorem addMulWord_len (W : Nat) (l : List Nat) (x : Nat) (r : List Nat) :
    Post (addMulWord W l x r) (fun p => p.1.length = l.length) := by
  unfold addMulWord
  refine Post.bind (post_assertR _) fun _ hl => ?_
  refine Post.bind (post_onSlice (fun s _ => (addMulWordSameLen_len W s x r).mono (fun p hp => hp.1))) ?_
  rintro ⟨l', c⟩ h
  refine Post.ite (fun _ => ?_) (fun _ => Post.ok h)
  refine Post.bind (post_onSlice (fun s _ => addWord_len W s _)) ?_
  rintro ⟨l'', c'⟩ h'
  exact Post.ok (h'.trans h)

theorem allocFill_len (mem n x : Nat) : Post (allocFill mem n x) (fun p => p.1.length = n) := by
  unfold allocFill
  refine Post.ite (fun _ => Post.ok ?_) (fun _ => Post.error)
  simp

theorem allocCopy_len (mem : Nat) (l : List Nat) : Post (allocCopy mem l) (fun p => p.1.length = l.length) := by
  unfold allocCopy
  exact Post.ite (fun _ => Post.ok rfl) (fun _ => Post.error)

theorem allocCopyFill_len (mem n : Nat) (l : List Nat) (x : Nat) :
    Post (allocCopyFill mem n l x) (fun p => p.1.length = n) := by
  unfold allocCopyFill
  refine Post.bind (post_assertR _) (fun _ h => ?_)
  refine Post.ite (fun _ => Post.ok ?_) (fun _ => Post.error)
  simp only [List.length_append, List.length_replicate]
  omega

/-- if `x` returns then after at most `n` steps and its result satisfies `P` -/
def Takes {α : Type} (x : Timed α) (n : Nat) (P : α → Prop) : Prop := ∀ a k, x = .ok (a, k) → k ≤ n ∧ P a

theorem Takes.bind {α β : Type} {x : Timed α} {f : α → Timed β} {P : α → Prop} {Q : β → Prop} {n N : Nat}
    (hx : Takes x n P) (hn : n ≤ N) (hf : ∀ a M, N = n + M → P a → Takes (f a) M Q) : Takes (x >>= f) N Q := by
  intro b k hb
  rcases x with e | ⟨a, l⟩
  · cases hb
  · obtain ⟨hl, hP⟩ := hx a l rfl
    replace hb : (match f a with
      | .error e => Except.error e
      | .ok (b, m) => Except.ok (b, l + m) : R (β × Nat)) = .ok (b, k) := hb
    have := hf a (N - n) (by omega) hP
    generalize f a = y at hb this
    rcases y with e | ⟨b', m⟩
    · cases hb
    · cases hb
      obtain ⟨h1, h2⟩ := this b m rfl
      exact ⟨by omega, h2⟩

theorem Takes.pure {α : Type} {a : α} {n : Nat} {P : α → Prop} (h : P a) : Takes (pure a : Timed α) n P := by
  intro b k hb
  cases hb
  exact ⟨Nat.zero_le _, h⟩

theorem Takes.mono {α : Type} {x : Timed α} {P Q : α → Prop} {n m : Nat} (hx : Takes x n P) (hn : n ≤ m)
    (h : ∀ a, P a → Q a) : Takes x m Q := by
  intro a k ha
  obtain ⟨h1, h2⟩ := hx a k ha
  exact ⟨by omega, h a h2⟩

theorem Takes.ite {α : Type} {c : Prop} [Decidable c] {x y : Timed α} {n : Nat} {P : α → Prop}
    (hx : c → Takes x n P) (hy : ¬ c → Takes y n P) : Takes (if c then x else y) n P := by
  by_cases h : c
  · rw [if_pos h]; exact hx h
  · rw [if_neg h]; exact hy h

theorem Takes.pass {α : Type} {x : R α} {n : Nat} {P : α → Prop} (h : Post x P) : Takes (pass n x) n P := by
  intro a k ha
  rcases x with e | a'
  · cases ha
  · cases ha
    exact ⟨le_refl _, h _ rfl⟩

theorem Takes.throwT {α : Type} {e : Panic} {n : Nat} {P : α → Prop} :
    Takes (Timed.throwT e : Timed α) n P := by
  intro a k ha
  cases ha

/-- an operation on a slice that takes `n` steps -/
theorem Takes.onSlice {α : Type} {l : List Nat} {i j n : Nat} {f : List Nat → Timed (List Nat × α)} {Q : Prop}
    (h : ∀ s, s.length = j - i → i ≤ j → j ≤ l.length → Takes (f s) n (fun r => r.1.length = s.length ∧ Q)) :
    Takes (Timed.onSlice l i j f) (n + 1)
      (fun r => r.1.length = l.length ∧ i ≤ j ∧ j ≤ l.length ∧ Q) := by
  unfold Timed.onSlice
  refine Takes.bind (Takes.pass (post_sliceR l i j)) (by omega) (fun s M hM hs => ?_)
  refine Takes.bind (h s hs.1 hs.2.1 hs.2.2) (by omega) ?_
  rintro ⟨s', k⟩ _ _ ⟨h', hP⟩
  refine Takes.pure ⟨?_, hs.2.1, hs.2.2, hP⟩
  simp only [List.length_append, List.length_take, List.length_drop] at h' ⊢
  omega

end Ibig
