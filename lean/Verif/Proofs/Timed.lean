import Verif.Model.Timed
/-!
The counting functions of Model/Timed.lean return what the functions of the model return.
-/
namespace Ibig.Timed

theorem result_pure {α : Type} (a : α) : (pure a : Timed α).result = .ok a := rfl

theorem result_pass {α : Type} (n : Nat) (x : R α) : (pass n x).result = x := by
  cases x <;> rfl

theorem result_bind {α β : Type} {x : Timed α} {y : R α} {f : α → Timed β} {g : α → R β}
    (hx : x.result = y) (hf : ∀ a, (f a).result = g a) : (x >>= f).result = y >>= g := by
  subst hx
  rcases x with e | ⟨a, k⟩
  · rfl
  · show (Timed.bind (.ok (a, k)) f).result = g a
    rw [← hf a]
    show (match f a with
      | .error e => Except.error e
      | .ok (b, l) => Except.ok (b, k + l) : Timed β).result = (f a).result
    generalize f a = y
    rcases y with e | ⟨b, l⟩ <;> rfl

theorem result_pass_ok {α β : Type} (n : Nat) (a : α) (f : α → Timed β) :
    (pass n (.ok a) >>= f).result = (f a).result := by
  show (match f a with
    | .error e => Except.error e
    | .ok (b, l) => Except.ok (b, n + l) : Timed β).result = (f a).result
  generalize f a = y
  rcases y with e | ⟨b, l⟩ <;> rfl

theorem result_onSlice {α : Type} (c : List Nat) (i j : Nat) {f : List Nat → Timed (List Nat × α)}
    {g : List Nat → R (List Nat × α)} (h : ∀ s, (f s).result = g s) :
    (onSlice c i j f).result = Ibig.onSlice c i j g := by
  unfold onSlice Ibig.onSlice
  refine result_bind (result_pass _ _) (fun s => ?_)
  refine result_bind (h s) ?_
  rintro ⟨s', k⟩
  rfl

theorem result_of_ok {α : Type} {x : Timed α} {a : α} {k : Nat} (h : x = .ok (a, k)) : x.result = .ok a := by
  rw [h]; rfl

/-- run a counting function with a known result and number of steps -/
theorem bind_of_ok {α β : Type} {x : Timed α} {a : α} {k : Nat} (h : x = .ok (a, k)) (f : α → Timed β) :
    (x >>= f).result = (f a).result := by
  rw [h]
  show (match f a with
    | .error e => Except.error e
    | .ok (b, l) => Except.ok (b, k + l) : Timed β).result = (f a).result
  generalize f a = y
  rcases y with e | ⟨b, l⟩ <;> rfl

theorem result_bind_ok {α β : Type} {x : Timed α} {a : α} (h : x.result = .ok a) (f : α → Timed β) :
    (x >>= f).result = (f a).result :=
  result_bind (g := fun a => (f a).result) h fun _ => rfl

theorem result_ite {α : Type} {c : Prop} [Decidable c] {x y : Timed α} {x' y' : R α} (hx : c → x.result = x')
    (hy : ¬ c → y.result = y') : (if c then x else y).result = if c then x' else y' := by
  by_cases h : c
  · rw [if_pos h, if_pos h]; exact hx h
  · rw [if_neg h, if_neg h]; exact hy h

theorem addOne_result (W : Nat) (l : List Nat) : (addOne W l).result = .ok (Ibig.addOne W l) := by
  induction l with
  | nil => rfl
  | cons w ws ih =>
    rw [addOne, Ibig.addOne]
    refine (bind_of_ok rfl _).trans ?_
    rcases overflowingAdd W w 1 with ⟨a, o⟩
    cases o
    · rfl
    · refine (result_bind ih (g := fun p => .ok (a :: p.1, p.2)) ?_).trans ?_
      · rintro ⟨r, c⟩; rfl
      · rfl

theorem subOne_result (W : Nat) (l : List Nat) : (subOne W l).result = .ok (Ibig.subOne W l) := by
  induction l with
  | nil => rfl
  | cons w ws ih =>
    rw [subOne, Ibig.subOne]
    refine (bind_of_ok rfl _).trans ?_
    rcases overflowingSub W w 1 with ⟨a, o⟩
    cases o
    · rfl
    · refine (result_bind ih (g := fun p => .ok (a :: p.1, p.2)) ?_).trans ?_
      · rintro ⟨r, c⟩; rfl
      · rfl

theorem addWord_result (W : Nat) (l : List Nat) (x : Nat) : (addWord W l x).result = Ibig.addWord W l x := by
  cases l with
  | nil => rfl
  | cons w ws =>
    rw [addWord, Ibig.addWord]
    refine (bind_of_ok rfl _).trans ?_
    rcases overflowingAdd W w x with ⟨a, o⟩
    cases o
    · rfl
    · refine (result_bind (addOne_result W ws) (g := fun p => .ok (a :: p.1, p.2)) ?_).trans ?_
      · rintro ⟨r, c⟩; rfl
      · rfl

theorem subWord_result (W : Nat) (l : List Nat) (x : Nat) : (subWord W l x).result = Ibig.subWord W l x := by
  cases l with
  | nil => rfl
  | cons w ws =>
    rw [subWord, Ibig.subWord]
    refine (bind_of_ok rfl _).trans ?_
    rcases overflowingSub W w x with ⟨a, o⟩
    cases o
    · rfl
    · refine (result_bind (subOne_result W ws) (g := fun p => .ok (a :: p.1, p.2)) ?_).trans ?_
      · rintro ⟨r, c⟩; rfl
      · rfl

theorem addLoop_result (W : Nat) (l : List Nat) :
    ∀ r k, (addLoop W l r k).result = .ok (Ibig.addLoop W l r k) := by
  induction l with
  | nil => intro r k; cases r <;> rfl
  | cons w ws ih =>
    intro r k
    cases r with
    | nil => rfl
    | cons b bs =>
      rw [addLoop, Ibig.addLoop]
      refine (bind_of_ok rfl _).trans ?_
      rcases addWithCarry W w b k with ⟨a, o⟩
      refine (result_bind (ih bs o) (g := fun p => .ok (a :: p.1, p.2)) ?_).trans ?_
      · rintro ⟨r, c⟩; rfl
      · rfl

theorem subLoop_result (W : Nat) (l : List Nat) :
    ∀ r k, (subLoop W l r k).result = .ok (Ibig.subLoop W l r k) := by
  induction l with
  | nil => intro r k; cases r <;> rfl
  | cons w ws ih =>
    intro r k
    cases r with
    | nil => rfl
    | cons b bs =>
      rw [subLoop, Ibig.subLoop]
      refine (bind_of_ok rfl _).trans ?_
      rcases subWithBorrow W w b k with ⟨a, o⟩
      refine (result_bind (ih bs o) (g := fun p => .ok (a :: p.1, p.2)) ?_).trans ?_
      · rintro ⟨r, c⟩; rfl
      · rfl

theorem subSwapLoop_result (W : Nat) (l : List Nat) :
    ∀ r k, (subSwapLoop W l r k).result = .ok (Ibig.subSwapLoop W l r k) := by
  induction l with
  | nil => intro r k; cases r <;> rfl
  | cons w ws ih =>
    intro r k
    cases r with
    | nil => rfl
    | cons b bs =>
      rw [subSwapLoop, Ibig.subSwapLoop]
      refine (bind_of_ok rfl _).trans ?_
      rcases subWithBorrow W w b k with ⟨a, o⟩
      refine (result_bind (ih bs o) (g := fun p => .ok (a :: p.1, p.2)) ?_).trans ?_
      · rintro ⟨r, c⟩; rfl
      · rfl

theorem addSameLen_result (W : Nat) (l r : List Nat) : (addSameLen W l r).result = Ibig.addSameLen W l r :=
  result_bind (result_pass _ _) (fun _ => addLoop_result W l r false)

theorem subSameLen_result (W : Nat) (l r : List Nat) : (subSameLen W l r).result = Ibig.subSameLen W l r :=
  result_bind (result_pass _ _) (fun _ => subLoop_result W l r false)

theorem subSameLenSwap_result (W : Nat) (l r : List Nat) :
    (subSameLenSwap W l r).result = Ibig.subSameLenSwap W l r :=
  result_bind (result_pass _ _) (fun _ => subSwapLoop_result W l r false)

theorem addInPlace_result (W : Nat) (l r : List Nat) : (addInPlace W l r).result = Ibig.addInPlace W l r := by
  unfold addInPlace Ibig.addInPlace
  refine result_bind (result_pass _ _) ?_
  rintro ⟨lo, hi⟩
  refine result_bind (addSameLen_result _ _ _) ?_
  rintro ⟨lo', k⟩
  cases k
  · rfl
  · refine (result_bind (addOne_result W hi) (g := fun p => .ok (lo' ++ p.1, p.2)) ?_).trans ?_
    · rintro ⟨r, c⟩; rfl
    · rfl

theorem subInPlace_result (W : Nat) (l r : List Nat) : (subInPlace W l r).result = Ibig.subInPlace W l r := by
  unfold subInPlace Ibig.subInPlace
  refine result_bind (result_pass _ _) ?_
  rintro ⟨lo, hi⟩
  refine result_bind (subSameLen_result _ _ _) ?_
  rintro ⟨lo', k⟩
  cases k
  · rfl
  · refine (result_bind (subOne_result W hi) (g := fun p => .ok (lo' ++ p.1, p.2)) ?_).trans ?_
    · rintro ⟨r, c⟩; rfl
    · rfl

theorem strippedLen_result (l : List Nat) (n : Nat) : (strippedLen l n).result = Ibig.strippedLen l n := by
  induction n with
  | zero => rfl
  | succ n ih =>
    rw [strippedLen, Ibig.strippedLen]
    refine result_bind (result_pass _ _) (fun x => ?_)
    exact result_ite (fun _ => ih) (fun _ => rfl)

theorem subSignLoop_result (W : Nat) (r : List Nat) (n : Nat) :
    ∀ l, (subSignLoop W l r n).result = Ibig.subSignLoop W l r n := by
  induction n with
  | zero => intro l; rfl
  | succ n ih =>
    intro l
    rw [subSignLoop, Ibig.subSignLoop]
    refine result_bind (result_pass _ _) (fun x => ?_)
    refine result_bind (result_pass _ _) (fun y => ?_)
    refine result_ite (fun _ => ?_) (fun _ => result_ite (fun _ => ?_) (fun _ => ?_))
    · refine result_bind (result_pass _ _) (fun y => ?_)
      refine result_bind (result_onSlice _ _ _ fun _ => subSameLen_result _ _ _) ?_
      rintro ⟨l', o⟩
      exact result_bind (result_pass _ _) (fun y => rfl)
    · refine result_bind (result_pass _ _) (fun y => ?_)
      refine result_bind (result_onSlice _ _ _ fun _ => subSameLenSwap_result _ _ _) ?_
      rintro ⟨l', o⟩
      exact result_bind (result_pass _ _) (fun y => rfl)
    · exact result_bind (result_pass _ _) (fun y => ih _)

theorem subInPlaceWithSign_result (W : Nat) (l r : List Nat) :
    (subInPlaceWithSign W l r).result = Ibig.subInPlaceWithSign W l r := by
  unfold subInPlaceWithSign Ibig.subInPlaceWithSign
  refine result_bind (result_pass _ _) (fun _ => ?_)
  refine result_bind (strippedLen_result _ _) (fun _ => ?_)
  refine result_bind (strippedLen_result _ _) (fun _ => ?_)
  refine result_ite (fun _ => ?_) (fun _ => result_ite (fun _ => ?_) (fun _ => subSignLoop_result _ _ _ _))
  · refine result_bind (result_pass _ _) (fun _ => ?_)
    refine result_bind (result_onSlice _ _ _ fun _ => subInPlace_result _ _ _) ?_
    rintro ⟨l', o⟩
    exact result_bind (result_pass _ _) (fun y => rfl)
  · refine result_bind (result_pass _ _) (fun _ => ?_)
    refine result_bind (result_onSlice _ _ _ fun _ => subSameLenSwap_result _ _ _) ?_
    rintro ⟨l', o⟩
    refine result_bind (result_pass _ _) (fun _ => ?_)
    refine result_bind (result_onSlice _ _ _ fun _ => result_pass _ _) ?_
    rintro ⟨l'', u⟩
    refine result_ite (fun _ => ?_) (fun _ => rfl)
    refine result_bind (result_onSlice _ _ _ fun _ => subOne_result _ _) ?_
    rintro ⟨l3, u⟩
    exact result_bind (result_pass _ _) (fun y => rfl)

theorem addSignedWord_result (W : Nat) (l : List Nat) (x : Int) :
    (addSignedWord W l x).result = Ibig.addSignedWord W l x := by
  unfold addSignedWord Ibig.addSignedWord
  refine result_ite (fun _ => rfl) (fun _ => result_ite (fun _ => ?_) (fun _ => ?_))
  · refine result_bind (addWord_result _ _ _) ?_
    rintro ⟨l', c⟩
    rfl
  · refine result_bind (subWord_result _ _ _) ?_
    rintro ⟨l', c⟩
    rfl

theorem addSignedSameLen_result (W : Nat) (l : List Nat) (s : Sign) (r : List Nat) :
    (addSignedSameLen W l s r).result = Ibig.addSignedSameLen W l s r := by
  unfold addSignedSameLen Ibig.addSignedSameLen
  refine result_bind (result_pass _ _) (fun _ => ?_)
  cases s
  · refine result_bind (addSameLen_result _ _ _) ?_
    rintro ⟨l', c⟩
    rfl
  · refine result_bind (subSameLen_result _ _ _) ?_
    rintro ⟨l', c⟩
    rfl

theorem addSignedInPlace_result (W : Nat) (l : List Nat) (s : Sign) (r : List Nat) :
    (addSignedInPlace W l s r).result = Ibig.addSignedInPlace W l s r := by
  unfold addSignedInPlace Ibig.addSignedInPlace
  refine result_bind (result_pass _ _) (fun _ => ?_)
  cases s
  · refine result_bind (addInPlace_result _ _ _) ?_
    rintro ⟨l', c⟩
    rfl
  · refine result_bind (subInPlace_result _ _ _) ?_
    rintro ⟨l', c⟩
    rfl

theorem mulWordLoop_result (W x : Nat) (l : List Nat) :
    ∀ k, (mulWordLoop W x l k).result = .ok (Ibig.mulWordLoop W x l k) := by
  induction l with
  | nil => intro k; rfl
  | cons w ws ih =>
    intro k
    rw [mulWordLoop, Ibig.mulWordLoop]
    refine (bind_of_ok rfl _).trans ?_
    rcases splitDoubleWord W (w * x + k) with ⟨a, o⟩
    refine (result_bind (ih o) (g := fun p => .ok (a :: p.1, p.2)) ?_).trans ?_
    · rintro ⟨r, c⟩; rfl
    · rfl

theorem mulWord_result (W : Nat) (l : List Nat) (x : Nat) :
    (mulWord W l x).result = .ok (Ibig.mulWord W l x) := mulWordLoop_result W x l 0

theorem addMulWordLoop_result (W x : Nat) (l : List Nat) :
    ∀ r k, (addMulWordLoop W x l r k).result = .ok (Ibig.addMulWordLoop W x l r k) := by
  induction l with
  | nil => intro r k; cases r <;> rfl
  | cons w ws ih =>
    intro r k
    cases r with
    | nil => rfl
    | cons b bs =>
      rw [addMulWordLoop, Ibig.addMulWordLoop]
      refine (bind_of_ok rfl _).trans ?_
      rcases splitDoubleWord W (w + k + x * b) with ⟨a, o⟩
      refine (result_bind (ih bs o) (g := fun p => .ok (a :: p.1, p.2)) ?_).trans ?_
      · rintro ⟨r, c⟩; rfl
      · rfl

theorem addMulWordSameLen_result (W : Nat) (l : List Nat) (x : Nat) (r : List Nat) :
    (addMulWordSameLen W l x r).result = Ibig.addMulWordSameLen W l x r :=
  result_bind (result_pass _ _) (fun _ => addMulWordLoop_result W x l r 0)

theorem addMulWord_result (W : Nat) (l : List Nat) (x : Nat) (r : List Nat) :
    (addMulWord W l x r).result = Ibig.addMulWord W l x r := by
  unfold addMulWord Ibig.addMulWord
  refine result_bind (result_pass _ _) (fun _ => ?_)
  refine result_bind (result_onSlice _ _ _ fun _ => addMulWordSameLen_result _ _ _ _) ?_
  rintro ⟨l', k⟩
  refine result_ite (fun _ => ?_) (fun _ => rfl)
  refine result_bind (result_onSlice _ _ _ fun _ => addWord_result _ _ _) ?_
  rintro ⟨l'', k'⟩
  rfl

theorem subMulWordLoop_result (W x : Nat) (l : List Nat) :
    ∀ r k, (subMulWordLoop W x l r k).result = Ibig.subMulWordLoop W x l r k := by
  induction l with
  | nil => intro r k; cases r <;> rfl
  | cons w ws ih =>
    intro r k
    cases r with
    | nil => rfl
    | cons b bs =>
      rw [subMulWordLoop, Ibig.subMulWordLoop]
      have e : ∀ {α : Type} (f : Nat → R α),
          (Ibig.ckAdd (2 * W) (w + k) (base W * (base W - 1) - (base W - 1)) >>=
            fun y => Ibig.ckSub y (x * b) >>= f) =
          ((Ibig.ckAdd (2 * W) (w + k) (base W * (base W - 1) - (base W - 1)) >>=
            fun y => Ibig.ckSub y (x * b)) >>= f) := by
        intro α f
        rcases Ibig.ckAdd (2 * W) (w + k) (base W * (base W - 1) - (base W - 1)) with e | y <;> rfl
      rw [e]
      refine result_bind (result_pass _ _) (fun v => ?_)
      rcases splitDoubleWord W v with ⟨a, o⟩
      refine result_bind (ih bs o) ?_
      rintro ⟨l', k'⟩
      rfl

theorem subMulWordSameLen_result (W : Nat) (l : List Nat) (x : Nat) (r : List Nat) :
    (subMulWordSameLen W l x r).result = Ibig.subMulWordSameLen W l x r := by
  unfold subMulWordSameLen Ibig.subMulWordSameLen
  refine result_bind (result_pass _ _) (fun _ => ?_)
  refine result_bind (subMulWordLoop_result _ _ _ _ _) ?_
  rintro ⟨l', k'⟩
  exact result_bind (result_pass _ _) (fun _ => rfl)

theorem shlLoop_result (W s : Nat) (l : List Nat) :
    ∀ k, (shlLoop W s l k).result = .ok (Ibig.shlLoop W s l k) := by
  induction l with
  | nil => intro k; rfl
  | cons w ws ih =>
    intro k
    rw [shlLoop, Ibig.shlLoop]
    refine (bind_of_ok rfl _).trans ?_
    rcases splitDoubleWord W (w * 2 ^ s) with ⟨a, o⟩
    refine (result_bind (ih o) (g := fun p => .ok ((a ||| k) :: p.1, p.2)) ?_).trans ?_
    · rintro ⟨r, c⟩; rfl
    · rfl

theorem shlInPlace_result (W : Nat) (l : List Nat) (s : Nat) :
    (shlInPlace W l s).result = Ibig.shlInPlace W l s :=
  result_bind (result_pass _ _) (fun _ => result_ite (fun _ => rfl) (fun _ => shlLoop_result W s l 0))

theorem shrLoop_result (W s : Nat) (l : List Nat) :
    (shrLoop W s l).result = .ok (Ibig.shrLoop W s l) := by
  induction l with
  | nil => rfl
  | cons w ws ih =>
    rw [shrLoop, Ibig.shrLoop]
    refine (bind_of_ok rfl _).trans ?_
    refine (result_bind ih (g := fun p =>
      .ok (((splitDoubleWord W (doubleWord W 0 w / 2 ^ s)).2 ||| p.2) :: p.1,
        (splitDoubleWord W (doubleWord W 0 w / 2 ^ s)).1)) ?_).trans ?_
    · rintro ⟨r, c⟩; rfl
    · rfl

theorem shrInPlace_result (W : Nat) (l : List Nat) (s : Nat) :
    (shrInPlace W l s).result = Ibig.shrInPlace W l s := by
  refine result_bind (result_pass _ _) (fun _ => result_ite (fun _ => rfl) (fun _ => ?_))
  refine (result_bind (shrLoop_result W s l) (g := fun p => .ok (p.1, p.2 / 2 ^ (W - s))) ?_).trans ?_
  · rintro ⟨r, c⟩; rfl
  · rfl

theorem fastDivLoop_result (W : Nat) (fd : FastDivideNormalized) (l : List Nat) :
    ∀ k, (fastDivLoop W fd l k).result = Ibig.fastDivLoop W fd l k := by
  induction l with
  | nil => intro k; rfl
  | cons w ws ih =>
    intro k
    rw [fastDivLoop, Ibig.fastDivLoop]
    refine result_bind (ih k) ?_
    rintro ⟨qs, rem⟩
    refine result_bind (result_pass _ _) ?_
    rintro ⟨q, r⟩
    rfl

theorem fastDivByWord_result (W : Nat) (l : List Nat) (x : Nat) (fd : FastDivideNormalized) :
    (fastDivByWord W l x fd).result = Ibig.fastDivByWord W l x fd := by
  refine result_bind (shlInPlace_result _ _ _) ?_
  rintro ⟨l', k⟩
  refine result_bind (fastDivLoop_result _ _ _ _) ?_
  rintro ⟨l', k⟩
  rfl

theorem divByWord_result (W : Nat) (l : List Nat) (x : Nat) :
    (divByWord W l x).result = Ibig.divByWord W l x := by
  refine result_bind (result_pass _ _) (fun _ => result_ite (fun _ => rfl) (fun _ => result_ite (fun _ => ?_)
    (fun _ => ?_)))
  · exact shrInPlace_result _ _ _
  · exact result_bind (result_pass _ _) (fun _ => fastDivByWord_result _ _ _ _)

end Ibig.Timed
