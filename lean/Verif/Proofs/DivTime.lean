import Verif.Model.DivTime
import Verif.Proofs.MulTime
/-!
The counting division returns what the division of the model returns.
-/
namespace Ibig.Timed

theorem lexCmp_result (l : List Nat) : ∀ r, (lexCmp l r).result = .ok (Ibig.lexCmp l r) := by
  induction l with
  | nil => intro r; cases r <;> rfl
  | cons x xs ih =>
    intro r
    cases r with
    | nil => rfl
    | cons y ys =>
      rw [lexCmp, Ibig.lexCmp]
      refine (bind_of_ok rfl _).trans ?_
      by_cases h1 : x < y
      · rw [if_pos h1, if_pos h1]; rfl
      · rw [if_neg h1, if_neg h1]
        by_cases h2 : y < x
        · rw [if_pos h2, if_pos h2]; rfl
        · rw [if_neg h2, if_neg h2]; exact ih ys

theorem cmpSameLen_result (l r : List Nat) : (cmpSameLen l r).result = Ibig.cmpSameLen l r :=
  result_bind (result_pass _ _) (fun _ => lexCmp_result _ _)

theorem fastRemLoop_result (W : Nat) (fd : FastDivideNormalized) (l : List Nat) :
    ∀ k, (fastRemLoop W fd l k).result = Ibig.fastRemLoop W fd l k := by
  induction l with
  | nil => intro k; rfl
  | cons w ws ih =>
    intro k
    rw [fastRemLoop, Ibig.fastRemLoop]
    refine result_bind (ih k) (fun r => ?_)
    refine result_bind (result_pass _ _) ?_
    rintro ⟨q, r⟩
    rfl

theorem fastRemByNormalizedWord_result (W : Nat) (l : List Nat) (fd : FastDivideNormalized) :
    (fastRemByNormalizedWord W l fd).result = Ibig.fastRemByNormalizedWord W l fd := by
  unfold fastRemByNormalizedWord Ibig.fastRemByNormalizedWord
  cases l.getLast? with
  | none => rfl
  | some w => exact fastRemLoop_result _ _ _ _

theorem remByWord_result (W : Nat) (l : List Nat) (x : Nat) : (remByWord W l x).result = Ibig.remByWord W l x := by
  refine result_bind (result_pass _ _) (fun _ => ?_)
  cases l with
  | nil => rfl
  | cons w ws =>
    refine result_ite (fun _ => rfl) (fun _ => ?_)
    refine result_bind (result_pass _ _) (fun _ => ?_)
    refine result_bind (fastRemByNormalizedWord_result _ _ _) (fun _ => ?_)
    refine result_bind (result_pass _ _) ?_
    rintro ⟨q, r⟩
    rfl

theorem normalizeLarge_result (W : Nat) (l : List Nat) : (normalizeLarge W l).result = Ibig.normalizeLarge W l := by
  refine result_bind (result_pass _ _) (fun _ => ?_)
  refine result_bind (result_pass _ _) (fun _ => ?_)
  refine result_bind (shlInPlace_result _ _ _) ?_
  rintro ⟨l, o⟩
  refine result_bind (result_pass _ _) (fun _ => ?_)
  refine result_bind (result_pass _ _) (fun _ => ?_)
  exact result_bind (result_pass _ _) (fun _ => rfl)

theorem refineQ_result (W rhs0 rhs1 lhs2 q : Nat) :
    ∀ r, (refineQ W rhs0 rhs1 lhs2 q r).result = .ok (Ibig.refineQ W rhs0 rhs1 lhs2 q r) := by
  induction q with
  | zero => intro r; rfl
  | succ q ih =>
    intro r
    rw [refineQ, Ibig.refineQ]
    refine (bind_of_ok rfl _).trans ?_
    by_cases h1 : doubleWord W lhs2 r < (q + 1) * rhs1
    · rw [if_pos h1, if_pos h1]
      by_cases h2 : r + rhs0 < base W
      · rw [if_pos h2, if_pos h2]; exact ih _
      · rw [if_neg h2, if_neg h2]; rfl
    · rw [if_neg h1, if_neg h1]; rfl

theorem estimateQ_result (W : Nat) (fd : FastDivideNormalized) (rhs0 rhs1 lhs0 lhs1 lhs2 : Nat) :
    (estimateQ W fd rhs0 rhs1 lhs0 lhs1 lhs2).result = Ibig.estimateQ W fd rhs0 rhs1 lhs0 lhs1 lhs2 := by
  refine result_ite (fun _ => ?_) (fun _ => rfl)
  refine result_bind (result_pass _ _) ?_
  rintro ⟨q, r⟩
  exact refineQ_result _ _ _ _ _ _

theorem correctQ_result (W : Nat) (lhs rhs : List Nat) (i j q borrow lhs0 : Nat) :
    (correctQ W lhs rhs i j q borrow lhs0).result = Ibig.correctQ W lhs rhs i j q borrow lhs0 := by
  unfold correctQ Ibig.correctQ
  refine result_ite (fun _ => ?_) (fun _ => ?_)
  · refine result_bind (result_pass _ _) (fun _ => ?_)
    refine result_bind (by erase_leaf) ?_
    rintro ⟨l, o⟩
    refine result_bind (result_pass _ _) (fun _ => ?_)
    refine result_bind (result_pass _ _) (fun _ => ?_)
    exact result_bind (result_pass _ _) (fun _ => rfl)
  · exact result_bind (result_pass _ _) (fun _ => rfl)

theorem simpleDivLoop_result (W : Nat) (fd : FastDivideNormalized) (rhs : List Nat) (rhs0 rhs1 k : Nat) :
    ∀ lhs, (simpleDivLoop W fd rhs rhs0 rhs1 k lhs).result = Ibig.simpleDivLoop W fd rhs rhs0 rhs1 k lhs := by
  induction k with
  | zero => intro lhs; rfl
  | succ k ih =>
    intro lhs
    rw [simpleDivLoop, Ibig.simpleDivLoop]
    refine result_bind (result_pass _ _) (fun _ => ?_)
    refine result_bind (result_pass _ _) (fun _ => ?_)
    refine result_bind (result_pass _ _) (fun _ => ?_)
    refine result_bind (estimateQ_result _ _ _ _ _ _ _) (fun _ => ?_)
    refine result_bind (by erase_leaf) ?_
    rintro ⟨l, o⟩
    refine result_bind (correctQ_result _ _ _ _ _ _ _ _) ?_
    rintro ⟨l, q⟩
    exact result_bind (result_pass _ _) (fun _ => ih _)

theorem simpleDivTop_result (W : Nat) (lhs rhs : List Nat) :
    (simpleDivTop W lhs rhs).result = Ibig.simpleDivTop W lhs rhs := by
  unfold simpleDivTop Ibig.simpleDivTop
  refine result_bind (result_pass _ _) (fun _ => ?_)
  refine result_bind (cmpSameLen_result _ _) (fun _ => ?_)
  refine result_ite (fun _ => rfl) (fun _ => ?_)
  refine result_bind (by erase_leaf) ?_
  rintro ⟨l, o⟩
  exact result_bind (result_pass _ _) (fun _ => rfl)

theorem simpleDivRem_result (W : Nat) (lhs rhs : List Nat) (fd : FastDivideNormalized) :
    (simpleDivRem W lhs rhs fd).result = Ibig.simpleDivRem W lhs rhs fd := by
  unfold simpleDivRem Ibig.simpleDivRem
  refine result_bind (result_pass _ _) (fun _ => ?_)
  refine result_bind (result_pass _ _) (fun _ => ?_)
  refine result_bind (result_pass _ _) (fun _ => ?_)
  refine result_bind (result_pass _ _) (fun _ => ?_)
  refine result_bind (simpleDivTop_result _ _ _) ?_
  rintro ⟨l, o⟩
  exact result_bind (simpleDivLoop_result _ _ _ _ _ _ _) (fun _ => rfl)

theorem dcFixLoop_result (W : Nat) (rhs : List Nat) (fuel : Nat) :
    ∀ rem q ro qo, (dcFixLoop W rhs fuel rem q ro qo).result = Ibig.dcFixLoop W rhs fuel rem q ro qo := by
  induction fuel with
  | zero => intros; rfl
  | succ fuel ih =>
    intro rem q ro qo
    rw [dcFixLoop, Ibig.dcFixLoop]
    refine result_ite (fun _ => ?_) (fun _ => rfl)
    refine result_bind (addSameLen_result _ _ _) ?_
    rintro ⟨rem, c⟩
    refine (result_bind_ok (subOne_result _ _) _).trans ?_
    generalize Ibig.subOne W q = p
    obtain ⟨q, b⟩ := p
    refine result_bind (result_pass _ _) (fun _ => ?_)
    exact result_bind (result_pass _ _) (fun _ => ih _ _ _ _)

theorem dcSubTop_result (W : Nat) (rem rhsLo : List Nat) (m : Nat) (qo ro : Int) :
    (dcSubTop W rem rhsLo m qo ro).result = Ibig.dcSubTop W rem rhsLo m qo ro := by
  unfold dcSubTop Ibig.dcSubTop
  refine result_ite (fun _ => ?_) (fun _ => rfl)
  refine result_bind (by erase_leaf) ?_
  rintro ⟨l, o⟩
  exact result_bind (result_pass _ _) (fun _ => rfl)

theorem dcSmallQuotient_result (W : Nat) {same : List Nat → List Nat → Timed (List Nat × Bool)}
    {same' : List Nat → List Nat → R (List Nat × Bool)} (h : ∀ l r, (same l r).result = same' l r)
    (lhs rhs : List Nat) (fd : FastDivideNormalized) (mem : Nat) :
    (dcSmallQuotient W same lhs rhs fd mem).result = Ibig.dcSmallQuotient W same' lhs rhs fd mem := by
  unfold dcSmallQuotient Ibig.dcSmallQuotient
  refine result_bind (result_pass _ _) (fun _ => ?_)
  refine result_bind (result_pass _ _) (fun _ => ?_)
  refine result_ite (fun _ => simpleDivRem_result _ _ _ _) (fun _ => ?_)
  refine result_bind (result_pass _ _) (fun _ => ?_)
  refine result_bind (result_onSlice _ _ _ fun _ => h _ _) ?_
  rintro ⟨l, o⟩
  refine result_bind (result_pass _ _) ?_
  rintro ⟨rem, q⟩
  refine result_bind (result_pass _ _) (fun _ => ?_)
  refine result_bind (addSignedMul_erases W _ _ _ _ _) ?_
  rintro ⟨rem, ro⟩
  refine result_bind (dcSubTop_result _ _ _ _ _ _) ?_
  rintro ⟨rem, ro⟩
  refine result_bind (dcFixLoop_result _ _ _ _ _ _ _) ?_
  rintro ⟨rem, q, ro, qo⟩
  exact result_bind (result_pass _ _) (fun _ => rfl)

theorem dcSameLen_result {small : List Nat → List Nat → Timed (List Nat × Bool)}
    {small' : List Nat → List Nat → R (List Nat × Bool)} (h : ∀ l r, (small l r).result = small' l r)
    (lhs rhs : List Nat) : (dcSameLen small lhs rhs).result = Ibig.dcSameLen small' lhs rhs := by
  unfold dcSameLen Ibig.dcSameLen
  refine result_bind (result_pass _ _) (fun _ => ?_)
  refine result_bind (result_onSlice _ _ _ fun _ => h _ _) ?_
  rintro ⟨l, o⟩
  refine result_bind (result_onSlice _ _ _ fun _ => h _ _) ?_
  rintro ⟨l, o⟩
  exact result_bind (result_pass _ _) (fun _ => rfl)

theorem dcSmall_result (W : Nat) (fd : FastDivideNormalized) (mem fuel : Nat) :
    ∀ l r, (dcSmall W fd mem fuel l r).result = Ibig.dcSmall W fd mem fuel l r := by
  induction fuel with
  | zero => intros; rfl
  | succ fuel ih =>
    intro l r
    rw [dcSmall, Ibig.dcSmall]
    exact dcSmallQuotient_result W (fun l r => dcSameLen_result ih l r) l r fd mem

theorem dcLoop_result (W : Nat) (fd : FastDivideNormalized) (mem : Nat) (rhs : List Nat) (fuel : Nat) :
    ∀ lhs m o, (dcLoop W fd mem rhs fuel lhs m o).result = Ibig.dcLoop W fd mem rhs fuel lhs m o := by
  induction fuel with
  | zero => intros; rfl
  | succ fuel ih =>
    intro lhs m o
    rw [dcLoop, Ibig.dcLoop]
    refine result_ite (fun _ => ?_) (fun _ => rfl)
    refine result_bind (result_onSlice _ _ _ fun _ => dcSameLen_result (dcSmall_result _ _ _ _) _ _) ?_
    rintro ⟨l, o⟩
    exact result_bind (result_pass _ _) (fun _ => ih _ _ _)

theorem dcDivRem_result (W : Nat) (lhs rhs : List Nat) (fd : FastDivideNormalized) (mem : Nat) :
    (dcDivRem W lhs rhs fd mem).result = Ibig.dcDivRem W lhs rhs fd mem := by
  unfold dcDivRem Ibig.dcDivRem
  refine result_bind (result_pass _ _) (fun _ => ?_)
  refine result_bind (result_pass _ _) (fun _ => ?_)
  refine result_bind (dcLoop_result _ _ _ _ _ _ _ _) ?_
  rintro ⟨l, m, o⟩
  refine result_ite (fun _ => ?_) (fun _ => rfl)
  refine result_bind (result_onSlice _ _ _ fun _ => dcSmall_result _ _ _ _ _ _) ?_
  rintro ⟨l, o⟩
  exact result_bind (result_pass _ _) (fun _ => rfl)

theorem divRemInPlace_result (W : Nat) (lhs rhs : List Nat) (fd : FastDivideNormalized) (mem : Nat) :
    (divRemInPlace W lhs rhs fd mem).result = Ibig.divRemInPlace W lhs rhs fd mem := by
  unfold divRemInPlace Ibig.divRemInPlace
  refine result_bind (result_pass _ _) (fun _ => ?_)
  exact result_ite (fun _ => simpleDivRem_result _ _ _ _) (fun _ => dcDivRem_result _ _ _ _ _)

end Ibig.Timed
