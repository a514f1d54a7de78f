import Verif.Model.DivTime
import Verif.Proofs.MulCost
/-!
The number of steps of division, as recurrences.
-/
namespace Ibig.Timed

theorem takes_lexCmp (l : List Nat) : ∀ r, Takes (lexCmp l r) l.length (fun _ => True) := by
  induction l with
  | nil => intro r; cases r <;> exact Takes.pure trivial
  | cons x xs ih =>
    intro r
    cases r with
    | nil => exact Takes.pure trivial
    | cons y ys =>
      rw [lexCmp, List.length_cons]
      refine Takes.bind takes_tick (by omega) (fun _ M hM _ => ?_)
      refine Takes.ite (fun _ => Takes.pure trivial) (fun _ => Takes.ite (fun _ => Takes.pure trivial) (fun _ => ?_))
      exact (ih ys).mono (by omega) (fun _ h => h)

theorem takes_cmpSameLen (l r : List Nat) : Takes (cmpSameLen l r) (l.length + 1) (fun _ => True) := by
  refine Takes.bind (takes_assertR _) (by omega) (fun _ M hM _ => ?_)
  exact (takes_lexCmp _ _).mono (by rw [List.length_reverse]; omega) (fun _ h => h)

theorem takes_fastRemLoop (W : Nat) (fd : FastDivideNormalized) (l : List Nat) :
    ∀ k, Takes (fastRemLoop W fd l k) l.length (fun _ => True) := by
  induction l with
  | nil => intro k; exact Takes.pure trivial
  | cons w ws ih =>
    intro k
    rw [fastRemLoop, List.length_cons]
    refine Takes.bind (ih _) (by omega) (fun r M hM h => ?_)
    refine Takes.bind (Takes.pass (Post.true _)) (by omega) ?_
    rintro ⟨q, r⟩ _ _ _
    exact Takes.pure trivial

theorem takes_remByWord (W : Nat) (l : List Nat) (x : Nat) :
    Takes (remByWord W l x) (l.length + 3) (fun _ => True) := by
  unfold remByWord
  refine Takes.bind (takes_assertR _) (by omega) (fun _ M hM _ => ?_)
  cases l with
  | nil => exact Takes.pure trivial
  | cons w ws =>
    refine Takes.ite (fun _ => Takes.pure trivial) (fun _ => ?_)
    refine Takes.bind (Takes.pass (Post.true _)) (by omega) (fun fd M' hM' _ => ?_)
    refine Takes.bind (n := (w :: ws).length) (P := fun _ => True) ?_ (by omega) (fun r M2 hM2 _ => ?_)
    · unfold fastRemByNormalizedWord
      cases (w :: ws).getLast? with
      | none => exact Takes.pure trivial
      | some y =>
        refine (takes_fastRemLoop _ _ _ _).mono ?_ (fun _ h => h)
        rw [List.length_dropLast]
        omega
    · refine Takes.bind (Takes.pass (Post.true _)) (by omega) ?_
      rintro ⟨q, r⟩ _ _ _
      exact Takes.pure trivial

/-- the top word of a normalised divisor has its top bit set -/
def TopNorm (W : Nat) (rhs : List Nat) : Prop := ∀ x, rhs.getLast? = some x → base W ≤ 2 * x

theorem TopNorm.getR {W : Nat} {rhs : List Nat} (h : TopNorm W rhs) :
    Takes (getR rhs (rhs.length - 1)) 1 (fun x => base W ≤ 2 * x) := by
  refine Takes.pass ?_
  unfold Ibig.getR
  rw [← List.getLast?_eq_getElem?]
  cases e : rhs.getLast? with
  | none => exact Post.error
  | some x => exact Post.ok (h x e)

theorem TopNorm.slice {W : Nat} {rhs : List Nat} (h : TopNorm W rhs) (i : Nat) :
    Takes (sliceR rhs i rhs.length) 1 (fun s => s.length = rhs.length - i ∧ i ≤ rhs.length ∧ TopNorm W s) := by
  refine Takes.pass ?_
  unfold Ibig.sliceR
  refine Post.ite (fun hi => Post.ok ⟨?_, hi.1, ?_⟩) (fun _ => Post.error)
  · simp only [List.length_take, List.length_drop]
    omega
  · intro x hx
    rw [List.take_length, List.getLast?_drop] at hx
    by_cases hl : rhs.length ≤ i
    · rw [if_pos hl] at hx
      cases hx
    · rw [if_neg hl] at hx
      exact h x hx

/-- With a normalised divisor the estimate is corrected at most twice. -/
theorem takes_refineQ {W rhs0 rhs1 lhs2 : Nat} (h : base W ≤ 2 * rhs0) (q r : Nat) :
    Takes (refineQ W rhs0 rhs1 lhs2 q r) 2 (fun _ => True) := by
  cases q with
  | zero => exact Takes.pure trivial
  | succ q =>
    rw [refineQ]
    refine Takes.bind takes_tick (by omega) (fun _ M hM _ => ?_)
    refine Takes.ite (fun _ => Takes.ite (fun h1 => ?_) (fun _ => Takes.pure trivial)) (fun _ => Takes.pure trivial)
    cases q with
    | zero => exact Takes.pure trivial
    | succ q =>
      rw [refineQ]
      refine Takes.bind takes_tick (by omega) (fun _ M' hM' _ => ?_)
      refine Takes.ite (fun _ => Takes.ite (fun h2 => ?_) (fun _ => Takes.pure trivial)) (fun _ => Takes.pure trivial)
      omega

theorem takes_estimateQ {W : Nat} {fd : FastDivideNormalized} {rhs0 rhs1 : Nat} (h : base W ≤ 2 * rhs0)
    (lhs0 lhs1 lhs2 : Nat) : Takes (estimateQ W fd rhs0 rhs1 lhs0 lhs1 lhs2) 3 (fun _ => True) := by
  unfold estimateQ
  refine Takes.ite (fun _ => ?_) (fun _ => Takes.pure trivial)
  refine Takes.bind (Takes.pass (Post.true _)) (by omega) ?_
  rintro ⟨q, r⟩ M hM _
  exact (takes_refineQ h q r).mono (by omega) (fun _ h => h)

theorem takes_correctQ (W : Nat) (lhs rhs : List Nat) (i j q borrow lhs0 : Nat) :
    Takes (correctQ W lhs rhs i j q borrow lhs0) (j - i + 6) (fun p => p.1.length = lhs.length) := by
  unfold correctQ
  refine Takes.ite (fun _ => ?_) (fun _ => ?_)
  · refine Takes.bind (Takes.pass (Post.true _)) (by omega) (fun q M hM _ => ?_)
    tpair takes_onAddSameLen W lhs i j rhs => l c
    tone takes_assertR _ => _u
    refine Takes.bind (Takes.pass (Post.true _)) (by omega) (fun b M hM _ => ?_)
    tone takes_assertR _ => _u
    exact Takes.pure (by dsimp only; omega)
  · tone takes_assertR _ => _u
    exact Takes.pure rfl

theorem takes_simpleDivLoop {W : Nat} {fd : FastDivideNormalized} {rhs : List Nat} {rhs0 rhs1 : Nat}
    (h : base W ≤ 2 * rhs0) (k : Nat) :
    ∀ lhs, Takes (simpleDivLoop W fd rhs rhs0 rhs1 k lhs) (k * (2 * rhs.length + 16))
      (fun l => l.length = lhs.length) := by
  induction k with
  | zero => intro lhs; exact Takes.pure rfl
  | succ k ih =>
    intro lhs
    rw [simpleDivLoop, Nat.succ_mul]
    tone takes_getR _ _ => x0
    tone takes_getR _ _ => x1
    tone takes_getR _ _ => x2
    tone takes_estimateQ h _ _ _ => q
    tpair takes_onSubMulWordSameLen W lhs _ _ q rhs => l1 b
    tpair takes_correctQ W l1 rhs _ _ q b x0 => l2 q2
    tone takes_setR _ _ _ => l3
    exact (ih l3).mono (by omega) (fun _ h => by omega)

theorem takes_simpleDivTop (W : Nat) (lhs rhs : List Nat) (h : rhs.length ≤ lhs.length) :
    Takes (simpleDivTop W lhs rhs) (2 * rhs.length + 6) (fun p => p.1.length = lhs.length) := by
  unfold simpleDivTop
  tone takes_sliceR _ _ _ => top
  tone takes_cmpSameLen top rhs => o
  refine Takes.ite (fun _ => Takes.pure rfl) (fun _ => ?_)
  tpair takes_onPass' (c := lhs) (i := lhs.length - rhs.length) (j := lhs.length) 1
    (fun s => takes_subSameLen W s rhs) => l c
  tone takes_assertR _ => _u
  exact Takes.pure (by dsimp only; omega)

/-- schoolbook division: `k` words of quotient, `n` words of divisor -/
def simpleDivCost (n k : Nat) : Nat := k * (2 * n + 16) + 2 * n + 10

theorem takes_simpleDivRem {W : Nat} {lhs rhs : List Nat} {fd : FastDivideNormalized} (h : TopNorm W rhs) :
    Takes (simpleDivRem W lhs rhs fd) (simpleDivCost rhs.length (lhs.length - rhs.length))
      (fun p => p.1.length = lhs.length) := by
  unfold simpleDivRem simpleDivCost
  generalize hm : (lhs.length - rhs.length) * (2 * rhs.length + 16) = m
  tone takes_assertR _ => _u
  refine Takes.bind h.getR (by omega) (fun rhs0 M hM h0 => ?_)
  tone takes_getR _ _ => rhs1
  tone takes_assertR _ => _u
  tpair takes_simpleDivTop W lhs rhs (by assumption) => l o
  refine Takes.bind (takes_simpleDivLoop h0 (l.length - rhs.length) l) ?_ (fun l2 _ _ h2 => Takes.pure ?_)
  · have e : l.length = lhs.length := by assumption
    rw [e, hm]
    omega
  · dsimp only at h2 ⊢
    omega

theorem takes_dcFixLoop (W : Nat) (rhs : List Nat) (fuel : Nat) :
    ∀ rem q ro qo, Takes (dcFixLoop W rhs fuel rem q ro qo) (fuel * (rem.length + q.length + 3))
      (fun p => p.1.length = rem.length ∧ p.2.1.length = q.length) := by
  induction fuel with
  | zero => intros; exact Takes.throwT
  | succ fuel ih =>
    intro rem q ro qo
    rw [dcFixLoop, Nat.succ_mul]
    refine Takes.ite (fun _ => ?_) (fun _ => Takes.pure ⟨rfl, rfl⟩)
    tpair takes_addSameLen W rem rhs => rem1 c
    tpair takes_subOne W q => q1 b
    tone takes_ckInt _ _ => ro1
    tone takes_ckInt _ _ => qo1
    have e1 : rem1.length = rem.length := by assumption
    have e2 : q1.length = q.length := by assumption
    have := ih rem1 q1 ro1 qo1
    rw [e1, e2] at this
    exact this.mono (by omega) (fun _ h => h)

theorem takes_dcSubTop (W : Nat) (rem rhsLo : List Nat) (m : Nat) (qo ro : Int) :
    Takes (dcSubTop W rem rhsLo m qo ro) (rem.length - m + 3) (fun p => p.1.length = rem.length) := by
  unfold dcSubTop
  refine Takes.ite (fun _ => ?_) (fun _ => Takes.pure rfl)
  tpair takes_onPass' (c := rem) (i := m) (j := rem.length) 1 (fun s => takes_subSameLen W s rhsLo) => l b
  tone takes_ckInt _ _ => ro1
  exact Takes.pure (by dsimp only; omega)

/-- A bound for the steps of a division with `n` words of divisor and `m < n` words of quotient, as a
recurrence. -/
def dcCost : Nat → Nat → Nat → Nat
  | 0, _, _ => 0
  | fuel + 1, n, m =>
    if m ≤ 32 then simpleDivCost n m + 2
    else dcCost fuel m (m - m / 2) + dcCost fuel m (m / 2) +
      mulCost2 (mulDepth (min m (n - m))) (max m (n - m)) (min m (n - m)) + 17 * n + 45

/-- the same for the division of `2n` words by `n` words -/
def dcSameCost (fuel n : Nat) : Nat := dcCost fuel n (n - n / 2) + dcCost fuel n (n / 2) + 4

theorem takes_dcSameLen {W n : Nat} {small : List Nat → List Nat → Timed (List Nat × Bool)} {C : Nat → Nat → Nat}
    (h : ∀ l r, TopNorm W r → Takes (small l r) (C r.length (l.length - r.length)) (fun p => p.1.length = l.length))
    (lhs rhs : List Nat) (hr : TopNorm W rhs) (hn : rhs.length = n) :
    Takes (dcSameLen small lhs rhs) (C n (n - n / 2) + C n (n / 2) + 4) (fun p => p.1.length = lhs.length) := by
  unfold dcSameLen
  refine Takes.bind (takes_assertR _) (by omega) (fun _ M hM hl => ?_)
  refine Takes.bind (Takes.onSlice (l := lhs) (n := C n (n - n / 2)) (Q := True) (fun s hs _ _ => ?_)) (by omega) ?_
  · refine (h s rhs hr).mono ?_ (fun _ h => ⟨h, trivial⟩)
    rw [hs, hn]
    rw [show lhs.length - n / 2 - n = n - n / 2 by omega]
  rintro ⟨l1, o⟩ M1 hM1 h1
  dsimp only at h1 ⊢
  refine Takes.bind (Takes.onSlice (l := l1) (n := C n (n / 2)) (Q := True) (fun s hs _ _ => ?_)) (by omega) ?_
  · refine (h s rhs hr).mono ?_ (fun _ h => ⟨h, trivial⟩)
    rw [hs, hn]
    rw [show n + n / 2 - 0 - n = n / 2 by omega]
  rintro ⟨l2, o2⟩ M2 hM2 h2
  dsimp only at h2 ⊢
  tone takes_assertR _ => _u
  exact Takes.pure (by dsimp only; omega)

theorem takes_dcSmallQuotient {W : Nat} {same : List Nat → List Nat → Timed (List Nat × Bool)} {C : Nat → Nat}
    (h : ∀ l r, TopNorm W r → Takes (same l r) (C r.length) (fun p => p.1.length = l.length))
    (lhs rhs : List Nat) (fd : FastDivideNormalized) (mem : Nat) (hr : TopNorm W rhs) {n m : Nat}
    (hn : rhs.length = n) (hm : lhs.length - rhs.length = m) :
    Takes (dcSmallQuotient W same lhs rhs fd mem)
      (if m ≤ 32 then simpleDivCost n m + 2
      else C m + mulCost2 (mulDepth (min m (n - m))) (max m (n - m)) (min m (n - m)) + 17 * n + 41)
      (fun p => p.1.length = lhs.length) := by
  unfold dcSmallQuotient
  subst hn hm
  refine Takes.bind (takes_assertR _) (by split <;> omega) (fun _ M hM hl => ?_)
  refine Takes.bind (takes_assertR _) (by split at hM <;> omega) (fun _ M' hM' hmn => ?_)
  by_cases hs : lhs.length - rhs.length ≤ 32
  · rw [if_pos hs] at hM
    rw [if_pos (show lhs.length - rhs.length ≤ divMaxLenSimple from hs)]
    exact (takes_simpleDivRem hr).mono (by omega) (fun _ h => h)
  · rw [if_neg hs] at hM
    rw [if_neg (show ¬ lhs.length - rhs.length ≤ divMaxLenSimple from hs)]
    refine Takes.bind (hr.slice _) (by omega) ?_
    rintro rhsHi M1 hM1 ⟨h1, h2, h3⟩
    refine Takes.bind (Takes.onSlice (l := lhs) (n := C (lhs.length - rhs.length)) (Q := True)
      (fun s hs _ _ => ?_)) (by omega) ?_
    · refine (h s rhsHi h3).mono (le_of_eq ?_) (fun _ h => ⟨h, trivial⟩)
      congr 1
      omega
    rintro ⟨l1, qo⟩ M2 hM2 h4
    dsimp only at h4 ⊢
    refine Takes.bind (takes_splitR l1 rhs.length) (by omega) ?_
    rintro ⟨rem, q⟩ M3 hM3 h5
    dsimp only at h5 ⊢
    refine Takes.bind (takes_sliceR _ _ _) (by omega) ?_
    rintro rhsLo M4 hM4 h6
    have eq : q.length = lhs.length - rhs.length := by omega
    have er : rhsLo.length = rhs.length - (lhs.length - rhs.length) := by omega
    refine Takes.bind (takes_addSignedMulFuel W (mulDepth (min q.length rhsLo.length)) rem .neg q rhsLo mem) ?_ ?_
    · rw [eq, er]; omega
    rintro ⟨rem1, ro⟩ M5 hM5 h7
    rw [eq, er] at hM5
    dsimp only at h7 ⊢
    refine Takes.bind (takes_dcSubTop W rem1 rhsLo _ _ _) (by omega) ?_
    rintro ⟨rem2, ro2⟩ M6 hM6 h8
    dsimp only at h8 ⊢
    refine Takes.bind (takes_dcFixLoop W rhs 8 rem2 q ro2 _) (by omega) ?_
    rintro ⟨rem3, q3, ro3, qo3⟩ M7 hM7 h9
    dsimp only at h9 ⊢
    refine Takes.bind (takes_assertR _) (by omega) (fun _ _ _ _ => Takes.pure ?_)
    simp only [List.length_append]
    omega

theorem takes_dcSmall (W : Nat) (fd : FastDivideNormalized) (mem fuel : Nat) :
    ∀ lhs rhs, TopNorm W rhs → Takes (dcSmall W fd mem fuel lhs rhs)
      (dcCost fuel rhs.length (lhs.length - rhs.length)) (fun p => p.1.length = lhs.length) := by
  induction fuel with
  | zero => intros; exact Takes.throwT
  | succ fuel ih =>
    intro lhs rhs hr
    rw [dcSmall, dcCost]
    refine (takes_dcSmallQuotient (C := fun n => dcSameCost fuel n) (fun l r h => ?_) lhs rhs fd mem hr rfl
      rfl).mono (le_of_eq ?_) (fun _ h => h)
    · exact takes_dcSameLen (C := dcCost fuel) ih l r h rfl
    · unfold dcSameCost
      split
      · rfl
      · ring

theorem takes_dcLoop {W : Nat} {fd : FastDivideNormalized} {mem : Nat} {rhs : List Nat} (hr : TopNorm W rhs)
    (h0 : 0 < rhs.length) (fuel : Nat) :
    ∀ lhs m o, rhs.length ≤ m → Takes (dcLoop W fd mem rhs fuel lhs m o)
      ((m / rhs.length - 1) * (dcSameCost (bitLen rhs.length + 1) rhs.length + 2))
      (fun p => p.1.length = lhs.length ∧ p.2.1 < 2 * rhs.length ∧ rhs.length ≤ p.2.1) := by
  induction fuel with
  | zero => intros; exact Takes.throwT
  | succ fuel ih =>
    intro lhs m o hm
    rw [dcLoop]
    refine Takes.ite (fun h => ?_) (fun h => Takes.pure ⟨rfl, by dsimp only; omega, hm⟩)
    have e : m / rhs.length - 1 = (m - rhs.length) / rhs.length - 1 + 1 := by
      have h1 : m / rhs.length = (m - rhs.length) / rhs.length + 1 := by
        rw [← Nat.add_div_right _ h0]
        congr 1
        omega
      have h2 : 1 ≤ (m - rhs.length) / rhs.length := (Nat.one_le_div_iff h0).mpr (by omega)
      omega
    have e2 : (m / rhs.length - 1) * (dcSameCost (bitLen rhs.length + 1) rhs.length + 2) =
        ((m - rhs.length) / rhs.length - 1) * (dcSameCost (bitLen rhs.length + 1) rhs.length + 2) +
          (dcSameCost (bitLen rhs.length + 1) rhs.length + 2) := by
      rw [e, Nat.succ_mul]
    rw [e2]
    refine Takes.bind (Takes.onSlice (l := lhs) (n := dcSameCost (bitLen rhs.length + 1) rhs.length) (Q := True)
      (fun s hs _ _ => ?_)) (by omega) ?_
    · exact (takes_dcSameLen (C := dcCost (bitLen rhs.length + 1)) (takes_dcSmall W fd mem _) s rhs hr rfl).mono
        (le_refl _) (fun _ h => ⟨h, trivial⟩)
    rintro ⟨l1, o1⟩ M1 hM1 h1
    dsimp only at h1 ⊢
    tone takes_assertR _ => _u
    exact (ih l1 (m - rhs.length) _ (by omega)).mono (by omega) (fun _ h => ⟨by omega, h.2⟩)

theorem takes_dcDivRem {W : Nat} {lhs rhs : List Nat} {fd : FastDivideNormalized} {mem B : Nat}
    (hr : TopNorm W rhs) (hB : ∀ m < rhs.length, dcCost (bitLen rhs.length + 1) rhs.length m ≤ B) :
    Takes (dcDivRem W lhs rhs fd mem)
      ((lhs.length / rhs.length - 1) * (dcSameCost (bitLen rhs.length + 1) rhs.length + 2) + B + 4)
      (fun p => p.1.length = lhs.length) := by
  unfold dcDivRem
  refine Takes.bind (takes_assertR _) (by omega) (fun _ M hM hl => ?_)
  refine Takes.bind (takes_assertR _) (by omega) (fun _ M' hM' _ => ?_)
  refine Takes.bind (takes_dcLoop hr (by omega) _ lhs lhs.length false (by omega)) (by omega) ?_
  rintro ⟨l1, m, o⟩ M1 hM1 h1
  dsimp only at h1 ⊢
  refine Takes.ite (fun hm => ?_) (fun _ => Takes.pure h1.1)
  refine Takes.bind (Takes.onSlice (l := l1) (n := B) (Q := True) (fun s hs _ _ => ?_)) (by omega) ?_
  · exact (takes_dcSmall W fd mem _ s rhs hr).mono (hB _ (by omega)) (fun _ h => ⟨h, trivial⟩)
  rintro ⟨l2, o2⟩ M2 hM2 h2
  dsimp only at h2 ⊢
  tone takes_assertR _ => _u
  exact Takes.pure (by dsimp only; omega)

theorem takes_divRemInPlace {W : Nat} {lhs rhs : List Nat} {fd : FastDivideNormalized} {mem B : Nat}
    (hr : TopNorm W rhs) (hB : ∀ m < rhs.length, dcCost (bitLen rhs.length + 1) rhs.length m ≤ B) :
    Takes (divRemInPlace W lhs rhs fd mem)
      (if rhs.length ≤ 32 ∨ lhs.length - rhs.length ≤ 32 then
        simpleDivCost rhs.length (lhs.length - rhs.length) + 1
      else (lhs.length / rhs.length - 1) * (dcSameCost (bitLen rhs.length + 1) rhs.length + 2) + B + 5)
      (fun p => p.1.length = lhs.length ∧ rhs.length ≤ lhs.length ∧ 2 ≤ rhs.length) := by
  unfold divRemInPlace
  refine Takes.bind (takes_assertR _) (by split <;> omega) (fun _ M hM hl => ?_)
  by_cases hs : rhs.length ≤ 32 ∨ lhs.length - rhs.length ≤ 32
  · rw [if_pos (show rhs.length ≤ divMaxLenSimple ∨ lhs.length - rhs.length ≤ divMaxLenSimple from hs)]
    rw [if_pos hs] at hM
    exact (takes_simpleDivRem hr).mono (by omega) (fun _ h => ⟨h, hl⟩)
  · rw [if_neg (show ¬ (rhs.length ≤ divMaxLenSimple ∨ lhs.length - rhs.length ≤ divMaxLenSimple) from hs)]
    rw [if_neg hs] at hM
    exact (takes_dcDivRem hr hB).mono (by omega) (fun _ h => ⟨h, hl⟩)

end Ibig.Timed
