import Verif.Proofs.Counted
import Verif.Proofs.DivCost
import Verif.Proofs.AddOpsTime
/-!
Lower bounds on the numbers of steps of division.
-/
namespace Ibig.Timed

theorem Takes.sat {α : Type} {x : Timed α} {n : Nat} {P : α → Prop} (h : Takes x n P) : Sat x fun a _ => P a :=
  fun a k e => (h a k e).2

/-- A division of an operand of `n` words by one of `m` words takes at least `(n - m) m` steps while `m` or `n - m` is
at most `32`, and at least `n - m` steps otherwise. -/
def divLeast (n m : Nat) : Nat :=
  if m ≤ divMaxLenSimple ∨ n - m ≤ divMaxLenSimple then (n - m) * m else n - m

theorem sat_simpleDivRem (W : Nat) (lhs rhs : List Nat) (fd : FastDivideNormalized) :
    Sat (simpleDivRem W lhs rhs fd) fun _ k => (lhs.length - rhs.length) * rhs.length ≤ k := by
  unfold simpleDivRem
  dsimp only
  refine sat_assert.bind fun _ k0 h0 => (sat_any _).bind fun _ k1 _ => (sat_any _).bind fun _ k2 _ => ?_
  refine sat_assert.bind fun _ k3 h3 => ?_
  refine (Takes.sat (takes_simpleDivTop W lhs rhs h3.1)).bind fun p k4 h4 => ?_
  obtain ⟨lhs', carry⟩ := p
  dsimp only at h4 ⊢
  refine (sat_simpleDivLoop W fd rhs _ _ _ lhs').bind fun _ k5 h5 => ?_
  rw [h4] at h5
  exact sat_pure (by omega)

theorem sat_dcSameLen {small : List Nat → List Nat → Timed (List Nat × Bool)} {lhs rhs : List Nat}
    (hs : ∀ l, Sat (small l rhs) fun _ k => l.length - rhs.length ≤ k) :
    Sat (dcSameLen small lhs rhs) fun _ k => rhs.length ≤ k := by
  unfold dcSameLen
  dsimp only
  refine sat_assert.bind fun _ k0 h0 => ?_
  refine (sat_onSlice (n := rhs.length - rhs.length / 2) fun s e => (hs s).mono fun _ k hk => by omega).bind
    fun p k1 h1 => ?_
  obtain ⟨lhs', o⟩ := p
  refine (sat_onSlice (n := rhs.length / 2) fun s e => (hs s).mono fun _ k hk => by omega).bind fun p k2 h2 => ?_
  obtain ⟨lhs', o⟩ := p
  exact (sat_any _).bind fun _ k3 _ => sat_pure (by omega)

theorem sat_dcSmall (W : Nat) (fd : FastDivideNormalized) (mem : Nat) : ∀ (fuel : Nat) (lhs rhs : List Nat),
    Sat (dcSmall W fd mem fuel lhs rhs) fun _ k => lhs.length - rhs.length ≤ k
  | 0, _, _ => sat_throw
  | fuel + 1, lhs, rhs => by
    rw [dcSmall]
    unfold dcSmallQuotient
    dsimp only
    refine sat_assert.bind fun _ k0 h0 => sat_assert.bind fun _ k1 h1 => ?_
    refine sat_ite (fun _ => ?_) fun _ => ?_
    · refine (sat_simpleDivRem W lhs rhs fd).mono fun _ k hk => ?_
      have : lhs.length - rhs.length ≤ (lhs.length - rhs.length) * rhs.length :=
        Nat.le_mul_of_pos_right _ (by omega)
      omega
    · refine sat_slice.bind fun rhsHi k2 h2 => ?_
      refine (sat_onSlice fun s _ => sat_dcSameLen fun l => sat_dcSmall W fd mem fuel l rhsHi).bind fun p k3 h3 => ?_
      exact (sat_any _).mono fun _ k _ => by omega

theorem sat_dcLoop (W : Nat) (fd : FastDivideNormalized) (mem : Nat) (rhs : List Nat) : ∀ (fuel : Nat)
    (lhs : List Nat) (m : Nat) (o : Bool),
    Sat (dcLoop W fd mem rhs fuel lhs m o) fun p k => m ≤ p.2.1 + k
  | 0, _, _, _ => sat_throw
  | fuel + 1, lhs, m, o => by
    rw [dcLoop]
    dsimp only
    refine sat_ite (fun _ => ?_) fun _ => sat_pure (by dsimp only; omega)
    refine (sat_onSlice fun s _ => sat_dcSameLen fun l => sat_dcSmall W fd mem _ l rhs).bind fun p k h => ?_
    obtain ⟨lhs', o'⟩ := p
    refine (sat_any _).bind fun _ k1 _ => ?_
    exact (sat_dcLoop W fd mem rhs fuel lhs' _ _).mono fun p k hk => by omega

theorem sat_dcDivRem (W : Nat) (lhs rhs : List Nat) (fd : FastDivideNormalized) (mem : Nat) :
    Sat (dcDivRem W lhs rhs fd mem) fun _ k => lhs.length - rhs.length ≤ k := by
  unfold dcDivRem
  dsimp only
  refine sat_assert.bind fun _ k0 h0 => sat_assert.bind fun _ k1 h1 => ?_
  refine (sat_dcLoop W fd mem rhs _ lhs _ _).bind fun p k2 h2 => ?_
  obtain ⟨lhs', m, o⟩ := p
  dsimp only at h2 ⊢
  refine sat_ite (fun _ => ?_) fun _ => sat_pure (by omega)
  refine (sat_onSlice (n := m - rhs.length) fun s e => (sat_dcSmall W fd mem _ s rhs).mono
    fun _ k hk => by omega).bind fun p k3 h3 => ?_
  exact (sat_any _).mono fun _ k _ => by omega

theorem sat_divRemInPlace (W : Nat) (lhs rhs : List Nat) (fd : FastDivideNormalized) (mem : Nat) :
    Sat (divRemInPlace W lhs rhs fd mem) fun _ k => divLeast lhs.length rhs.length ≤ k := by
  unfold divRemInPlace divLeast
  refine sat_assert.bind fun _ k0 h0 => ?_
  refine sat_ite (fun h => ?_) fun h => ?_
  · rw [if_pos h]
    exact (sat_simpleDivRem W lhs rhs fd).mono fun _ k hk => by omega
  · rw [if_neg h]
    exact (sat_dcDivRem W lhs rhs fd mem).mono fun _ k hk => by omega

theorem divLeast_ge {n m : Nat} (hm : 2 ≤ m) : n - m ≤ divLeast n m := by
  unfold divLeast
  split
  · exact Nat.le_mul_of_pos_right _ (by omega)
  · exact le_refl _

theorem divLeast_simple {n l m : Nat} (h : m ≤ divMaxLenSimple ∨ n - m < divMaxLenSimple) (h1 : n ≤ l) (h2 : l ≤ n + 1) :
    (n - m) * m ≤ divLeast l m := by
  unfold divLeast
  rw [if_pos (by omega)]
  exact Nat.mul_le_mul_right m (by omega)

/-- The number of steps of a division of `n` words by `m` words -/
def DivSteps (n m k : Nat) : Prop :=
  n - m ≤ k ∧ (m ≤ divMaxLenSimple ∨ n - m < divMaxLenSimple → (n - m) * m ≤ k)

theorem DivSteps.mono {n m k l : Nat} (h : DivSteps n m k) (hl : k ≤ l) : DivSteps n m l :=
  ⟨h.1.trans hl, fun c => (h.2 c).trans hl⟩

theorem sat_pushCarry (cfg : Cfg) (b : Buffer) (w : Nat) :
    Sat (Buffer.pushCarry cfg b w) fun c _ => b.words.length ≤ c.words.length ∧ c.words.length ≤ b.words.length + 1 :=
  sat_ite (fun _ => (Takes.sat (takes_pushMay cfg b w)).mono fun _ _ h => by omega) fun _ => sat_pure (by omega)

theorem sat_divRemInLhs (cfg : Cfg) (lhs rhs : Buffer) :
    Sat (UBig.divRemInLhs cfg lhs rhs) fun p k =>
      p.2.1.words.length = rhs.words.length ∧ DivSteps lhs.words.length rhs.words.length k := by
  unfold UBig.divRemInLhs
  refine (sat_any _ |> fun (_ : Sat (normalizeLarge cfg.W rhs.words) _) =>
    (show Sat (normalizeLarge cfg.W rhs.words) fun p _ => p.1.length = rhs.words.length ∧ 2 ≤ rhs.words.length from ?_)).bind
      fun p k0 h0 => ?_
  · unfold normalizeLarge
    refine sat_assert.bind fun _ j0 hj => (sat_any _).bind fun _ j1 _ => ?_
    dsimp only
    refine (Takes.sat (takes_shlInPlace _ _ _)).bind fun q j2 h2 => ?_
    obtain ⟨ws, o⟩ := q
    exact (sat_any _).bind fun _ j3 _ => (sat_any _).bind fun _ j4 _ => (sat_any _).bind fun _ j5 _ =>
      sat_pure ⟨h2, hj.1⟩
  obtain ⟨rw', shift, fd⟩ := p
  dsimp only at h0 ⊢
  refine (Takes.sat (takes_shlInPlace _ _ _)).bind fun q k1 h1 => ?_
  obtain ⟨lw, carry⟩ := q
  dsimp only at h1 ⊢
  refine (sat_pushCarry cfg _ _).bind fun lhs' k2 h2 => ?_
  dsimp only at h2
  refine (sat_any _).bind fun req k3 _ => (sat_any _).bind fun mem k4 _ => ?_
  refine (sat_divRemInPlace cfg.W lhs'.words rw' fd mem).bind fun q k5 h5 => ?_
  obtain ⟨lw', o⟩ := q
  refine (sat_any _).bind fun _ k6 _ => sat_pure ⟨h0.1, ?_⟩
  rw [h0.1] at h5
  rw [h1] at h2
  refine DivSteps.mono (k := k5) ⟨?_, fun c => ?_⟩ (by omega)
  · have := divLeast_ge (n := lhs'.words.length) h0.2
    omega
  · exact (divLeast_simple c h2.1 h2.2).trans h5

theorem sat_divLarge (cfg : Cfg) (lhs rhs : Buffer) :
    Sat (UBig.divLarge cfg lhs rhs) fun _ k => DivSteps lhs.words.length rhs.words.length k := by
  unfold UBig.divLarge
  refine (sat_divRemInLhs cfg lhs rhs).bind fun p k h => ?_
  exact (sat_any _).mono fun _ l _ => h.2.mono (by omega)

theorem sat_remLarge (cfg : Cfg) (lhs rhs : Buffer) :
    Sat (UBig.remLarge cfg lhs rhs) fun _ k => DivSteps lhs.words.length rhs.words.length k := by
  unfold UBig.remLarge
  refine (sat_divRemInLhs cfg lhs rhs).bind fun p k h => ?_
  exact (sat_any _).mono fun _ l _ => h.2.mono (by omega)

theorem sat_divRemLarge (cfg : Cfg) (lhs rhs : Buffer) :
    Sat (UBig.divRemLarge cfg lhs rhs) fun _ k => DivSteps lhs.words.length rhs.words.length k := by
  unfold UBig.divRemLarge
  refine (sat_divRemInLhs cfg lhs rhs).bind fun p k h => ?_
  exact (sat_any _).mono fun _ l _ => h.2.mono (by omega)

theorem sat_own (cfg : Cfg) (o : Own) (b : Buffer) :
    Sat (Buffer.own cfg o b) fun c _ => c.words = b.words := Takes.sat (takes_own cfg o b)

theorem sat_div (cfg : Cfg) (o0 o1 : Own) (a b : Buffer) (h : b.len ≤ a.len) :
    Sat (UBig.div cfg o0 o1 (.large a) (.large b)) fun _ k => DivSteps a.words.length b.words.length k := by
  unfold UBig.div
  dsimp only
  rw [if_pos h]
  refine (sat_own cfg o0 a).bind fun a' k0 h0 => (sat_own cfg o1 b).bind fun b' k1 h1 => ?_
  refine (sat_divLarge cfg a' b').mono fun _ k hk => ?_
  rw [h0, h1] at hk
  exact hk.mono (by omega)

theorem sat_rem (cfg : Cfg) (o0 o1 : Own) (a b : Buffer) (h : b.len ≤ a.len) :
    Sat (UBig.rem cfg o0 o1 (.large a) (.large b)) fun _ k => DivSteps a.words.length b.words.length k := by
  unfold UBig.rem
  dsimp only
  rw [if_pos h]
  refine (sat_own cfg o0 a).bind fun a' k0 h0 => (sat_own cfg o1 b).bind fun b' k1 h1 => ?_
  refine (sat_remLarge cfg a' b').mono fun _ k hk => ?_
  rw [h0, h1] at hk
  exact hk.mono (by omega)

theorem sat_divRem (cfg : Cfg) (o0 o1 : Own) (a b : Buffer) (h : b.len ≤ a.len) :
    Sat (UBig.divRem cfg o0 o1 (.large a) (.large b)) fun _ k => DivSteps a.words.length b.words.length k := by
  unfold UBig.divRem
  dsimp only
  rw [if_pos h]
  refine (sat_own cfg o0 a).bind fun a' k0 h0 => (sat_own cfg o1 b).bind fun b' k1 h1 => ?_
  refine (sat_divRemLarge cfg a' b').mono fun _ k hk => ?_
  rw [h0, h1] at hk
  exact hk.mono (by omega)

theorem sat_mul (cfg : Cfg) (o0 o1 : Own) (a b : Buffer) :
    Sat (UBig.mul cfg o0 o1 (.large a) (.large b)) fun _ k =>
      mulLeast a.words.length b.words.length + (a.words.length + b.words.length) ≤ k := by
  cases o0 <;> cases o1
  · exact sat_mulLarge cfg _ _
  · exact sat_mulLarge cfg _ _
  · refine (sat_mulLarge cfg b.words a.words).mono fun _ k h => ?_
    rw [mulLeast_comm] at h
    omega
  · exact sat_mulLarge cfg _ _

end Ibig.Timed
