import Verif.Proofs.MulTime
import Verif.Proofs.MulPower
import Verif.Proofs.Buffer
import Verif.Model.MulOpsTime
/-!
The number of steps of the operators `*`.
-/
namespace Ibig.Timed

theorem UBig.mulLargeWord_result (cfg : Cfg) (b : Buffer) (a : Nat) :
    (UBig.mulLargeWord cfg b a).result = Ibig.UBig.mulLargeWord cfg b a := by
  unfold UBig.mulLargeWord Ibig.UBig.mulLargeWord
  by_cases h0 : a = 0
  · rw [if_pos h0, if_pos h0]; rfl
  · rw [if_neg h0, if_neg h0]
    by_cases h1 : a = 1
    · rw [if_pos h1, if_pos h1]; exact result_pass _ _
    · rw [if_neg h1, if_neg h1]
      refine (result_bind_ok (mulWord_result _ _ _) _).trans ?_
      generalize Ibig.mulWord cfg.W b.words a = p
      obtain ⟨ws, k⟩ := p
      dsimp only
      by_cases hk : k ≠ 0
      · rw [if_pos hk, if_pos hk]
        exact result_bind (result_pass _ _) (fun _ => result_pass _ _)
      · rw [if_neg hk, if_neg hk]
        exact result_pass _ _

theorem UBig.mulLarge_result (cfg : Cfg) (a b : List Nat) :
    (UBig.mulLarge cfg a b).result = Ibig.UBig.mulLarge cfg a b := by
  unfold UBig.mulLarge Ibig.UBig.mulLarge
  refine result_bind (result_pass _ _) (fun _ => ?_)
  refine result_bind (result_pass _ _) (fun _ => ?_)
  refine result_bind (result_pass _ _) (fun _ => ?_)
  refine result_bind (result_pass _ _) (fun _ => ?_)
  refine result_bind (addSignedMul_erases cfg.W _ _ _ _ _) ?_
  rintro ⟨ws, k⟩
  exact result_bind (result_pass _ _) (fun _ => result_pass _ _)

theorem UBig.mul_result (cfg : Cfg) (o1 o2 : Own) (a b : UBig) :
    (UBig.mul cfg o1 o2 a b).result = Ibig.UBig.mul cfg o1 o2 a b := by
  cases o1 <;> cases o2 <;> cases a <;> cases b <;>
    first
    | exact result_pass _ _
    | exact UBig.mulLargeWord_result _ _ _
    | exact UBig.mulLarge_result _ _ _
    | exact result_bind (result_pass _ _) (fun _ => UBig.mulLargeWord_result _ _ _)

theorem IBig.mul_result (cfg : Cfg) (o1 o2 : Own) (a b : IBig) :
    (IBig.mul cfg o1 o2 a b).result = Ibig.IBig.mul cfg o1 o2 a b := by
  cases o1 <;> cases o2 <;> exact result_bind (UBig.mul_result _ _ _ _ _) (fun _ => rfl)

theorem pushMayReallocate_words (cfg : Cfg) (b : Buffer) (w : Nat) :
    Post (Ibig.Buffer.pushMayReallocate cfg b w) (fun x => x.words = b.words ++ [w]) := by
  unfold Ibig.Buffer.pushMayReallocate
  refine Post.bind (P := fun x => x.words = b.words) ?_ (fun x hx => ?_)
  · unfold Ibig.Buffer.ensureCapacity
    refine Post.ite (fun _ => ?_) (fun _ => Post.ok rfl)
    unfold Ibig.Buffer.reallocate
    refine Post.bind (Post.true _) (fun _ _ => Post.bind (Post.true _) (fun _ _ => ?_))
    unfold Ibig.Buffer.cloneFrom
    exact Post.bind (Post.true _) (fun _ _ => Post.ok rfl)
  · unfold Ibig.Buffer.push
    refine Post.bind (Post.true _) (fun _ _ => Post.ok ?_)
    rw [← hx]

/-- A bound for the steps of `*`. -/
noncomputable def mulBound (n m : ℕ) : ℝ := 27 * (n + m) * ((min n m : ℕ) : ℝ) ^ (47 / 100 : ℝ)

theorem mulBound_comm (n m : ℕ) : mulBound n m = mulBound m n := by
  unfold mulBound
  rw [Nat.min_comm, add_comm (n : ℝ)]

theorem mulBound_mono {n n' m m' : ℕ} (h : n ≤ n') (h' : m ≤ m') : mulBound n m ≤ mulBound n' m' := by
  unfold mulBound
  have h1 : (n : ℝ) ≤ n' := by exact_mod_cast h
  have h2 : (m : ℝ) ≤ m' := by exact_mod_cast h'
  have h3 : ((min n m : ℕ) : ℝ) ≤ ((min n' m' : ℕ) : ℝ) := by
    have : min n m ≤ min n' m' := by omega
    exact_mod_cast this
  have h4 := Real.rpow_le_rpow (Nat.cast_nonneg _) h3 (show (0 : ℝ) ≤ 47 / 100 by norm_num)
  have h5 : (0 : ℝ) ≤ n := Nat.cast_nonneg n
  have h6 : (0 : ℝ) ≤ m := Nat.cast_nonneg m
  exact mul_le_mul (by linarith) h4 (Real.rpow_nonneg (Nat.cast_nonneg _) _) (by linarith)

theorem le_mulBound_one {n m : ℕ} (hn : 1 ≤ n) (hm : 1 ≤ m) : 27 * ((n : ℝ) + m) ≤ mulBound n m := by
  unfold mulBound
  have h := one_le_rpow47 (b := min n m) (by omega)
  have h5 : (0 : ℝ) ≤ n := Nat.cast_nonneg n
  have h6 : (0 : ℝ) ≤ m := Nat.cast_nonneg m
  nlinarith

theorem UBig.mulWord_steps (cfg : Cfg) (a b : Nat) {r : UBig} {k : Nat}
    (h : UBig.mulWord cfg a b = .ok (r, k)) : (k : ℝ) ≤ mulBound 1 1 := by
  have : Takes (UBig.mulWord cfg a b) 8 (fun _ => True) := Takes.pass (Post.true _)
  have h8 : (k : ℝ) ≤ 8 := by exact_mod_cast (this r k h).1
  have := le_mulBound_one (le_refl 1) (le_refl 1)
  push_cast at this
  linarith

theorem UBig.mulLargeWord_takes (cfg : Cfg) (b : Buffer) (a : Nat) :
    Takes (UBig.mulLargeWord cfg b a) (4 * b.words.length + 7) (fun _ => True) := by
  unfold UBig.mulLargeWord
  refine Takes.ite (fun _ => Takes.pure trivial) (fun _ => Takes.ite (fun _ => ?_) (fun _ => ?_))
  · exact (Takes.pass (Post.true _)).mono (by omega) (fun _ h => h)
  · refine Takes.bind (takes_mulWord cfg.W b.words a) (by omega) ?_
    rintro ⟨ws, k⟩ M hM hl
    dsimp only at hl ⊢
    refine Takes.ite (fun _ => ?_) (fun _ => ?_)
    · refine Takes.bind (n := b.words.length + 2) (P := fun x => x.words.length = b.words.length + 1) ?_ (by omega) ?_
      · rw [← hl]
        refine (Takes.pass (n := ws.length + 2) ?_)
        refine (pushMayReallocate_words _ _ _).mono (fun x hx => ?_)
        rw [hx, List.length_append]
        rfl
      · intro x M' hM' hx
        exact (Takes.pass (Post.true _)).mono (by omega) (fun _ h => h)
    · exact (Takes.pass (Post.true _)).mono (by dsimp only; omega) (fun _ h => h)

theorem UBig.mulLarge_steps (cfg : Cfg) (a b : List Nat) {r : UBig} {k : Nat}
    (h : UBig.mulLarge cfg a b = .ok (r, k)) : (k : ℝ) ≤ mulBound a.length b.length := by
  have key : Takes (UBig.mulLarge cfg a b)
      (3 * (a.length + b.length) + 7 +
        mulCost2 (mulDepth (min a.length b.length)) (max a.length b.length) (min a.length b.length))
      (fun _ => 2 ≤ a.length ∧ 2 ≤ b.length) := by
    unfold UBig.mulLarge
    refine Takes.bind (takes_assertR _) (by omega) ?_
    rintro - M hM h2
    refine Takes.bind (n := 1) (P := fun x => x.words = []) (Takes.pass ?_) (by omega) ?_
    · unfold Ibig.Buffer.allocate
      refine Post.ite (fun _ => Post.error) (fun _ => ?_)
      exact Post.bind (Post.true _) (fun _ _ => Post.ok rfl)
    intro x M1 hM1 hx
    refine Takes.bind (n := a.length + b.length + 1) (P := fun x => x.words.length = a.length + b.length)
      (Takes.pass ?_) (by omega) ?_
    · unfold Ibig.Buffer.pushZeros
      refine Post.bind (Post.true _) (fun _ _ => Post.bind (Post.true _) (fun _ _ => Post.ok ?_))
      simp [hx]
    intro y M2 hM2 hy
    refine Takes.bind (n := 1) (P := fun _ => True) (Takes.pass (Post.true _)) (by omega) ?_
    rintro mem M3 hM3 -
    refine Takes.bind (takes_addSignedMulFuel cfg.W _ y.words .pos a b mem) (by omega) ?_
    rintro ⟨ws, o⟩ M4 hM4 hws
    refine Takes.bind (takes_assertR _) (by omega) ?_
    rintro - M5 hM5 -
    exact (Takes.pass (Post.true _)).mono (by dsimp only at hws ⊢; omega) (fun _ _ => h2)
  obtain ⟨h1, h2, h3⟩ := key r k h
  have h4 := mulCost2_le (mulDepth (min a.length b.length)) (a := max a.length b.length) (b := min a.length b.length)
    (by omega) (by omega)
  unfold mulBound
  have hP := one_le_rpow47 (b := min a.length b.length) (by omega)
  have h5 : ((max a.length b.length : ℕ) : ℝ) + ((min a.length b.length : ℕ) : ℝ) = a.length + b.length := by
    have : max a.length b.length + min a.length b.length = a.length + b.length := by omega
    exact_mod_cast this
  rw [h5] at h4
  have h1' : (k : ℝ) ≤ 3 * (a.length + b.length) + 7 +
      mulCost2 (mulDepth (min a.length b.length)) (max a.length b.length) (min a.length b.length) := by
    exact_mod_cast h1
  generalize ((min a.length b.length : ℕ) : ℝ) ^ (47 / 100 : ℝ) = P at *
  have h2' : (2 : ℝ) ≤ a.length := by exact_mod_cast h2
  have h3' : (2 : ℝ) ≤ b.length := by exact_mod_cast h3
  nlinarith

/-- a product with a number of one word, which may first be copied -/
theorem UBig.mulLargeWord_steps {x : Timed UBig} {b : Buffer} (h2 : 2 ≤ b.words.length)
    (hx : Takes x (5 * b.words.length + 8) (fun _ => True)) {r : UBig} {k : Nat} (h : x = .ok (r, k)) :
    (k : ℝ) ≤ mulBound b.words.length 1 := by
  have h1 : (k : ℝ) ≤ 5 * b.words.length + 8 := by exact_mod_cast (hx r k h).1
  have h3 := le_mulBound_one (n := b.words.length) (m := 1) (by omega) (le_refl 1)
  have h4 : (2 : ℝ) ≤ b.words.length := by exact_mod_cast h2
  push_cast at h3
  linarith

theorem clone_takes (cfg : Cfg) (b : Buffer) (a : Nat) :
    Takes (do let b ← Buffer.clone cfg b; UBig.mulLargeWord cfg b a) (5 * b.words.length + 8) (fun _ => True) := by
  refine Takes.bind (n := b.words.length + 1) (P := fun x => x.words = b.words) (Takes.pass ?_) (by omega) ?_
  · unfold Ibig.Buffer.clone
    refine Post.bind (Post.true _) (fun _ _ => ?_)
    unfold Ibig.Buffer.cloneFrom
    exact Post.bind (Post.true _) (fun _ _ => Post.ok rfl)
  · intro x M hM hx
    exact (UBig.mulLargeWord_takes cfg x a).mono (by rw [hx]; omega) (fun _ h => h)

theorem UBig.mul_steps {cfg : Cfg} (o1 o2 : Own) {a b : UBig} (ha : a.WF cfg) (hb : b.WF cfg) {r : UBig} {k : Nat}
    (h : UBig.mul cfg o1 o2 a b = .ok (r, k)) : (k : ℝ) ≤ mulBound a.len b.len := by
  have word : ∀ (c : Buffer) (w : Nat), c.WF cfg → UBig.mulLargeWord cfg c w = .ok (r, k) →
      (k : ℝ) ≤ mulBound c.words.length 1 := fun c w hc h =>
    UBig.mulLargeWord_steps hc.two ((UBig.mulLargeWord_takes cfg c w).mono (by omega) (fun _ h => h)) h
  have wordC : ∀ (c : Buffer) (w : Nat), c.WF cfg →
      (do let b ← Buffer.clone cfg c; UBig.mulLargeWord cfg b w : Timed UBig) = .ok (r, k) →
      (k : ℝ) ≤ mulBound c.words.length 1 := fun c w hc h =>
    UBig.mulLargeWord_steps hc.two (clone_takes cfg c w) h
  cases o1 <;> cases o2 <;> cases a <;> cases b <;>
    first
    | exact UBig.mulWord_steps _ _ _ h
    | exact word _ _ ha h
    | exact wordC _ _ ha h
    | exact (word _ _ hb h).trans (le_of_eq (mulBound_comm _ _))
    | exact (wordC _ _ hb h).trans (le_of_eq (mulBound_comm _ _))
    | exact UBig.mulLarge_steps _ _ _ h
    | exact (UBig.mulLarge_steps _ _ _ h).trans (le_of_eq (mulBound_comm _ _))

theorem IBig.mul_steps {cfg : Cfg} (o1 o2 : Own) {a b : IBig} (ha : a.WF cfg) (hb : b.WF cfg) {r : IBig} {k : Nat}
    (h : IBig.mul cfg o1 o2 a b = .ok (r, k)) : (k : ℝ) ≤ mulBound a.mag.len b.mag.len := by
  have key : ∀ (x : Timed UBig) (s : Sign) (B : ℝ),
      (∀ m l, x = .ok (m, l) → (l : ℝ) ≤ B) →
      (do let m ← x; pure (Ibig.IBig.fromSignMagnitude s m) : Timed IBig) = .ok (r, k) → (k : ℝ) ≤ B := by
    intro x s B hx hr
    rcases x with e | ⟨m, l⟩
    · cases hr
    · cases hr
      exact hx m l rfl
  cases o1 <;> cases o2
  · exact key _ _ _ (fun m l hm => UBig.mul_steps .val .val ha.mag hb.mag hm) h
  · exact key _ _ _ (fun m l hm => UBig.mul_steps .val .ref ha.mag hb.mag hm) h
  · exact key _ _ _ (fun m l hm => (UBig.mul_steps .val .ref hb.mag ha.mag hm).trans
      (le_of_eq (mulBound_comm _ _))) h
  · exact key _ _ _ (fun m l hm => UBig.mul_steps .ref .ref ha.mag hb.mag hm) h

/-- A number below `2^(n W)` has at most `n` words. -/
theorem UBig.len_le {cfg : Cfg} (hv : cfg.Valid) {a : UBig} (ha : a.WF cfg) {n : Nat} (hn : 1 ≤ n)
    (h : a.value cfg < 2 ^ (n * cfg.W)) : a.len ≤ n := by
  cases a with
  | small w => exact hn
  | large b =>
    have hb : b.WF cfg := ha
    have h1 : base cfg.W ^ (b.words.length - 1) ≤ val cfg.W b.words :=
      val_top_ge (by intro e; have := hb.two; rw [e] at this; simp at this) hb.top
    have h2 : val cfg.W b.words < base cfg.W ^ n := by
      unfold base
      rw [← pow_mul, mul_comm]
      exact h
    have h3 : base cfg.W ^ (b.words.length - 1) < base cfg.W ^ n := lt_of_le_of_lt h1 h2
    have h4 := (Nat.pow_lt_pow_iff_right (two_le_base (by rcases hv.word with h | h | h <;> omega))).mp h3
    show b.words.length ≤ n
    omega

end Ibig.Timed
