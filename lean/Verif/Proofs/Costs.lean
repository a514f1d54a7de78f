import Verif.Proofs.EuclidTime
import Verif.Proofs.MulOps
/-!
Reasoning about the number of steps with bounds that are real numbers: `Costs x B P`: if `x` returns, then after at
most `B` steps and with `P` of the result.
-/
namespace Ibig.Timed

/-- if `x` returns then after at most `B` steps and its result satisfies `P` -/
def Costs {α : Type} (x : Timed α) (B : ℝ) (P : α → Prop) : Prop := ∀ a k, x = .ok (a, k) → (k : ℝ) ≤ B ∧ P a

theorem Costs.bind {α β : Type} {x : Timed α} {f : α → Timed β} {P : α → Prop} {Q : β → Prop} {B C : ℝ}
    (hx : Costs x B P) (hf : ∀ a, P a → Costs (f a) C Q) : Costs (x >>= f) (B + C) Q := by
  intro b k hb
  rcases x with e | ⟨a, l⟩
  · cases hb
  · obtain ⟨hl, hP⟩ := hx a l rfl
    replace hb : (match f a with
      | .error e => Except.error e
      | .ok (b, m) => Except.ok (b, l + m) : R (β × Nat)) = .ok (b, k) := hb
    have := hf a hP
    generalize f a = y at hb this
    rcases y with e | ⟨b', m⟩
    · cases hb
    · cases hb
      obtain ⟨h1, h2⟩ := this b m rfl
      exact ⟨by push_cast; linarith, h2⟩

theorem Costs.step {α β : Type} {x : Timed α} {f : α → Timed β} {P : α → Prop} {Q : β → Prop} {B C : ℝ}
    (hx : Costs x B P) (hf : ∀ a, P a → Costs (f a) (C - B) Q) : Costs (x >>= f) C Q := by
  have := Costs.bind hx hf
  rwa [add_sub_cancel] at this

theorem Costs.mono {α : Type} {x : Timed α} {P Q : α → Prop} {B C : ℝ} (hx : Costs x B P) (hn : B ≤ C)
    (h : ∀ a, P a → Q a) : Costs x C Q := fun a k ha => ⟨(hx a k ha).1.trans hn, h a (hx a k ha).2⟩

theorem Costs.pure {α : Type} {a : α} {P : α → Prop} (h : P a) : Costs (pure a : Timed α) 0 P := by
  intro b k hb
  cases hb
  exact ⟨by simp, h⟩

theorem Costs.error {α : Type} {e : Panic} {P : α → Prop} {B : ℝ} : Costs (.error e : Timed α) B P := by
  intro b k hb
  cases hb

theorem Costs.ite {α : Type} {c : Prop} [Decidable c] {x y : Timed α} {P : α → Prop} {B : ℝ}
    (hx : c → Costs x B P) (hy : ¬ c → Costs y B P) : Costs (if c then x else y) B P := by
  by_cases h : c
  · rw [if_pos h]; exact hx h
  · rw [if_neg h]; exact hy h

theorem Takes.costs {α : Type} {x : Timed α} {n : ℕ} {P : α → Prop} (h : Takes x n P) : Costs x n P :=
  fun a k ha => ⟨by exact_mod_cast (h a k ha).1, (h a k ha).2⟩

theorem Costs.tick : Costs tick 1 (fun _ => True) := by
  intro a k h
  cases h
  exact ⟨by simp, trivial⟩

/-- a computation of the model that is counted as `n` steps -/
theorem Costs.pass {α : Type} {x : R α} {n : ℕ} {P : α → Prop} (h : Post x P) : Costs (pass n x) n P :=
  Takes.costs (Takes.pass h)

/-- a bound on the steps, and a property of the result -/
theorem Costs.of_post {α : Type} {x : Timed α} {y : R α} {B : ℝ} {P : α → Prop}
    (hs : ∀ r k, x = .ok (r, k) → (k : ℝ) ≤ B) (hr : x.result = y) (hp : Post y P) : Costs x B P :=
  fun a k h => ⟨hs a k h, hp a (by rw [← hr]; exact result_of_ok h)⟩

/-- a stronger property of the result, from the model -/
theorem Costs.post {α : Type} {x : Timed α} {y : R α} {B : ℝ} {P Q : α → Prop} (hx : Costs x B P)
    (hr : x.result = y) (hp : Post y Q) : Costs x B Q :=
  Costs.of_post (fun r k h => (hx r k h).1) hr hp

theorem Costs.and {α : Type} {x : Timed α} {y : R α} {B : ℝ} {P Q : α → Prop} (hx : Costs x B P)
    (hr : x.result = y) (hp : Post y Q) : Costs x B (fun a => P a ∧ Q a) :=
  fun a k h => ⟨(hx a k h).1, (hx a k h).2, hp a (by rw [← hr]; exact result_of_ok h)⟩

theorem Yields.post {cfg : Cfg} {x : R UBig} {n : ℕ} (h : Yields cfg x n) :
    Post x (fun c => c.WF cfg ∧ c.value cfg = n) := by
  intro c hc
  by_cases hf : Fits cfg n
  · obtain ⟨d, h1, h2⟩ := h.1 hf
    rw [hc] at h1
    cases h1
    exact h2
  · rw [h.2 hf] at hc
    cases hc

theorem costs_mul {cfg : Cfg} (hv : cfg.Valid) (o1 o2 : Own) {a b : UBig} (ha : a.WF cfg) (hb : b.WF cfg)
    {n m : ℕ} (hn : 1 ≤ n) (hm : 1 ≤ m) (han : a.value cfg < 2 ^ (n * cfg.W)) (hbm : b.value cfg < 2 ^ (m * cfg.W)) :
    Costs (UBig.mul cfg o1 o2 a b) (mulBound n m) (fun c => c.WF cfg ∧ c.value cfg = a.value cfg * b.value cfg) :=
  Costs.of_post (fun _ _ hk => (UBig.mul_steps o1 o2 ha hb hk).trans
    (mulBound_mono (UBig.len_le hv ha hn han) (UBig.len_le hv hb hm hbm)))
    (UBig.mul_result cfg o1 o2 a b) (Yields.post (UBig.mul_spec hv o1 o2 ha hb))

theorem costs_add {cfg : Cfg} (hv : cfg.Valid) (o1 o2 : Own) {a b : UBig} (ha : a.WF cfg) (hb : b.WF cfg)
    {n m : ℕ} (hn : 1 ≤ n) (hm : 1 ≤ m) (han : a.value cfg < 2 ^ (n * cfg.W)) (hbm : b.value cfg < 2 ^ (m * cfg.W)) :
    Costs (UBig.add cfg o1 o2 a b) (13 * (n + m)) (fun c => c.WF cfg ∧ c.value cfg = a.value cfg + b.value cfg) := by
  refine Costs.of_post (fun _ _ hk => ?_) (UBig.add_result cfg o1 o2 a b)
    (Yields.post (UBig.add_spec hv o1 o2 ha hb))
  have h := (takes_uadd o1 o2 ha hb _ _ hk).1
  have h1 := UBig.len_le hv ha hn han
  have h2 := UBig.len_le hv hb hm hbm
  unfold addCost at h
  exact_mod_cast h.trans (Nat.mul_le_mul_left 13 (Nat.add_le_add h1 h2))

end Ibig.Timed
