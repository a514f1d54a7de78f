import Verif.Spec.RandSeq
import Verif.Props.Rand
/-! Lemmas for C78: several random numbers in a row. -/
namespace Ibig
open Draw Filter Topology

theorem exp_zero {α : Type} (d : Draw α) : d.exp (fun _ => 0) = 0 := by
  induction d with
  | ret a => rfl
  | fail p => rfl
  | draw m k ih => simp only [Draw.exp, ih, Finset.sum_const_zero, zero_div]

theorem exp_mul_const {α : Type} (d : Draw α) (f : α → ℚ) (c : ℚ) : d.exp (fun a => f a * c) = d.exp f * c := by
  induction d with
  | ret a => rfl
  | fail p => simp [Draw.exp]
  | draw m k ih => simp only [Draw.exp, ih, ← Finset.sum_mul, div_mul_eq_mul_div]

/-- The probability of the numbers `v :: vs` is that of `v` times that of `vs` after `v`. -/
theorem successive_prob {α : Type} (value : α → Int) (next : List Int → Nat → Draw (Option α)) (t k : Nat)
    (past : List Int) (v : Int) (vs : List Int) :
    (successive value next t (k + 1) past).prob (fun o => ∃ ys, o = some ys ∧ ys.map value = v :: vs) =
      (next past t).prob (fun o => ∃ y, o = some y ∧ value y = v) *
        (successive value next t k (past ++ [v])).prob (fun o => ∃ ys, o = some ys ∧ ys.map value = vs) := by
  unfold Draw.prob
  rw [successive, exp_bind, ← exp_mul_const]
  congr 1
  funext o
  cases o with
  | none => simp [Draw.exp]
  | some y =>
    simp only [exp_bind]
    by_cases hy : value y = v
    · rw [if_pos ⟨y, rfl, hy⟩, one_mul, hy]
      congr 1
      funext o
      cases o with
      | none => simp [Draw.exp]
      | some ys => simp [Draw.exp, hy]
    · rw [if_neg (by simpa using hy), zero_mul]
      refine Eq.trans ?_ (exp_zero (successive value next t k (past ++ [value y])))
      congr 1
      funext o
      cases o with
      | none => simp [Draw.exp]
      | some ys => simp [Draw.exp, hy]

theorem Possible.snoc {low high : List Int → Int} {p xs : List Int} {v : Int} (h : Possible low high p xs)
    (h1 : low (p ++ xs) ≤ v) (h2 : v < high (p ++ xs)) : Possible low high p (xs ++ [v]) := by
  induction xs generalizing p with
  | nil =>
    rw [List.append_nil] at h1 h2
    exact ⟨h1, h2, trivial⟩
  | cons x xs ih =>
    rw [List.append_cons p x xs] at h1 h2
    exact ⟨h.1, h.2.1, ih h.2.2 h1 h2⟩

theorem successive_all {α : Type} {value : α → Int} {next : List Int → Nat → Draw (Option α)} {wf : α → Prop}
    {low high : List Int → Int} (h : ∀ past, Possible low high [] past → UniformOn (next past) wf value (low past) (high past)) {t : Nat} (ht : 1 ≤ t)
    (k : Nat) {past : List Int} (hp : Possible low high [] past) :
    (successive value next t k past).All fun o => ∀ ys, o = some ys →
      ys.length = k ∧ (∀ y ∈ ys, wf y) ∧ Possible low high past (ys.map value) := by
  induction k generalizing past with
  | zero =>
    rintro ys ⟨⟩
    exact ⟨rfl, by simp, trivial⟩
  | succ k ih =>
    obtain ⟨q, -, -, h3⟩ := h past hp
    refine Draw.All.bind (h3 t ht).1 fun o ho => ?_
    cases o with
    | none => intro ys h; cases h
    | some y =>
      obtain ⟨g1, g2, g3⟩ := ho y rfl
      refine Draw.All.bind (ih (hp.snoc g2 g3)) fun o ho => ?_
      cases o with
      | none => intro ys h; cases h
      | some ys =>
        obtain ⟨k1, k2, k3⟩ := ho ys rfl
        rintro _ ⟨⟩
        exact ⟨by simp [k1], by simpa using ⟨g1, k2⟩, g2, g3, k3⟩

theorem successive_limit {α : Type} {value : α → Int} {next : List Int → Nat → Draw (Option α)} {wf : α → Prop}
    {low high : List Int → Int} (h : ∀ past, Possible low high [] past → UniformOn (next past) wf value (low past) (high past)) (vs : List Int)
    {past : List Int} (hp : Possible low high [] past) (hvs : Possible low high past vs) :
    Tendsto (fun t => (successive value next t vs.length past).prob fun o => ∃ ys, o = some ys ∧ ys.map value = vs) atTop
      (𝓝 (chance low high past vs)) := by
  induction vs generalizing past with
  | nil => simp [successive, Draw.prob, Draw.exp, chance]
  | cons v vs ih =>
    obtain ⟨h1, h2, h3⟩ := hvs
    simp only [List.length_cons, successive_prob, chance]
    exact ((C32_limit (h past hp)).2 v h1 h2).mul (ih (hp.snoc h1 h2) h3)

end Ibig
