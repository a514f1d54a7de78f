import Verif.Spec.RandTime
import Verif.Spec.RandSeq
import Verif.Proofs.RandCost
import Verif.Proofs.ConvertCost
/-!
The expected number of steps of drawing random numbers.
-/
namespace Ibig

open Finset

namespace TDraw

/-! The results are the same -/

theorem after_result {α : Type} (k : Nat) (d : TDraw α) : (after k d).result = d.result := by
  unfold after result
  induction d with
  | ret p => rfl
  | fail p => rfl
  | draw m g ih => exact congrArg (Draw.draw m) (funext fun n => ih n)

theorem result_bind {α β : Type} {d : TDraw α} {d' : Draw α} {f : α → TDraw β} {f' : α → Draw β}
    (hd : d.result = d') (hf : ∀ a, (f a).result = f' a) : (d >>= f).result = d' >>= f' := by
  subst hd
  show (TDraw.bind d f).result = Draw.bind d.result f'
  have hf' : f' = fun a => (f a).result := funext fun a => (hf a).symm
  subst hf'
  unfold TDraw.bind
  induction d with
  | ret p => exact after_result _ _
  | fail p => rfl
  | draw m g ih => exact congrArg (Draw.draw m) (funext fun n => ih n)

theorem result_ofT {α : Type} {x : Timed α} {y : R α} (h : x.result = y) : (ofT x).result = Draw.ofR y := by
  subst h
  rcases x with e | ⟨a, k⟩ <;> rfl

theorem result_tick {β : Type} (f : Unit → TDraw β) : (ofT Timed.tick >>= f).result = (f ()).result := by
  show (TDraw.bind _ f).result = _
  exact after_result _ _

theorem result_ite {α : Type} {c : Prop} [Decidable c] {x y : TDraw α} {x' y' : Draw α} (hx : x.result = x')
    (hy : y.result = y') : (if c then x else y).result = if c then x' else y' := by
  split_ifs
  · exact hx
  · exact hy

theorem fillWords_result (W k : Nat) : (fillWords W k).result = Ibig.fillWords W k := by
  induction k with
  | zero => rfl
  | succ k ih => exact result_bind rfl fun _ => result_bind ih fun _ => rfl

theorem tryFillLoop_result (W : Nat) (words : List Nat) (i : Nat) : ∀ result,
    (tryFillLoop W words i result).result = Ibig.tryFillLoop W words i result := by
  induction i with
  | zero =>
    intro r
    refine result_bind (result_ofT (Timed.result_pass _ _)) fun _ => ?_
    refine result_bind (result_ofT (Timed.result_pass _ _)) fun _ => ?_
    refine result_ite rfl ?_
    exact (result_tick _).trans (result_bind (fillWords_result W 0) fun _ => rfl)
  | succ i ih =>
    intro r
    refine result_bind (result_ofT (Timed.result_pass _ _)) fun _ => ?_
    refine result_bind (result_ofT (Timed.result_pass _ _)) fun _ => ?_
    refine result_ite ?_ ?_
    · refine result_bind rfl fun _ => ?_
      refine result_bind (result_ofT (Timed.result_pass _ _)) fun _ => ?_
      refine result_bind (result_ofT (Timed.result_pass _ _)) fun _ => ?_
      exact result_ite rfl (ih _)
    · exact (result_tick _).trans (result_bind (fillWords_result W (i + 1)) fun _ => rfl)

theorem tryFillUniform_result (W : Nat) (words r : List Nat) :
    (tryFillUniform W words r).result = Ibig.tryFillUniform W words r := by
  refine result_bind (result_ofT (Timed.result_pass _ _)) fun _ => ?_
  refine result_bind (result_ofT (Timed.result_pass _ _)) fun _ => ?_
  refine result_bind rfl fun _ => ?_
  exact result_bind (result_ofT (Timed.result_pass _ _)) fun _ => tryFillLoop_result _ _ _ _

theorem uniformLoop_result (W : Nat) (words : List Nat) (t : Nat) : ∀ r,
    (uniformLoop W words t r).result = Ibig.uniformLoop W words t r := by
  induction t with
  | zero => intro _; rfl
  | succ t ih =>
    intro r
    refine (result_tick _).trans ?_
    exact result_bind (tryFillUniform_result W words r) fun _ => result_ite rfl (ih _)

theorem UBig.uniformLarge_result (cfg : Cfg) (t : Nat) (words : List Nat) :
    (UBig.uniformLarge cfg t words).result = Ibig.UBig.uniformLarge cfg t words := by
  refine result_bind (result_ofT (Timed.result_pass _ _)) fun _ => ?_
  refine result_bind (result_ofT (Timed.result_pass _ _)) fun _ => ?_
  refine result_bind (uniformLoop_result _ _ _ _) fun o => ?_
  cases o with
  | none => rfl
  | some ws => exact result_bind (result_ofT (Timed.result_pass _ _)) fun _ => rfl

theorem UBig.uniform_result (cfg : Cfg) (t : Nat) (r : UBig) :
    (UBig.uniform cfg t r).result = Ibig.UBig.uniform cfg t r := by
  refine result_bind (result_ofT (Timed.result_pass _ _)) fun _ => ?_
  cases r with
  | small w => exact result_bind rfl fun _ => rfl
  | large b => exact UBig.uniformLarge_result _ _ _

theorem UniformUBig.sample_result (cfg : Cfg) (t : Nat) (d : UniformUBig) :
    (UniformUBig.sample cfg t d).result = d.sample cfg t := by
  refine result_bind (UBig.uniform_result _ _ _) fun o => ?_
  cases o with
  | none => rfl
  | some u => exact result_bind (result_ofT (Timed.UBig.add_result _ _ _ _ _)) fun _ => rfl

theorem UniformIBig.sample_result (cfg : Cfg) (t : Nat) (d : UniformIBig) :
    (UniformIBig.sample cfg t d).result = d.sample cfg t := by
  refine result_bind (UBig.uniform_result _ _ _) fun o => ?_
  cases o with
  | none => rfl
  | some u => exact result_bind (result_ofT (Timed.IBig.add_result _ _ _ _ _)) fun _ => rfl

end TDraw

namespace Timed

theorem UniformUBig.new_result (cfg : Cfg) (low high : UBig) :
    (UniformUBig.new cfg low high).result = Ibig.UniformUBig.new cfg low high := by
  refine result_bind (UBig.sub_result _ _ _ _ _) fun _ => ?_
  refine (bind_of_ok rfl _).trans ?_
  refine result_ite (fun _ => rfl) fun _ => ?_
  exact result_bind (result_pass _ _) fun _ => rfl

theorem UniformUBig.newInclusive_result (cfg : Cfg) (low high : UBig) :
    (UniformUBig.newInclusive cfg low high).result = Ibig.UniformUBig.newInclusive cfg low high := by
  refine result_bind (UBig.sub_result _ _ _ _ _) fun _ => ?_
  refine result_bind (UBig.add_result _ _ _ _ _) fun _ => ?_
  exact result_bind (result_pass _ _) fun _ => rfl

theorem UniformIBig.ofRange_result (cfg : Cfg) (r low : IBig) :
    (UniformIBig.ofRange cfg r low).result = Ibig.UniformIBig.ofRange cfg r low := by
  refine result_bind (result_pass _ _) fun _ => ?_
  refine result_bind (result_pass _ _) fun _ => ?_
  refine result_ite (fun _ => rfl) fun _ => ?_
  refine result_bind (result_pass _ _) fun _ => ?_
  exact result_bind (result_pass _ _) fun _ => rfl

theorem UniformIBig.new_result (cfg : Cfg) (low high : IBig) :
    (UniformIBig.new cfg low high).result = Ibig.UniformIBig.new cfg low high :=
  result_bind (IBig.sub_result _ _ _ _ _) fun _ => UniformIBig.ofRange_result _ _ _

theorem UniformIBig.newInclusive_result (cfg : Cfg) (low high : IBig) :
    (UniformIBig.newInclusive cfg low high).result = Ibig.UniformIBig.newInclusive cfg low high := by
  refine result_bind (IBig.sub_result _ _ _ _ _) fun _ => ?_
  refine result_bind (result_pass _ _) fun _ => ?_
  exact result_bind (IBig.add_result _ _ _ _ _) fun _ => UniformIBig.ofRange_result _ _ _

end Timed

theorem TDraw.genUBig_result (cfg : Cfg) (i : Bool) (low high : UBig) (t : Nat) :
    (TDraw.genUBig cfg i low high t).result = Ibig.genUBig cfg i low high t := by
  refine TDraw.result_bind (TDraw.result_ofT ?_) fun _ => TDraw.UniformUBig.sample_result _ _ _
  exact Timed.result_ite (fun _ => Timed.UniformUBig.newInclusive_result _ _ _) fun _ => Timed.UniformUBig.new_result _ _ _

theorem TDraw.genIBig_result (cfg : Cfg) (i : Bool) (low high : IBig) (t : Nat) :
    (TDraw.genIBig cfg i low high t).result = Ibig.genIBig cfg i low high t := by
  refine TDraw.result_bind (TDraw.result_ofT ?_) fun _ => TDraw.UniformIBig.sample_result _ _ _
  exact Timed.result_ite (fun _ => Timed.UniformIBig.newInclusive_result _ _ _) fun _ => Timed.UniformIBig.new_result _ _ _

/-! ### Expected costs -/

namespace Draw

theorem exp_mono {α : Type} {d : Draw α} {f g : α → ℚ} (h : ∀ a, f a ≤ g a) : d.exp f ≤ d.exp g := by
  induction d with
  | ret a => exact h a
  | fail p => exact le_rfl
  | draw m k ih =>
    simp only [exp]
    have : ∑ n ∈ range m, (k n).exp f ≤ ∑ n ∈ range m, (k n).exp g := Finset.sum_le_sum fun n _ => ih n
    gcongr

theorem exp_const_add {α : Type} (d : Draw α) (g : α → ℚ) {c : ℚ} (hc : 0 ≤ c) :
    d.exp (fun a => c + g a) ≤ c + d.exp g := by
  induction d with
  | ret a => exact le_rfl
  | fail p => simpa [exp] using hc
  | draw m k ih =>
    simp only [exp]
    have h : ∑ n ∈ range m, (k n).exp (fun a => c + g a) ≤ ∑ n ∈ range m, (c + (k n).exp g) :=
      Finset.sum_le_sum fun n _ => ih n
    rw [Finset.sum_add_distrib, Finset.sum_const, card_range, nsmul_eq_mul] at h
    rcases Nat.eq_zero_or_pos m with rfl | hm
    · simpa using hc
    · have hm' : (0 : ℚ) < m := by exact_mod_cast hm
      rw [div_le_iff₀ hm', add_mul, div_mul_cancel₀ _ hm'.ne']
      linarith

end Draw

namespace TDraw

/-- The expected number of steps, plus the expected value of `f` of the result. -/
def cost {α : Type} (f : α → ℚ) (d : TDraw α) : ℚ := Draw.exp (fun p => (p.2 : ℚ) + f p.1) d

theorem meanSteps_eq {α : Type} (d : TDraw α) : d.meanSteps = d.cost fun _ => 0 := by
  unfold meanSteps cost
  simp only [add_zero]

theorem cost_after {α : Type} (k : Nat) (d : TDraw α) (f : α → ℚ) : (after k d).cost f ≤ k + d.cost f := by
  have h : (after k d).cost f = Draw.exp (fun p : α × Nat => (k : ℚ) + ((p.2 : ℚ) + f p.1)) d := by
    unfold cost after
    refine (Draw.exp_bind (α := α × Nat) d (fun p => .ret (p.1, k + p.2)) _).trans ?_
    congr 1
    funext p
    simp only [Draw.exp]
    push_cast; ring
  rw [h]
  exact Draw.exp_const_add d _ (by positivity)

theorem cost_bind {α β : Type} (d : TDraw α) (k : α → TDraw β) (f : β → ℚ) :
    (d >>= k).cost f ≤ d.cost fun a => (k a).cost f := by
  refine le_trans (le_of_eq (Draw.exp_bind (α := α × Nat) d (fun p => after p.2 (k p.1)) _)) ?_
  exact Draw.exp_mono fun p => cost_after p.2 (k p.1) f

theorem cost_pure {α : Type} (a : α) (f : α → ℚ) : (pure a : TDraw α).cost f = f a := by
  show ((0 : Nat) : ℚ) + f a = f a
  simp

theorem cost_ofT_ok {α : Type} {x : Timed α} {a : α} {k : Nat} (h : x = .ok (a, k)) (f : α → ℚ) :
    (ofT x).cost f = k + f a := by subst h; rfl

theorem cost_step {α β : Type} {x : Timed α} {a : α} {k : Nat} (h : x = .ok (a, k)) (g : α → TDraw β) (f : β → ℚ) :
    (ofT x >>= g).cost f ≤ k + (g a).cost f := (cost_bind _ _ _).trans (cost_ofT_ok h _).le

theorem cost_uniform (m : Nat) (f : Nat → ℚ) : (TDraw.uniform m).cost f = (∑ n ∈ range m, (1 + f n)) / m := by
  show (∑ n ∈ range m, (((1 : Nat) : ℚ) + f n)) / m = _
  norm_num

theorem cost_draw {β : Type} (m : Nat) (g : Nat → TDraw β) (f : β → ℚ) :
    (TDraw.uniform m >>= g).cost f ≤ (∑ n ∈ range m, (1 + (g n).cost f)) / m :=
  (cost_bind _ _ _).trans (cost_uniform _ _).le

/-- A run that takes at most `M` steps. -/
theorem cost_ofT {α β : Type} {x : Timed α} {M : Nat} (hx : Takes x M (fun _ => True)) {g : α → TDraw β} {f : β → ℚ} {N : ℚ}
    (hN : 0 ≤ N) (hg : ∀ a, x.result = .ok a → (g a).cost f ≤ N) : (ofT x >>= g).cost f ≤ M + N := by
  rcases x with e | ⟨a, k⟩
  · show (0 : ℚ) ≤ _
    positivity
  · refine (cost_step rfl g f).trans (add_le_add ?_ (hg a rfl))
    exact_mod_cast (hx a k rfl).1

theorem cost_mono_all {α : Type} {P : α → Prop} {d : TDraw α} (h : d.result.All P) {f g : α → ℚ}
    (hfg : ∀ a, P a → f a ≤ g a) : d.cost f ≤ d.cost g := by
  unfold cost
  have h' : Draw.All P (Draw.bind d fun p : α × Nat => .ret p.1) := h
  clear h
  induction d with
  | ret p => exact add_le_add le_rfl (hfg _ h')
  | fail p => exact le_rfl
  | draw m k ih =>
    simp only [Draw.exp]
    have : ∑ n ∈ range m, (k n).exp (fun p : α × Nat => (p.2 : ℚ) + f p.1) ≤
        ∑ n ∈ range m, (k n).exp (fun p : α × Nat => (p.2 : ℚ) + g p.1) :=
      Finset.sum_le_sum fun n hn => ih n (h'.2 n (mem_range.mp hn))
    gcongr

theorem avg_le {m : Nat} (hm : 0 < m) {f : Nat → ℚ} {c : ℚ} (h : ∑ n ∈ range m, f n ≤ m * c) :
    (∑ n ∈ range m, f n) / m ≤ c := by
  have hm' : (0 : ℚ) < m := by exact_mod_cast hm
  rw [div_le_iff₀ hm']
  linarith

theorem fillWords_cost (W k : Nat) (c : ℚ) : (fillWords W k).cost (fun _ => c) ≤ k + c := by
  induction k with
  | zero => rw [fillWords, cost_pure]; simp
  | succ k ih =>
    rw [fillWords]
    refine (cost_draw _ _ _).trans (avg_le (base_pos W) ?_)
    refine (Finset.sum_le_sum (g := fun _ => ((k + 1 : Nat) : ℚ) + c) fun n _ => ?_).trans (le_of_eq ?_)
    · refine (add_le_add (le_refl 1) (cost_bind _ _ _)).trans ?_
      simp only [cost_pure]
      push_cast
      linarith
    · rw [Finset.sum_const, card_range, nsmul_eq_mul]

/-- Success costs `C` more, failure costs `K`. -/
def again (C K : ℚ) (x : Bool × List Nat) : ℚ := if x.1 then C else K

theorem fill_cost {α : Type} (W i : Nat) (a : List Nat → α) (f : α → ℚ) {C : ℚ} (hf : ∀ xs, f (a xs) = C) :
    (do ofT Timed.tick; let xs ← fillWords W i; pure (a xs) : TDraw α).cost f ≤ i + 1 + C := by
  refine (cost_step (a := ()) (k := 1) rfl _ _).trans ?_
  have h := (cost_bind (fillWords W i) (fun xs => (pure (a xs) : TDraw α)) f)
  simp only [cost_pure, hf] at h
  have := fillWords_cost W i C
  push_cast
  linarith

theorem tryFillLoop_cost_ne {W : Nat} {words result : List Nat} {i : Nat} (hi : i < words.length)
    (hr : i < result.length) (h : result[i] ≠ words[i]) (C K : ℚ) :
    (tryFillLoop W words i result).cost (again C K) ≤ i + 3 + C := by
  have e1 : Timed.getR result i = .ok (result[i], 1) := by unfold Timed.getR; rw [getR_ok hr]; rfl
  have e2 : Timed.getR words i = .ok (words[i], 1) := by unfold Timed.getR; rw [getR_ok hi]; rfl
  cases i with
  | zero =>
    rw [tryFillLoop]
    refine (cost_step e1 _ _).trans ?_
    refine (add_le_add le_rfl (cost_step e2 _ _)).trans ?_
    rw [if_neg h]
    have := fill_cost W 0 (fun xs => (true, xs ++ result.drop 0)) (again C K) (C := C) fun _ => by simp [again]
    push_cast at this ⊢
    linarith
  | succ i =>
    rw [tryFillLoop]
    refine (cost_step e1 _ _).trans ?_
    refine (add_le_add le_rfl (cost_step e2 _ _)).trans ?_
    rw [if_neg h]
    have := fill_cost W (i + 1) (fun xs => (true, xs ++ result.drop (i + 1))) (again C K) (C := C) fun _ => by simp [again]
    push_cast at this ⊢
    linarith

/-- From a tie at `i` at most ten steps are expected, apart from the price `K` of a failure. -/
theorem tryFillLoop_cost_eq {W : Nat} (hW : 1 ≤ W) {words : List Nat} (hw : IsWords W words) {i : Nat}
    (hi : i < words.length) {result : List Nat} (hr : result.length = words.length) (he : result[i] = words[i])
    {C K : ℚ} (hK : (words.length : ℚ) + 3 + C ≤ K) :
    (tryFillLoop W words i result).cost (again C K) ≤ K + 10 := by
  induction i generalizing result with
  | zero =>
    have e1 : Timed.getR result 0 = .ok (result[0], 1) := by
      unfold Timed.getR; rw [getR_ok (hr ▸ hi : 0 < result.length)]; rfl
    have e2 : Timed.getR words 0 = .ok (words[0], 1) := by unfold Timed.getR; rw [getR_ok hi]; rfl
    rw [tryFillLoop]
    refine (cost_step e1 _ _).trans ?_
    refine (add_le_add le_rfl (cost_step e2 _ _)).trans ?_
    rw [if_pos he, cost_pure]
    simp only [again]
    push_cast
    norm_num
    linarith
  | succ i ih =>
    have hi' : i < words.length := by omega
    have hir : i < result.length := by omega
    have hwi : words[i] < base W := hw _ (List.getElem_mem _)
    have hik : (i : ℚ) ≤ words.length := by exact_mod_cast hi'.le
    have e1 : Timed.getR result (i + 1) = .ok (result[i + 1], 1) := by
      unfold Timed.getR; rw [getR_ok (hr ▸ hi : i + 1 < result.length)]; rfl
    have e2 : Timed.getR words (i + 1) = .ok (words[i + 1], 1) := by unfold Timed.getR; rw [getR_ok hi]; rfl
    have e3 : Timed.getR words i = .ok (words[i], 1) := by unfold Timed.getR; rw [getR_ok hi']; rfl
    have e4 : ∀ x, Timed.setR result i x = .ok (result.set i x, 1) := fun x => by
      unfold Timed.setR; rw [setR_ok _ hir]; rfl
    have hb2 : (2 : ℚ) ≤ base W := by
      have : 2 ^ 1 ≤ base W := Nat.pow_le_pow_right (by norm_num) hW
      exact_mod_cast this
    rw [tryFillLoop]
    refine (cost_step e1 _ _).trans ?_
    refine (add_le_add le_rfl (cost_step e2 _ _)).trans ?_
    rw [if_pos he]
    refine (add_le_add le_rfl (add_le_add le_rfl (cost_draw _ _ _))).trans ?_
    suffices h : (∑ x ∈ range (base W), (1 + (do
        let r ← ofT (Timed.setR result i x)
        let w ← ofT (Timed.getR words i)
        if w < x then pure (false, r) else tryFillLoop W words i r : TDraw _).cost (again C K))) / base W ≤ K + 8 by
      push_cast
      linarith
    refine avg_le (base_pos W) ?_
    have hsum : ∀ x ∈ range (base W), (1 + (do
        let r ← ofT (Timed.setR result i x)
        let w ← ofT (Timed.getR words i)
        if w < x then pure (false, r) else tryFillLoop W words i r : TDraw _).cost (again C K))
        ≤ K + 3 + if x = words[i] then 10 else 0 := by
      intro x hx
      have h1 := cost_step (e4 x) (fun r => (do
        let w ← ofT (Timed.getR words i)
        if w < x then pure (false, r) else tryFillLoop W words i r : TDraw _)) (again C K)
      have h2 := cost_step e3 (fun w => (if w < x then pure (false, result.set i x)
        else tryFillLoop W words i (result.set i x) : TDraw _)) (again C K)
      refine (add_le_add le_rfl (h1.trans (add_le_add le_rfl h2))).trans ?_
      split_ifs with g1 g2 g2
      · omega
      · rw [cost_pure]
        simp only [again]
        push_cast
        norm_num
        linarith
      · have := ih hi' (result := result.set i x) (by simpa using hr) (by simp [g2])
        push_cast
        linarith
      · have := tryFillLoop_cost_ne (W := W) hi' (result := result.set i x) (by simpa using hir) (by simpa using g2) C K
        push_cast
        linarith
    refine (Finset.sum_le_sum hsum).trans ?_
    rw [Finset.sum_add_distrib, Finset.sum_ite_eq' (range (base W)), if_pos (mem_range.mpr hwi), Finset.sum_const,
      card_range, nsmul_eq_mul]
    nlinarith

/-- One attempt. -/
theorem tryFillUniform_cost {W : Nat} (hW : 1 ≤ W) {words : List Nat} (hw : IsWords W words) (h0 : words ≠ [])
    (htop : words.getLast h0 ≠ 0) {result : List Nat} (hr : result.length = words.length) (C : ℚ) :
    (tryFillUniform W words result).cost (again C (words.length + 22 + C)) ≤ words.length + 21 + C := by
  obtain ⟨n, hn⟩ : ∃ n, words.length = n + 1 :=
    ⟨words.length - 1, by have := List.length_pos_iff.mpr h0; omega⟩
  have hi : n < words.length := by omega
  have hir : n < result.length := by omega
  have hlast : words.getLast h0 = words[n] := by
    rw [List.getLast_eq_getElem]; congr 1; omega
  rw [hlast] at htop
  have ea : Timed.assertR (0 < words.length ∧ result.length = words.length) = .ok ((), 1) := by
    unfold Timed.assertR; rw [assertR_true (by constructor <;> omega)]; rfl
  have e3 : Timed.getR words (words.length - 1) = .ok (words[n], 1) := by
    have : words.length - 1 = n := by omega
    unfold Timed.getR; rw [this, getR_ok hi]; rfl
  have e4 : ∀ x, Timed.setR result (words.length - 1) x = .ok (result.set n x, 1) := fun x => by
    have : words.length - 1 = n := by omega
    unfold Timed.setR; rw [this, setR_ok _ hir]; rfl
  have hnq : (words.length : ℚ) = n + 1 := by rw [hn]; push_cast; ring
  have hw1 : (1 : ℚ) ≤ words[n] := by exact_mod_cast Nat.one_le_iff_ne_zero.mpr htop
  rw [tryFillUniform]
  refine (cost_step ea _ _).trans ?_
  refine (add_le_add le_rfl (cost_step e3 _ _)).trans ?_
  refine (add_le_add le_rfl (add_le_add le_rfl (cost_draw _ _ _))).trans ?_
  suffices h : (∑ x ∈ range (words[n] + 1), (1 + (do
      let r ← ofT (Timed.setR result (words.length - 1) x)
      tryFillLoop W words (words.length - 1) r : TDraw _).cost (again C (words.length + 22 + C)))) / (words[n] + 1 : Nat)
      ≤ words.length + 19 + C by
    push_cast at h ⊢
    linarith
  refine avg_le (Nat.succ_pos _) ?_
  have hsum : ∀ x ∈ range (words[n] + 1), (1 + (do
      let r ← ofT (Timed.setR result (words.length - 1) x)
      tryFillLoop W words (words.length - 1) r : TDraw _).cost (again C (words.length + 22 + C)))
      ≤ (n + 5 + C) + if x = words[n] then 30 else 0 := by
    intro x hx
    have h1 := cost_step (e4 x) (fun r => tryFillLoop W words (words.length - 1) r) (again C (words.length + 22 + C))
    refine (add_le_add le_rfl h1).trans ?_
    have hidx : words.length - 1 = n := by omega
    rw [hidx]
    split_ifs with g
    · have := tryFillLoop_cost_eq hW hw hi (result := result.set n x) (by simpa using hr) (by simp [g])
        (C := C) (K := words.length + 22 + C) (by linarith)
      push_cast
      linarith
    · have := tryFillLoop_cost_ne (W := W) hi (result := result.set n x) (by simpa using hir) (by simpa using g) C
        (words.length + 22 + C)
      push_cast
      linarith
  refine (Finset.sum_le_sum hsum).trans ?_
  rw [Finset.sum_add_distrib, Finset.sum_ite_eq' (range (words[n] + 1)), if_pos (mem_range.mpr (Nat.lt_succ_self _)),
    Finset.sum_const, card_range, nsmul_eq_mul, hnq]
  push_cast
  nlinarith

/-- The attempts together. -/
theorem uniformLoop_cost {W : Nat} (hW : 1 ≤ W) {words : List Nat} (hw : IsWords W words) (h0 : words ≠ [])
    (htop : words.getLast h0 ≠ 0) (t : Nat) {result : List Nat} (hr : result.length = words.length) {C : ℚ} (hC : 0 ≤ C)
    {f : Option (List Nat) → ℚ} (hf0 : f none ≤ C) (hf : ∀ ws, ws.length = words.length → f (some ws) ≤ C) :
    (uniformLoop W words t result).cost f ≤ words.length + 22 + C := by
  induction t generalizing result with
  | zero =>
    rw [uniformLoop, cost_pure]
    have : (0 : ℚ) ≤ words.length := by positivity
    linarith
  | succ t ih =>
    rw [uniformLoop]
    refine (cost_step (a := ()) (k := 1) rfl _ _).trans ?_
    refine (add_le_add le_rfl (cost_bind _ _ _)).trans ?_
    have hall : (tryFillUniform W words result).result.All fun x => x.2.length = words.length := by
      rw [tryFillUniform_result]
      exact tryFillUniform_length h0 hr
    refine (add_le_add le_rfl (cost_mono_all hall (g := again C (words.length + 22 + C)) fun x hx => ?_)).trans ?_
    · unfold again
      split_ifs
      · rw [cost_pure]
        exact hf _ hx
      · exact ih hx
    · have := tryFillUniform_cost hW hw h0 htop hr C
      push_cast
      linarith

end TDraw

end Ibig
