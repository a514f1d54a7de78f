import Verif.Spec.RandCost
import Verif.Proofs.Rand
import Mathlib.Algebra.Order.BigOperators.Group.Finset
import Mathlib.Tactic.Positivity
/-!
Lemmas about the number of random words drawn.
-/
namespace Ibig

open Finset

namespace Draw

/-- The expected number of draws, plus the expected value of `f` of the result. -/
def cost {α : Type} (f : α → ℚ) : Draw α → ℚ
  | .ret a => f a
  | .fail _ => 0
  | .draw m k => 1 + (∑ n ∈ range m, (k n).cost f) / m

theorem draws_eq {α : Type} (d : Draw α) : d.draws = d.cost fun _ => 0 := by
  induction d with
  | ret a => rfl
  | fail p => rfl
  | draw m k ih =>
    simp only [draws, cost]
    rw [Finset.sum_congr rfl fun n _ => ih n]

theorem cost_bind {α β : Type} (d : Draw α) (k : α → Draw β) (f : β → ℚ) :
    (d >>= k).cost f = d.cost fun a => (k a).cost f := by
  show (Draw.bind d k).cost f = _
  induction d with
  | ret a => rfl
  | fail p => rfl
  | draw m g ih =>
    simp only [Draw.bind, Draw.cost]
    congr 2
    exact Finset.sum_congr rfl fun n _ => ih n

theorem cost_uniform (m : Nat) (f : Nat → ℚ) : (Draw.uniform m).cost f = 1 + (∑ n ∈ range m, f n) / m := rfl

theorem cost_mono {α : Type} {P : α → Prop} {d : Draw α} (h : d.All P) {f g : α → ℚ} (hfg : ∀ a, P a → f a ≤ g a) :
    d.cost f ≤ d.cost g := by
  induction d with
  | ret a => exact hfg a h
  | fail p => exact h.elim
  | draw m k ih =>
    simp only [cost]
    have : ∑ n ∈ range m, (k n).cost f ≤ ∑ n ∈ range m, (k n).cost g :=
      Finset.sum_le_sum fun n hn => ih n (h.2 n (mem_range.mp hn))
    gcongr

theorem cost_const_ofR {α : Type} (x : R α) : (Draw.ofR x).cost (fun _ => 0) = 0 := by
  cases x <;> rfl

end Draw

theorem fillWords_cost (W k : Nat) (c : ℚ) : (fillWords W k).cost (fun _ => c) = k + c := by
  induction k with
  | zero => simp [fillWords, Draw.cost]
  | succ k ih =>
    have hb : (base W : ℚ) ≠ 0 := by exact_mod_cast (base_pos W).ne'
    simp only [fillWords, Draw.cost_bind, Draw.cost_uniform, Draw.cost, ih, Finset.sum_const, card_range,
      nsmul_eq_mul]
    rw [mul_div_cancel_left₀ _ hb]
    push_cast; ring

/-- Success costs nothing more, failure costs `K`. -/
def retry (K : ℚ) (x : Bool × List Nat) : ℚ := if x.1 then 0 else K

theorem tryFillLoop_cost_ne {W : Nat} {words result : List Nat} {i : Nat} (hi : i < words.length)
    (hr : i < result.length) (h : result[i] ≠ words[i]) (K : ℚ) :
    (tryFillLoop W words i result).cost (retry K) = i := by
  have key : tryFillLoop W words i result = fillWords W i >>= fun xs => .ret (true, xs ++ result.drop i) := by
    cases i <;> simp only [tryFillLoop, getR_ok hi, getR_ok hr, Draw.ofR_ok_bind, if_neg h]
  rw [key, Draw.cost_bind]
  simp only [Draw.cost, retry, if_true]
  rw [fillWords_cost]; ring

/-- From a tie at `i` at most two draws are expected, apart from the price `K` of a failure. -/
theorem tryFillLoop_cost_eq {W : Nat} (hW : 1 ≤ W) {words : List Nat} (hw : IsWords W words) {i : Nat}
    (hi : i < words.length) {result : List Nat} (hr : result.length = words.length) (he : result[i] = words[i])
    {K : ℚ} (hK : (words.length : ℚ) ≤ K) :
    (tryFillLoop W words i result).cost (retry K) ≤ K + 2 := by
  induction i generalizing result with
  | zero =>
    simp only [tryFillLoop, getR_ok hi, getR_ok (hr ▸ hi : 0 < result.length), Draw.ofR_ok_bind, if_pos he]
    simp [Draw.cost, retry]
  | succ i ih =>
    have hi' : i < words.length := by omega
    have hir : i < result.length := by omega
    have hwi : words[i] < base W := hw _ (List.getElem_mem _)
    have hik : (i : ℚ) ≤ K := le_trans (by exact_mod_cast hi'.le) hK
    simp only [tryFillLoop, getR_ok hi, getR_ok (hr ▸ hi : i + 1 < result.length), Draw.ofR_ok_bind, if_pos he,
      Draw.cost_bind, Draw.cost_uniform, setR_ok _ hir, getR_ok hi']
    have hb2 : (2 : ℚ) ≤ base W := by
      have : 2 ^ 1 ≤ base W := Nat.pow_le_pow_right (by norm_num) hW
      exact_mod_cast this
    have hsum : ∑ x ∈ range (base W), (if words[i] < x then Draw.ret (false, result.set i x)
        else tryFillLoop W words i (result.set i x)).cost (retry K)
        ≤ ∑ x ∈ range (base W), (K + if x = words[i] then 2 else 0) := by
      refine Finset.sum_le_sum fun x hx => ?_
      split_ifs with h1 h2 h2
      · omega
      · simp [Draw.cost, retry]
      · exact ih hi' (by simpa using hr) (by simp [h2])
      · rw [tryFillLoop_cost_ne hi' (by simpa using hir) (by simpa using h2)]
        linarith
    rw [Finset.sum_add_distrib, Finset.sum_ite_eq' (range (base W)), if_pos (mem_range.mpr hwi), Finset.sum_const,
      card_range, nsmul_eq_mul] at hsum
    have hb0 : (0 : ℚ) < base W := by linarith
    have : (∑ x ∈ range (base W), (if words[i] < x then Draw.ret (false, result.set i x)
        else tryFillLoop W words i (result.set i x)).cost (retry K)) / base W ≤ K + 1 := by
      rw [div_le_iff₀ hb0]
      linarith
    linarith

/-- One attempt. -/
theorem tryFillUniform_cost {W : Nat} (hW : 1 ≤ W) {words : List Nat} (hw : IsWords W words) (h0 : words ≠ [])
    (htop : words.getLast h0 ≠ 0) {result : List Nat} (hr : result.length = words.length) :
    (tryFillUniform W words result).cost (retry (words.length + 3)) ≤ words.length + 3 := by
  obtain ⟨n, hn⟩ : ∃ n, words.length = n + 1 :=
    ⟨words.length - 1, by have := List.length_pos_iff.mpr h0; omega⟩
  have hi : n < words.length := by omega
  have hir : n < result.length := by omega
  have hlast : words.getLast h0 = words[n] := by
    rw [List.getLast_eq_getElem]; congr 1; omega
  rw [hlast] at htop
  unfold tryFillUniform
  rw [assertR_true (by constructor <;> omega)]
  simp only [Draw.ofR_ok_bind, hn, Nat.add_sub_cancel, getR_ok hi, Draw.cost_bind, Draw.cost_uniform,
    setR_ok _ hir]
  rw [Finset.sum_range_succ, Finset.sum_congr rfl fun x hx => by
    rw [tryFillLoop_cost_ne hi (by simpa using hir) (by simp; have := mem_range.mp hx; omega)]]
  have h2 := tryFillLoop_cost_eq hW hw hi (result := result.set n words[n]) (by simpa using hr) (by simp)
    (K := words.length + 3) (by linarith)
  rw [hn] at h2
  rw [Finset.sum_const, card_range, nsmul_eq_mul]
  have hw1 : (1 : ℚ) ≤ words[n] := by exact_mod_cast Nat.one_le_iff_ne_zero.mpr htop
  have : ((words[n] : ℚ) * n + (tryFillLoop W words n (result.set n words[n])).cost
      (retry ((n + 1 : Nat) + 3))) / ((words[n] + 1 : Nat) : ℚ) ≤ n + 3 := by
    rw [div_le_iff₀ (by positivity)]
    push_cast at h2 ⊢
    nlinarith
  push_cast at this ⊢
  linarith

theorem tryFillLoop_length {W : Nat} {words : List Nat} {i : Nat} (hi : i < words.length) {result : List Nat}
    (hr : result.length = words.length) :
    (tryFillLoop W words i result).All fun x => x.2.length = words.length := by
  induction i generalizing result with
  | zero =>
    simp only [tryFillLoop, getR_ok hi, getR_ok (hr ▸ hi : 0 < result.length), Draw.ofR_ok_bind]
    split_ifs
    · exact hr
    · exact hr
  | succ i ih =>
    have hi' : i < words.length := by omega
    have hir : i < result.length := by omega
    simp only [tryFillLoop, getR_ok hi, getR_ok (hr ▸ hi : i + 1 < result.length), Draw.ofR_ok_bind]
    split_ifs
    · refine Draw.All.bind (Draw.all_uniform (base_pos W)) fun x _ => ?_
      simp only [setR_ok _ hir, getR_ok hi', Draw.ofR_ok_bind]
      split_ifs
      · show (result.set i x).length = _
        simpa using hr
      · exact ih hi' (by simpa using hr)
    · refine Draw.All.bind (fillWords_all W (i + 1)) fun xs hxs => ?_
      show (xs ++ result.drop (i + 1)).length = _
      rw [List.length_append, List.length_drop, hxs.1]; omega

theorem tryFillUniform_length {W : Nat} {words : List Nat} (h0 : words ≠ []) {result : List Nat}
    (hr : result.length = words.length) :
    (tryFillUniform W words result).All fun x => x.2.length = words.length := by
  have hp := List.length_pos_iff.mpr h0
  unfold tryFillUniform
  rw [assertR_true ⟨hp, hr⟩]
  have h1 : words.length - 1 < words.length := by omega
  simp only [Draw.ofR_ok_bind, getR_ok h1]
  refine Draw.All.bind (Draw.all_uniform (Nat.succ_pos _)) fun x _ => ?_
  rw [setR_ok _ (by omega)]
  exact tryFillLoop_length h1 (by simpa using hr)

/-- The attempts together. -/
theorem uniformLoop_cost {W : Nat} (hW : 1 ≤ W) {words : List Nat} (hw : IsWords W words) (h0 : words ≠ [])
    (htop : words.getLast h0 ≠ 0) (t : Nat) {result : List Nat} (hr : result.length = words.length) :
    (uniformLoop W words t result).cost (fun _ => 0) ≤ words.length + 3 := by
  induction t generalizing result with
  | zero => simp only [uniformLoop, Draw.cost]; positivity
  | succ t ih =>
    simp only [uniformLoop, Draw.cost_bind]
    refine le_trans (Draw.cost_mono (tryFillUniform_length h0 hr) (g := retry (words.length + 3)) fun x hx => ?_)
      (tryFillUniform_cost hW hw h0 htop hr)
    unfold retry
    split_ifs
    · exact le_rfl
    · exact ih hx

theorem UBig.uniform_cost {cfg : Cfg} (hv : cfg.Valid) (t : Nat) {r : UBig} (hr : r.WF cfg) :
    (UBig.uniform cfg t r).cost (fun _ => 0) ≤ r.len + 3 := by
  unfold UBig.uniform
  by_cases h : r.beq (.small 0) = false
  · rw [assertR_true h]
    cases r with
    | small w =>
      simp only [Draw.ofR_ok_bind, Draw.cost_bind, Draw.cost_uniform, Draw.cost, UBig.len]
      norm_num
    | large b =>
      have hb : b.WF cfg := hr
      have hlen := hb.len
      have ea := Buffer.allocate_ok (cfg := cfg) (n := b.words.length) (by omega)
      obtain ⟨c, ec, hc1, hc2, hc3⟩ := Buffer.pushZeros_spec (cfg := cfg)
        (b := ⟨[], allocCap cfg b.words.length⟩) (n := b.words.length)
        ⟨by simp [IsWords], by simp⟩ (by simpa using le_allocCap (by omega))
      unfold UBig.uniformLarge
      simp only [Draw.ofR_ok_bind, ea, ec, Draw.cost_bind]
      refine le_trans (le_of_eq ?_) (uniformLoop_cost (by have := hv.W1; omega) hb.words hb.ne_nil hb.last_ne t
        (result := c.words) (by rw [hc2]; simp))
      congr 1
      funext o
      cases o with
      | none => rfl
      | some ws => simp only [Draw.cost_bind, Draw.cost, Draw.cost_const_ofR]
  · have e : (assertR (r.beq (.small 0) = false) : R Unit) = .error .assertFailed := by
      simp only [assertR, if_neg h]
    rw [e]
    show (0 : ℚ) ≤ _
    positivity

theorem UniformUBig.sample_draws {cfg : Cfg} (hv : cfg.Valid) (t : Nat) {d : UniformUBig} (hr : d.range.WF cfg) :
    (d.sample cfg t).draws ≤ d.range.len + 3 := by
  rw [Draw.draws_eq]
  unfold UniformUBig.sample
  rw [Draw.cost_bind]
  refine le_trans (le_of_eq ?_) (UBig.uniform_cost hv t hr)
  congr 1
  funext o
  cases o with
  | none => rfl
  | some u => simp only [Draw.cost_bind, Draw.cost, Draw.cost_const_ofR]

theorem UniformIBig.sample_draws {cfg : Cfg} (hv : cfg.Valid) (t : Nat) {d : UniformIBig} (hr : d.range.WF cfg) :
    (d.sample cfg t).draws ≤ d.range.len + 3 := by
  rw [Draw.draws_eq]
  unfold UniformIBig.sample
  rw [Draw.cost_bind]
  refine le_trans (le_of_eq ?_) (UBig.uniform_cost hv t hr)
  congr 1
  funext o
  cases o with
  | none => rfl
  | some u => simp only [Draw.cost_bind, Draw.cost, Draw.cost_const_ofR]

end Ibig
