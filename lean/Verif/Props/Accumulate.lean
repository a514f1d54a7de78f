import Verif.Proofs.AccumulateOps
import Verif.Proofs.MulOpsTime
import Verif.Spec.ExamplesModular
/-!
C81: adding many numbers to an accumulator takes linear time in total.

`Timed.Exact.addAll` (Model/Accumulate.lean) is the loop `for y in ys { x += y }` with the exact number of its steps (an element
of the list says whether `y` is passed by value or by reference); `subAll` is the loop with `x -= y`.  A single `x += y` can
take as many steps as `x` has words, because of a carry or because the buffer is full; the theorems say that this does not
happen often.
-/
namespace Ibig
open Timed.Exact

/-- C81: counting steps does not change what the loops return. -/
theorem C81_same_result (cfg : Cfg) (x : UBig) (ys : List (Own × UBig)) :
    (addAll cfg x ys).result = ys.foldlM (fun x y => UBig.add cfg .val y.1 x y.2) x ∧
    (subAll cfg x ys).result = ys.foldlM (fun x y => UBig.sub cfg .val y.1 x y.2) x := by
  constructor
  · induction ys generalizing x with
    | nil => rfl
    | cons y ys ih => exact Timed.result_bind (Timed.Exact.UBig.add_result cfg y.1 x y.2) fun z => ih z
  · induction ys generalizing x with
    | nil => rfl
    | cons y ys ih => exact Timed.result_bind (Timed.Exact.UBig.sub_result cfg y.1 x y.2) fun z => ih z

/-- C81: adding numbers of at most `m` words one after another to a number of `n` words takes at most
`(28 m + 56) (number of additions) + 13 n + 16` steps in total, however long the sum becomes.  `hs`: a vector gets the capacity
it asks for. -/
theorem C81_add {cfg : Cfg} (hv : cfg.Valid) (hs : ∀ n, cfg.spare n = 0) {x : UBig} (hx : x.WF cfg)
    {ys : List (Own × UBig)} (hy : ∀ y ∈ ys, y.2.WF cfg) {n m : ℕ} (hn : 1 ≤ n) (hm : 1 ≤ m)
    (hxn : x.value cfg < 2 ^ (n * cfg.W)) (hym : ∀ y ∈ ys, y.2.value cfg < 2 ^ (m * cfg.W))
    (hfit : Fits cfg (x.value cfg + (ys.map fun y => y.2.value cfg).sum)) :
    ∃ z k, addAll cfg x ys = .ok (z, k) ∧ ys.foldlM (fun x y => UBig.add cfg .val y.1 x y.2) x = .ok z ∧
      z.value cfg = x.value cfg + (ys.map fun y => y.2.value cfg).sum ∧
      k ≤ (28 * m + 56) * ys.length + 13 * n + 16 := by
  obtain ⟨z, k, h1, -, h3, h4⟩ := addAll_steps hv hs hx (m := m)
    (fun y h => ⟨hy y h, Timed.UBig.len_le hv (hy y h) hm (hym y h)⟩) hfit
  refine ⟨z, k, h1, ?_, h3, ?_⟩
  · rw [← (C81_same_result cfg x ys).1, h1]; rfl
  · have h5 := potU_le hs hx (base cfg.W - 1)
    have h6 := Timed.UBig.len_le hv hx hn hxn
    omega

/-- C81: a counter.  Adding 1 `k` times to a number of `n` words takes at most `84 k + 13 n + 16` steps. -/
theorem C81_counter {cfg : Cfg} (hv : cfg.Valid) (hs : ∀ n, cfg.spare n = 0) {x : UBig} (hx : x.WF cfg) {n : ℕ} (hn : 1 ≤ n)
    (hxn : x.value cfg < 2 ^ (n * cfg.W)) (k : ℕ) (hfit : Fits cfg (x.value cfg + k)) :
    ∃ z steps, addAll cfg x (List.replicate k (.val, .small 1)) = .ok (z, steps) ∧ z.value cfg = x.value cfg + k ∧
      steps ≤ 84 * k + 13 * n + 16 := by
  have h1 : 1 < 2 ^ cfg.W := Nat.one_lt_two_pow (by have := hv.W16; omega)
  have e : ((List.replicate k ((.val, .small 1) : Own × UBig)).map fun y => y.2.value cfg).sum = k := by
    rw [List.map_replicate, List.sum_replicate]
    show k * 1 = k
    omega
  obtain ⟨z, s, h2, -, h3, h4⟩ := C81_add hv hs hx (ys := List.replicate k (.val, .small 1)) (n := n) (m := 1)
    (fun y h => by rw [List.eq_of_mem_replicate h]; exact h1) hn le_rfl hxn
    (fun y h => by rw [List.eq_of_mem_replicate h, one_mul]; exact h1) (by rw [e]; exact hfit)
  refine ⟨z, s, h2, by rw [h3, e], ?_⟩
  rw [List.length_replicate] at h4
  omega

/-- C81: subtracting numbers of at most `m` words one after another from a number of `n` words, as long as the difference
is not negative, takes at most `(2 m + 9) (number of subtractions) + 13 n + 16` steps in total. -/
theorem C81_sub {cfg : Cfg} (hv : cfg.Valid) (hs : ∀ n, cfg.spare n = 0) {x : UBig} (hx : x.WF cfg)
    {ys : List (Own × UBig)} (hy : ∀ y ∈ ys, y.2.WF cfg) {n m : ℕ} (hn : 1 ≤ n) (hm : 1 ≤ m)
    (hxn : x.value cfg < 2 ^ (n * cfg.W)) (hym : ∀ y ∈ ys, y.2.value cfg < 2 ^ (m * cfg.W))
    (hle : (ys.map fun y => y.2.value cfg).sum ≤ x.value cfg) :
    ∃ z k, subAll cfg x ys = .ok (z, k) ∧ ys.foldlM (fun x y => UBig.sub cfg .val y.1 x y.2) x = .ok z ∧
      z.value cfg = x.value cfg - (ys.map fun y => y.2.value cfg).sum ∧
      k ≤ (2 * m + 9) * ys.length + 13 * n + 16 := by
  obtain ⟨z, k, h1, -, h3, h4⟩ := subAll_steps hv hs hx (m := m)
    (fun y h => ⟨hy y h, Timed.UBig.len_le hv (hy y h) hm (hym y h)⟩) hle
  refine ⟨z, k, h1, ?_, h3, ?_⟩
  · rw [← (C81_same_result cfg x ys).2, h1]; rfl
  · have h5 := potU_le hs hx 0
    have h6 := Timed.UBig.len_le hv hx hn hxn
    omega

/-- C81: the bounds are for one direction only.  Each round of `x += 1; x -= 1` on the number `2 ^ (n W) - 1` takes at least `n`
steps. -/
theorem C81_up_down {cfg : Cfg} (hv : cfg.Valid) {n : ℕ} (hn : 2 ≤ n) (hf : Fits cfg (2 ^ (n * cfg.W))) {x : UBig}
    (hx : x.WF cfg) (he : x.value cfg = 2 ^ (n * cfg.W) - 1) (k : ℕ) :
    ∃ z steps, upDown cfg x k = .ok (z, steps) ∧ z.value cfg = x.value cfg ∧ k * n ≤ steps := by
  have e : base cfg.W ^ n = 2 ^ (n * cfg.W) := by unfold base; rw [← pow_mul, mul_comm]
  have h1 : 0 < 2 ^ (n * cfg.W) := Nat.two_pow_pos _
  obtain ⟨z, l, h2, -, h3, h4⟩ := upDown_steps hv hn (by rw [e]; exact hf) hx (by rw [e]; omega) k
  exact ⟨z, l, h2, h3, h4⟩

/-- Adding 1000 owned and borrowed numbers of two words to a number of 300 words. -/
example : ∃ z k, addAll cfg64 exLong (List.replicate 500 (.val, exA) ++ List.replicate 500 (.ref, exB)) = .ok (z, k) ∧
    k ≤ 115916 := by
  obtain ⟨z, k, h1, -, -, h4⟩ := C81_add cfg64_valid (fun _ => rfl) exLong_wf
    (ys := List.replicate 500 (.val, exA) ++ List.replicate 500 (.ref, exB)) (n := 300) (m := 2)
    (fun y h => by
      rcases List.mem_append.mp h with h | h <;> rw [List.eq_of_mem_replicate h]
      · exact exA_wf
      · exact exB_wf) (by decide) (by decide) (by decide +kernel)
    (fun y h => by
      rcases List.mem_append.mp h with h | h <;> rw [List.eq_of_mem_replicate h] <;> decide +kernel)
    (by
      rw [List.map_append, List.map_replicate, List.map_replicate, List.sum_append, List.sum_replicate, List.sum_replicate]
      exact fitsEx (301 * 64) (by decide +kernel) (by decide))
  refine ⟨z, k, h1, ?_⟩
  rw [List.length_append, List.length_replicate, List.length_replicate] at h4
  omega

/-- Counting from 0 to a million. -/
example : ∃ z k, addAll cfg64 (.small 0) (List.replicate 1000000 (.val, .small 1)) = .ok (z, k) ∧ z.value cfg64 = 1000000 ∧
    k ≤ 84000029 := by
  obtain ⟨z, k, h1, h2, h3⟩ := C81_counter cfg64_valid (fun _ => rfl) (x := .small 0) (show 0 < 2 ^ 64 by norm_num) (n := 1)
    le_rfl (show 0 < 2 ^ (1 * 64) by norm_num) 1000000 (fitsEx 20 (by decide) (by decide))
  exact ⟨z, k, h1, h2.trans (Nat.zero_add _), by omega⟩

/-- Subtracting a two-word number from a number of 300 words a thousand times. -/
example : ∃ z k, subAll cfg64 exLong (List.replicate 1000 (.ref, exB)) = .ok (z, k) ∧ k ≤ 16916 := by
  obtain ⟨z, k, h1, -, -, h4⟩ := C81_sub cfg64_valid (fun _ => rfl) exLong_wf (ys := List.replicate 1000 (.ref, exB))
    (n := 300) (m := 2) (fun y h => by rw [List.eq_of_mem_replicate h]; exact exB_wf) (by decide) (by decide)
    (by decide +kernel) (fun y h => by rw [List.eq_of_mem_replicate h]; decide +kernel)
    (by rw [List.map_replicate, List.sum_replicate]; decide +kernel)
  refine ⟨z, k, h1, ?_⟩
  rw [List.length_replicate] at h4
  omega

/-- A thousand rounds of `x += 1; x -= 1` on a number of 300 words. -/
example : ∃ z k, upDown cfg64 exLong 1000 = .ok (z, k) ∧ 300000 ≤ k := by
  obtain ⟨z, k, h1, -, h3⟩ := C81_up_down cfg64_valid (n := 300) (by decide) (fitsEx (301 * 64) (by decide +kernel) (by decide))
    exLong_wf (by decide +kernel) 1000
  exact ⟨z, k, h1, by omega⟩

end Ibig
