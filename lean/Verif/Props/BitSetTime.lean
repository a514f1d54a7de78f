import Verif.Proofs.BitSetTime
import Verif.Spec.ExamplesModular
/-!
C82: a number as a set of bits.

`Timed.Exact.putAll` (Model/BitSetTime.lean) is a sequence of `x.set_bit(i)` (`(true, i)`) and `x.clear_bit(i)` (`(false, i)`)
with the exact number of its steps.  `bitAfter` (Spec/BitSet.lean) is what such a sequence does to one bit.
-/
namespace Ibig
open Timed.Exact

/-- C82: counting steps does not change what the functions return. -/
theorem C82_same_result (cfg : Cfg) (x : UBig) (ps : List (Bool × ℕ)) :
    (putAll cfg x ps).result = ps.foldlM (fun x p => if p.1 then x.setBit cfg p.2 else x.clearBit cfg p.2) x := by
  induction ps generalizing x with
  | nil => rfl
  | cons p ps ih =>
    obtain ⟨_ | _, i⟩ := p
    · exact Timed.result_bind (Timed.Exact.UBig.clearBit_result cfg x i) fun z => ih z
    · exact Timed.result_bind (Timed.Exact.UBig.setBit_result cfg x i) fun z => ih z

/-- C82: setting bits of a number, in any order, all of them below the length of `n` words, takes at most
`41 (number of bits set) + 30 n + 16` steps in total.  `hs`: a vector gets the capacity it asks for. -/
theorem C82_set {cfg : Cfg} (hv : cfg.Valid) (hs : ∀ n, cfg.spare n = 0) {x : UBig} (hx : x.WF cfg) {n : ℕ} (hn1 : 1 ≤ n)
    (hn : n ≤ cfg.maxLen) (hxn : x.value cfg < 2 ^ (n * cfg.W)) {ps : List ℕ} (hp : ∀ i ∈ ps, i < n * cfg.W) :
    ∃ z k, putAll cfg x (ps.map fun i => (true, i)) = .ok (z, k) ∧
      (∀ i, (z.value cfg).testBit i = bitAfter i ((x.value cfg).testBit i) (ps.map fun i => (true, i))) ∧
      k ≤ 41 * ps.length + 30 * n + 16 := by
  obtain ⟨z, k, h1, -, h3, h4⟩ := putAll_set hv hs hn hp hx hxn
  refine ⟨z, k, h1, h3, ?_⟩
  have h5 := potU_le hs hx 0
  have h6 := Timed.UBig.len_le hv hx hn1 hxn
  omega

/-- C82: clearing bits of a number of `n` words, in any order, takes at most `8 (number of bits) + 13 n + 16` steps in total.
(What `clear_bit` returns is the subject of C15.) -/
theorem C82_clear {cfg : Cfg} (hv : cfg.Valid) (hs : ∀ n, cfg.spare n = 0) {x : UBig} (hx : x.WF cfg) {n : ℕ} (hn1 : 1 ≤ n)
    (hxn : x.value cfg < 2 ^ (n * cfg.W)) (ps : List ℕ) :
    ∃ z k, putAll cfg x (ps.map fun i => (false, i)) = .ok (z, k) ∧ k ≤ 8 * ps.length + 13 * n + 16 := by
  obtain ⟨z, k, h1, -, h4⟩ := putAll_clear hv hs (ps := ps) hx
  refine ⟨z, k, h1, ?_⟩
  have h5 := potU_le hs hx 0
  have h6 := Timed.UBig.len_le hv hx hn1 hxn
  omega

/-- C82: setting and clearing bits in any order, all of them below the most significant one of the `n + 1` words of a number,
takes at most `41 (number of operations) + 13 n + 29` steps in total, and leaves each bit as the last operation on it made it. -/
theorem C82_set_clear {cfg : Cfg} (hv : cfg.Valid) (hs : ∀ n, cfg.spare n = 0) {x : UBig} (hx : x.WF cfg) {n : ℕ} (hn1 : 1 ≤ n)
    (hn : n + 1 ≤ cfg.maxLen) (hnx : 2 ^ (n * cfg.W) ≤ x.value cfg) (hxn : x.value cfg < 2 ^ ((n + 1) * cfg.W))
    {ps : List (Bool × ℕ)} (hp : ∀ p ∈ ps, p.2 < n * cfg.W) :
    ∃ z k, putAll cfg x ps = .ok (z, k) ∧
      (∀ i, (z.value cfg).testBit i = bitAfter i ((x.value cfg).testBit i) ps) ∧
      k ≤ 41 * ps.length + 13 * n + 29 := by
  obtain ⟨z, k, h1, -, h3, h4⟩ := putAll_mixed hv hs hn1 hn hp hx hxn hnx
  refine ⟨z, k, h1, h3, ?_⟩
  have h5 := potU_le hs hx 0
  have h6 := Timed.UBig.len_le hv hx (Nat.le_add_left 1 n) hxn
  omega

/-- The first million bits of zero, one after another. -/
example : ∃ z k, putAll cfg64 (.small 0) ((List.range 1000000).map fun i => (true, i)) = .ok (z, k) ∧ k ≤ 41468766 := by
  obtain ⟨z, k, h1, -, h3⟩ := C82_set cfg64_valid (fun _ => rfl) (x := .small 0) (show 0 < 2 ^ 64 by norm_num) (n := 15625)
    (by decide) (by decide) (Nat.two_pow_pos _) (ps := List.range 1000000) (fun i h => List.mem_range.mp h)
  exact ⟨z, k, h1, by rw [List.length_range] at h3; omega⟩

/-- Clearing the bits of a number of 300 words from the top. -/
example : ∃ z k, putAll cfg64 exLong ((List.range 19200).reverse.map fun i => (false, i)) = .ok (z, k) ∧ k ≤ 157516 := by
  obtain ⟨z, k, h1, h3⟩ := C82_clear cfg64_valid (fun _ => rfl) exLong_wf (n := 300) (by decide) (by decide +kernel)
    (List.range 19200).reverse
  exact ⟨z, k, h1, by rw [List.length_reverse, List.length_range] at h3; omega⟩

/-- Setting and clearing a bit of a number of 300 words a thousand times. -/
example : ∃ z k, putAll cfg64 exLong ((List.replicate 1000 [(false, 7), (true, 7)]).flatten) = .ok (z, k) ∧ k ≤ 85916 := by
  obtain ⟨z, k, h1, -, h3⟩ := C82_set_clear cfg64_valid (fun _ => rfl) exLong_wf (n := 299) (by decide) (by decide)
    (by decide +kernel) (by decide +kernel) (ps := (List.replicate 1000 [(false, 7), (true, 7)]).flatten) (fun p h => by
      obtain ⟨l, h1, h2⟩ := List.mem_flatten.mp h
      rw [List.eq_of_mem_replicate h1] at h2
      simp only [List.mem_cons, List.not_mem_nil, or_false] at h2
      rcases h2 with rfl | rfl <;> decide)
  refine ⟨z, k, h1, ?_⟩
  have : ((List.replicate 1000 [(false, 7), (true, 7)]).flatten).length = 2000 := by
    rw [List.length_flatten, List.map_replicate, List.sum_replicate]; rfl
  rw [this] at h3
  omega

end Ibig
