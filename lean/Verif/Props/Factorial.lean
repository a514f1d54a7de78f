import Mathlib.Algebra.BigOperators.Intervals
import Mathlib.Algebra.Order.BigOperators.Ring.Finset
import Mathlib.Data.Nat.Factorial.Basic
import Verif.Model.Factorial
import Verif.Proofs.MulOps
import Verif.Proofs.Mul
import Verif.Proofs.Convert
import Verif.Props.Fmt
import Verif.Proofs.ModularFmt
import Verif.Spec.Examples
import Verif.Spec.ExamplesModular
/-! # C56 (the factorial program): theorems -/
namespace Ibig

open Finset

/-- C56: `product(a, b)` is the product of the numbers from `a` to `b - 1` (or the panic "number too large" if that
is beyond the size limit), with at most `k + 1` nested calls when there are at most `2^k` numbers. -/
theorem C56_product {cfg : Cfg} (hv : cfg.Valid) : ∀ (k : Nat) {a b : Nat}, 1 ≤ a → a < b → b < 2 ^ 32 →
    b - a ≤ 2 ^ k → Yields cfg (exProduct cfg (k + 1) a b) (∏ i ∈ Ico a b, i) := by
  intro k
  induction k with
  | zero =>
    intro a b ha hab hb hk
    have hb1 : b = a + 1 := by rw [pow_zero] at hk; omega
    obtain ⟨c, e, h1, h2⟩ := UBig.fromUnsigned_ok hv (b := 32) (by unfold PBits; omega) (x := a) (by omega)
    have hval : ∏ i ∈ Ico a b, i = a := by rw [hb1, Nat.Ico_succ_singleton, prod_singleton]
    have hx : exProduct cfg (0 + 1) a b = .ok c := by
      unfold exProduct
      rw [ckAdd, if_pos (by omega)]
      simp only [bind, Except.bind]
      rw [if_pos hb1, e]
    rw [hx, hval]
    exact ⟨fun _ => ⟨c, rfl, h1, h2⟩, fun h => absurd (by rw [← h2]; exact h1.fits hv) h⟩
  | succ k ih =>
    intro a b ha hab hb hk
    by_cases hb1 : b = a + 1
    · obtain ⟨c, e, h1, h2⟩ := UBig.fromUnsigned_ok hv (b := 32) (by unfold PBits; omega) (x := a) (by omega)
      have hval : ∏ i ∈ Ico a b, i = a := by rw [hb1, Nat.Ico_succ_singleton, prod_singleton]
      have hx : exProduct cfg (k + 1 + 1) a b = .ok c := by
        rw [exProduct, ckAdd, if_pos (by omega)]
        simp only [bind, Except.bind]
        rw [if_pos hb1, e]
      rw [hx, hval]
      exact ⟨fun _ => ⟨c, rfl, h1, h2⟩, fun h => absurd (by rw [← h2]; exact h1.fits hv) h⟩
    · have hp : (2 : Nat) ^ (k + 1) = 2 * 2 ^ k := by rw [pow_succ']
      have hm1 : a < a + (b - a) / 2 := by omega
      have hm2 : a + (b - a) / 2 < b := by omega
      have e : exProduct cfg (k + 1 + 1) a b = (do
          let x ← exProduct cfg (k + 1) a (a + (b - a) / 2)
          let y ← exProduct cfg (k + 1) (a + (b - a) / 2) b
          UBig.mul cfg .val .val x y) := by
        rw [exProduct, ckAdd, if_pos (by omega)]
        simp only [bind, Except.bind]
        rw [if_neg hb1, ckSub, if_pos (by omega)]
        simp only
        rw [ckAdd, if_pos (by omega)]
      have hl := ih ha hm1 (by omega) (by omega)
      have hr := ih (a := a + (b - a) / 2) (by omega) hm2 hb (by omega)
      have hsplit := prod_Ico_consecutive (fun i => i) hm1.le hm2.le
      rw [e]
      generalize a + (b - a) / 2 = mid at *
      have pos : ∀ x y : Nat, 1 ≤ x → 1 ≤ ∏ i ∈ Ico x y, i := fun x y hx =>
        Nat.succ_le_of_lt (prod_pos fun i hi => by have := (mem_Ico.mp hi).1; omega)
      have p1 := pos a mid ha
      have p2 := pos mid b (by omega)
      rw [← hsplit]
      generalize ∏ i ∈ Ico a mid, i = m at *
      generalize ∏ i ∈ Ico mid b, i = n at *
      by_cases f1 : Fits cfg m
      · obtain ⟨x, ex, x1, x2⟩ := hl.1 f1
        rw [ex]
        simp only [bind, Except.bind]
        by_cases f2 : Fits cfg n
        · obtain ⟨y, ey, y1, y2⟩ := hr.1 f2
          rw [ey, ← x2, ← y2]
          exact UBig.mul_spec hv _ _ x1 y1
        · rw [hr.2 f2]
          exact ⟨fun h => absurd (h.mono (Nat.le_mul_of_pos_left _ p1)) f2, fun _ => rfl⟩
      · rw [hl.2 f1]
        exact ⟨fun h => absurd (h.mono (Nat.le_mul_of_pos_right _ p2)) f1, fun _ => rfl⟩

/-- `1 * 2 * ... * 1000` -/
example := C56_product cfg64_valid 10 (a := 1) (b := 1001) (by decide) (by decide) (by decide) (by decide)

/-- C56: for every `n` with `1 ≤ n < 2^32 - 1` the program prints `n`, `"! = 0x"` and the hexadecimal digits of
`n!`, if `n!` is within the size limit; otherwise it panics with "number too large". -/
theorem C56_factorial {cfg : Cfg} (hv : cfg.Valid) (be : Bool) {n : Nat} (h1 : 1 ≤ n) (h2 : n + 1 < 2 ^ 32) :
    (Fits cfg n.factorial → ∃ dec hex, IsNumeralText 10 n false dec ∧ IsNumeralText 16 n.factorial false hex ∧
      exFactorial cfg be n = .ok (dec ++ "! = 0x".toList.map Char.toNat ++ hex ++ "\n".toList.map Char.toNat)) ∧
    (¬Fits cfg n.factorial → exFactorial cfg be n = .error .tooLarge) := by
  have hf : ∏ i ∈ Ico 1 (n + 1), i = n.factorial := prod_Ico_id_eq_factorial n
  have hy := C56_product hv (bitLen n) (le_refl 1) (show 1 < n + 1 by omega) h2
    (by have := lt_two_pow_bitLen n; omega)
  rw [hf] at hy
  have e : exFactorial cfg be n = (do
      let factorial ← exProduct cfg (bitLen n + 1) 1 (n + 1)
      let text ← factorial.fmt cfg be .lowerHex { FmtFlags.default with alternate := true }
      .ok (primFmt 32 .display n .default ++ [33, 32, 61, 32] ++ text ++ [10])) := by
    rw [exFactorial, ckAdd, if_pos h2]; rfl
  rw [e]
  refine ⟨fun hfit => ?_, fun hfit => by rw [hy.2 hfit]; rfl⟩
  obtain ⟨c, ec, c1, c2⟩ := hy.1 hfit
  obtain ⟨text, hex, a1, a2, a3⟩ := (C23_traits hv be .lowerHex { FmtFlags.default with alternate := true } c1
    (y := ⟨.pos, c⟩) ⟨c1, fun _ => rfl⟩).1
  obtain ⟨t2, dec, b1, b2, b3⟩ := primFmt_prints (W := 32) .display (n := n) (show n < 2 ^ 32 by omega) .default
  simp only [Padded, FmtFlags.default] at a3 b3
  refine ⟨dec, hex, b2, by rw [← c2]; exact a2, ?_⟩
  rw [ec]
  simp only [bind, Except.bind, a1]
  have b4 : primFmt 32 .display n .default = dec := by
    have : primFmt 32 .display n .default = t2 := Except.ok.inj b1
    rw [this, b3]; simp [signText]
  rw [b4, a3]
  simp [signText, traitPrefix]

/-- 1000!: it has fewer than `1000 * 10` bits. -/
example := (C56_factorial cfg64_valid false (n := 1000) (by decide) (by decide)).1
  (fitsEx 10000 (lt_of_le_of_lt (Nat.factorial_le_pow 1000) (by decide +kernel)) (by decide))

/-- C56: the program as it is (`n = 1000000`) prints 1000000! on every build that allows numbers of 20 million
bits. -/
theorem C56_main {cfg : Cfg} (hv : cfg.Valid) (be : Bool) (h : 20000000 ≤ cfg.maxLen * cfg.W) :
    ∃ dec hex, IsNumeralText 10 1000000 false dec ∧ IsNumeralText 16 (Nat.factorial 1000000) false hex ∧
      exFactorial cfg be 1000000 =
        .ok (dec ++ "! = 0x".toList.map Char.toNat ++ hex ++ "\n".toList.map Char.toNat) := by
  refine (C56_factorial hv be (n := 1000000) (by norm_num) (by norm_num)).1 ?_
  have gen : ∀ n k m : Nat, n < 2 ^ k → n ≠ 0 → k * n ≤ m → n.factorial < 2 ^ m := fun n k m h1 h2 h3 =>
    calc n.factorial ≤ n ^ n := Nat.factorial_le_pow n
      _ < (2 ^ k) ^ n := Nat.pow_lt_pow_left h1 h2
      _ = 2 ^ (k * n) := by rw [pow_mul]
      _ ≤ 2 ^ m := Nat.pow_le_pow_right (by norm_num) h3
  exact gen 1000000 20 _ (by norm_num) (by norm_num) (by omega)

/-- On a 64-bit build. -/
example := C56_main cfg64_valid false (by decide +kernel)

example : exFactorial cfg16 false 30 = .ok (asciiBytes "30! = 0xd13f6370f96865df5dd54000000\n") := by decide +kernel
example : 20000000 ≤ cfg64.maxLen * cfg64.W := by decide +kernel

end Ibig
