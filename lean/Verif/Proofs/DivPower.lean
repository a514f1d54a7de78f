import Verif.Proofs.DivCost
import Verif.Proofs.MulPower
/-!
The recurrences of division solved: at most `190 N n^0.47` steps for `N` words divided by `n` words.
-/
namespace Ibig.Timed

/-- half of the length -/
theorem half_rpow47 {p n : ℕ} (hn : 33 ≤ n) (h : 2 * p ≤ n + 1) :
    (p : ℝ) ^ (47 / 100 : ℝ) ≤ 3 / 4 * (n : ℝ) ^ (47 / 100 : ℝ) := by
  have h1 : (p : ℝ) ≤ 17 / 33 * n := by
    have h2 : (2 : ℝ) * p ≤ n + 1 := by exact_mod_cast h
    have h3 : (33 : ℝ) ≤ n := by exact_mod_cast hn
    linarith
  have h2 := Real.rpow_le_rpow (Nat.cast_nonneg p) h1 (show (0 : ℝ) ≤ 47 / 100 by norm_num)
  rw [Real.mul_rpow (by norm_num) (Nat.cast_nonneg n)] at h2
  refine h2.trans (mul_le_mul_of_nonneg_right ?_ (Real.rpow_nonneg (Nat.cast_nonneg n) _))
  refine le_of_pow_100 (by norm_num) ?_
  have e := rpow_pow_100 (show (0 : ℝ) ≤ 17 / 33 by norm_num) 47
  push_cast at e
  rw [e]
  norm_num

theorem five_le_rpow47 {n : ℕ} (hn : 33 ≤ n) : (5 : ℝ) ≤ (n : ℝ) ^ (47 / 100 : ℝ) := by
  have := le_mul_rpow47 (x := 5) (C := 1) (n := n) ?_
  · push_cast at this
    linarith
  · rw [one_pow, one_mul]
    exact le_trans (by norm_num) (Nat.pow_le_pow_left hn 47)

theorem le_seven_rpow47 {b : ℕ} (h : b ≤ 32) : (b : ℝ) ≤ 7 * (b : ℝ) ^ (47 / 100 : ℝ) := by
  have : ((b : ℕ) : ℝ) ≤ ((7 : ℕ) : ℝ) * (b : ℝ) ^ (47 / 100 : ℝ) := by
    refine le_mul_rpow47 ?_
    calc b ^ 100 = b ^ 53 * b ^ 47 := by rw [← pow_add]
      _ ≤ 32 ^ 53 * b ^ 47 := Nat.mul_le_mul_right _ (Nat.pow_le_pow_left h _)
      _ ≤ 7 ^ 100 * b ^ 47 := Nat.mul_le_mul_right _ (by norm_num)
  exact_mod_cast this

theorem rpow47_mono {a b : ℕ} (h : a ≤ b) : (a : ℝ) ^ (47 / 100 : ℝ) ≤ (b : ℝ) ^ (47 / 100 : ℝ) :=
  Real.rpow_le_rpow (Nat.cast_nonneg a) (by exact_mod_cast h) (by norm_num)

theorem rpow47_nonneg (a : ℕ) : (0 : ℝ) ≤ (a : ℝ) ^ (47 / 100 : ℝ) := Real.rpow_nonneg (Nat.cast_nonneg a) _

/-- one level of the recursion -/
theorem dcCost_succ_le {fuel : ℕ}
    (h : ∀ n : ℕ, 33 ≤ n → (dcSameCost fuel n : ℝ) ≤ 165 * n * (n : ℝ) ^ (47 / 100 : ℝ)) {n m : ℕ} (hmn : m < n) :
    (dcCost (fuel + 1) n m : ℝ) ≤
      165 * m * (m : ℝ) ^ (47 / 100 : ℝ) + 22 * n * (m : ℝ) ^ (47 / 100 : ℝ) + 18 * n + 41 := by
  rw [dcCost]
  have hP := rpow47_nonneg m
  have hmn' : (m : ℝ) ≤ n := by exact_mod_cast hmn.le
  have hm0 : (0 : ℝ) ≤ m := Nat.cast_nonneg m
  have hn0 : (0 : ℝ) ≤ n := Nat.cast_nonneg n
  by_cases hm : m ≤ 32
  · rw [if_pos hm]
    unfold simpleDivCost
    push_cast
    have h7 := le_seven_rpow47 hm
    have h1 : (m : ℝ) * n ≤ 7 * (m : ℝ) ^ (47 / 100 : ℝ) * n := mul_le_mul_of_nonneg_right h7 hn0
    have h2 : 0 ≤ (m : ℝ) * (m : ℝ) ^ (47 / 100 : ℝ) := mul_nonneg hm0 hP
    have h3 : 0 ≤ (n : ℝ) * (m : ℝ) ^ (47 / 100 : ℝ) := mul_nonneg hn0 hP
    nlinarith
  · rw [if_neg hm]
    have hs := h m (by omega)
    unfold dcSameCost at hs
    have hc := mulCost2_le (mulDepth (min m (n - m))) (a := max m (n - m)) (b := min m (n - m)) (by omega) (by omega)
    have e : ((max m (n - m) : ℕ) : ℝ) + ((min m (n - m) : ℕ) : ℝ) = n := by
      have : max m (n - m) + min m (n - m) = n := by omega
      exact_mod_cast this
    rw [e] at hc
    have hmin := rpow47_mono (show min m (n - m) ≤ m by omega)
    have h4 := mul_le_mul_of_nonneg_left hmin (show (0 : ℝ) ≤ 22 * n by linarith)
    push_cast at hs ⊢
    push_cast at hc h4
    linarith

theorem dcSameCost_le (fuel : ℕ) : ∀ n : ℕ, 33 ≤ n →
    (dcSameCost fuel n : ℝ) ≤ 165 * n * (n : ℝ) ^ (47 / 100 : ℝ) := by
  induction fuel with
  | zero =>
    intro n hn
    have h5 := five_le_rpow47 hn
    have hn' : (33 : ℝ) ≤ n := by exact_mod_cast hn
    unfold dcSameCost dcCost
    push_cast
    nlinarith
  | succ fuel ih =>
    intro n hn
    have h1 := dcCost_succ_le ih (show n - n / 2 < n by omega)
    have h2 := dcCost_succ_le ih (show n / 2 < n by omega)
    have hp := half_rpow47 hn (show 2 * (n - n / 2) ≤ n + 1 by omega)
    have hp' := half_rpow47 hn (show 2 * (n / 2) ≤ n + 1 by omega)
    have hQ := five_le_rpow47 hn
    have hn' : (33 : ℝ) ≤ n := by exact_mod_cast hn
    have hsum : ((n - n / 2 : ℕ) : ℝ) + ((n / 2 : ℕ) : ℝ) = n := by
      have : (n - n / 2) + n / 2 = n := by omega
      exact_mod_cast this
    unfold dcSameCost
    have c1 : (0 : ℝ) ≤ ((n - n / 2 : ℕ) : ℝ) := Nat.cast_nonneg _
    have c2 : (0 : ℝ) ≤ ((n / 2 : ℕ) : ℝ) := Nat.cast_nonneg _
    push_cast at *
    generalize ((n - n / 2 : ℕ) : ℝ) ^ (47 / 100 : ℝ) = P at *
    generalize ((n / 2 : ℕ) : ℝ) ^ (47 / 100 : ℝ) = P' at *
    generalize (n : ℝ) ^ (47 / 100 : ℝ) = Q at *
    generalize ((n - n / 2 : ℕ) : ℝ) = p at *
    generalize ((n / 2 : ℕ) : ℝ) = p' at *
    generalize (n : ℝ) = x at *
    have a1 := mul_le_mul_of_nonneg_left hp c1
    have a2 := mul_le_mul_of_nonneg_left hp' c2
    have a3 := mul_le_mul_of_nonneg_left hp (show (0 : ℝ) ≤ x by linarith)
    have a4 := mul_le_mul_of_nonneg_left hp' (show (0 : ℝ) ≤ x by linarith)
    have a5 : p * (3 / 4 * Q) + p' * (3 / 4 * Q) = 3 / 4 * (x * Q) := by rw [← hsum]; ring
    have a6 := mul_le_mul_of_nonneg_left hQ (show (0 : ℝ) ≤ x by linarith)
    nlinarith

/-- Division in place: at most `60 N n^0.47` steps for the schoolbook division, which is used if the divisor or
the quotient is short, and `195 N n^0.47` steps otherwise. -/
theorem divRemInPlace_steps {W : Nat} {lhs rhs : List Nat} {fd : FastDivideNormalized} {mem : Nat}
    (hr : TopNorm W rhs) {r : List Nat × Bool} {k : Nat} (hk : divRemInPlace W lhs rhs fd mem = .ok (r, k)) :
    (k : ℝ) ≤ 60 * lhs.length * (rhs.length : ℝ) ^ (47 / 100 : ℝ) ∨
    (66 ≤ lhs.length ∧ 33 ≤ rhs.length ∧
      (k : ℝ) ≤ 195 * lhs.length * (rhs.length : ℝ) ^ (47 / 100 : ℝ)) := by
  have hB : ∀ m < rhs.length, dcCost (bitLen rhs.length + 1) rhs.length m ≤
      ⌊187 * (rhs.length : ℝ) * (rhs.length : ℝ) ^ (47 / 100 : ℝ) + 18 * rhs.length + 41⌋₊ := by
    intro m hm
    refine Nat.le_floor ((dcCost_succ_le (dcSameCost_le _) hm).trans ?_)
    have h1 := rpow47_mono hm.le
    have h2 : (m : ℝ) ≤ rhs.length := by exact_mod_cast hm.le
    have h3 := mul_le_mul h2 h1 (rpow47_nonneg m) (Nat.cast_nonneg _)
    have h4 := mul_le_mul_of_nonneg_left h1 (Nat.cast_nonneg rhs.length : (0 : ℝ) ≤ rhs.length)
    nlinarith
  obtain ⟨h1, -, h2, h3⟩ := takes_divRemInPlace (lhs := lhs) (fd := fd) (mem := mem) hr hB r k hk
  have hQ1 := one_le_rpow47 (b := rhs.length) (by omega)
  have hf := Nat.floor_le (show (0 : ℝ) ≤ 187 * (rhs.length : ℝ) * (rhs.length : ℝ) ^ (47 / 100 : ℝ) +
    18 * rhs.length + 41 by positivity)
  generalize hn : rhs.length = n at *
  generalize hN : lhs.length = N at *
  have hnN : (n : ℝ) ≤ N := by exact_mod_cast h2
  have hn2 : (2 : ℝ) ≤ n := by exact_mod_cast h3
  by_cases hs : n ≤ 32 ∨ N - n ≤ 32
  · left
    rw [if_pos hs] at h1
    unfold simpleDivCost at h1
    have h1' : (k : ℝ) ≤ ((N - n : ℕ) : ℝ) * (2 * n + 16) + 2 * n + 10 + 1 := by exact_mod_cast h1
    rw [Nat.cast_sub h2] at h1'
    rcases hs with hs | hs
    · have h7 := le_seven_rpow47 hs
      generalize (n : ℝ) ^ (47 / 100 : ℝ) = Q at *
      have a1 : ((N : ℝ) - n) * n ≤ N * (7 * Q) :=
        mul_le_mul (by linarith) h7 (by linarith) (by linarith)
      have a2 : (N : ℝ) * 1 ≤ N * Q := mul_le_mul_of_nonneg_left hQ1 (by linarith)
      nlinarith
    · have h32 : (N : ℝ) - n ≤ 32 := by
        have : N ≤ 32 + n := by omega
        have : (N : ℝ) ≤ 32 + n := by exact_mod_cast this
        linarith
      by_cases hn32 : n ≤ 32
      · have h7 := le_seven_rpow47 hn32
        generalize (n : ℝ) ^ (47 / 100 : ℝ) = Q at *
        have a1 : ((N : ℝ) - n) * n ≤ N * (7 * Q) :=
          mul_le_mul (by linarith) h7 (by linarith) (by linarith)
        have a2 : (N : ℝ) * 1 ≤ N * Q := mul_le_mul_of_nonneg_left hQ1 (by linarith)
        nlinarith
      · have h5 := five_le_rpow47 (n := n) (by omega)
        generalize (n : ℝ) ^ (47 / 100 : ℝ) = Q at *
        have a1 : ((N : ℝ) - n) * n ≤ 32 * n := mul_le_mul_of_nonneg_right h32 (by linarith)
        have a2 : (N : ℝ) * 5 ≤ N * Q := mul_le_mul_of_nonneg_left h5 (by linarith)
        nlinarith
  · right
    rw [if_neg hs] at h1
    refine ⟨by omega, by omega, ?_⟩
    have h5 := five_le_rpow47 (n := n) (by omega)
    have hS := dcSameCost_le (bitLen n + 1) n (by omega)
    have h66 : (66 : ℝ) ≤ N := by
      have : 66 ≤ N := by omega
      exact_mod_cast this
    have hd : (N / n - 1) * n + n ≤ N := by
      have h1 : 1 ≤ N / n := (Nat.one_le_div_iff (by omega)).mpr h2
      have h2 := Nat.div_mul_le_self N n
      have h3 : (N / n - 1) * n + n = N / n * n := by
        rw [← Nat.succ_mul]
        congr 1
        omega
      omega
    have hd' : ((N / n - 1 : ℕ) : ℝ) * n + n ≤ N := by exact_mod_cast hd
    have hd2 : ((N / n - 1 : ℕ) : ℝ) ≤ N := by
      have : N / n - 1 ≤ N := (Nat.sub_le _ _).trans (Nat.div_le_self _ _)
      exact_mod_cast this
    have hd0 : (0 : ℝ) ≤ ((N / n - 1 : ℕ) : ℝ) := Nat.cast_nonneg _
    have h1' : (k : ℝ) ≤ ((N / n - 1 : ℕ) : ℝ) * (dcSameCost (bitLen n + 1) n + 2) +
        (⌊187 * (n : ℝ) * (n : ℝ) ^ (47 / 100 : ℝ) + 18 * n + 41⌋₊ : ℝ) + 5 := by exact_mod_cast h1
    generalize ((N / n - 1 : ℕ) : ℝ) = d at *
    generalize (n : ℝ) ^ (47 / 100 : ℝ) = Q at *
    have a1 := mul_le_mul_of_nonneg_left hS hd0
    have a2 : (d * n + n) * Q ≤ N * Q := mul_le_mul_of_nonneg_right hd' (by linarith)
    have a3 : (N : ℝ) * 5 ≤ N * Q := mul_le_mul_of_nonneg_left h5 (by linarith)
    have a4 : (n : ℝ) * Q ≤ N * Q := mul_le_mul_of_nonneg_right hnN (by linarith)
    nlinarith

/-- the bound of `divRemInPlace_steps` as a natural number -/
noncomputable def inPlaceBound (N n : ℕ) : ℕ :=
  if N < 66 ∨ n < 33 then ⌊60 * (N : ℝ) * (n : ℝ) ^ (47 / 100 : ℝ)⌋₊
  else ⌊195 * (N : ℝ) * (n : ℝ) ^ (47 / 100 : ℝ)⌋₊

theorem takes_divRemInPlace_bound {W : Nat} {lhs rhs : List Nat} {fd : FastDivideNormalized} {mem : Nat}
    (hr : TopNorm W rhs) :
    Takes (divRemInPlace W lhs rhs fd mem) (inPlaceBound lhs.length rhs.length)
      (fun p => p.1.length = lhs.length ∧ 2 ≤ rhs.length) := by
  intro r k hk
  obtain ⟨-, h2, h3, h4⟩ := takes_divRemInPlace (B := ∑ m ∈ Finset.range rhs.length,
    dcCost (bitLen rhs.length + 1) rhs.length m) hr (fun m hm =>
      Finset.single_le_sum (f := fun m => dcCost (bitLen rhs.length + 1) rhs.length m) (fun _ _ => Nat.zero_le _)
        (Finset.mem_range.mpr hm)) r k hk
  refine ⟨?_, h2, h4⟩
  have hQ : (0 : ℝ) ≤ lhs.length * (rhs.length : ℝ) ^ (47 / 100 : ℝ) := by positivity
  unfold inPlaceBound
  rcases divRemInPlace_steps hr hk with h | ⟨h5, h6, h⟩
  · split <;> refine Nat.le_floor ?_
    · exact h
    · linarith
  · rw [if_neg (by omega)]
    exact Nat.le_floor h

theorem inPlaceBound_mono {N N' n : ℕ} (h : N ≤ N') : inPlaceBound N n ≤ inPlaceBound N' n := by
  have h1 : (N : ℝ) ≤ N' := by exact_mod_cast h
  have h2 := mul_le_mul_of_nonneg_right h1 (rpow47_nonneg n)
  have h3 : (0 : ℝ) ≤ N * (n : ℝ) ^ (47 / 100 : ℝ) := by positivity
  unfold inPlaceBound
  split
  · split
    · exact Nat.floor_le_floor (by linarith)
    · exact Nat.floor_le_floor (by linarith)
  · rw [if_neg (by omega)]
    exact Nat.floor_le_floor (by linarith)

end Ibig.Timed
