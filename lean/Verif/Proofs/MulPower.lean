import Verif.Proofs.MulCost
import Mathlib.Analysis.SpecialFunctions.Pow.Real
import Mathlib.Tactic.Linarith
import Mathlib.Tactic.NormNum
import Mathlib.Tactic.Positivity
/-!
The recurrences of MulCost.lean have solutions of order `n^1.47`.
-/
namespace Ibig.Timed

theorem rpow_pow_100 {x : ℝ} (hx : 0 ≤ x) (m : ℕ) : (x ^ ((m : ℝ) / 100)) ^ 100 = x ^ m := by
  rw [← Real.rpow_natCast (x ^ ((m : ℝ) / 100)) 100, ← Real.rpow_mul hx, ← Real.rpow_natCast x m]
  congr 1
  push_cast
  ring

theorem le_of_pow_100 {x y : ℝ} (hy : 0 ≤ y) (h : x ^ 100 ≤ y ^ 100) : x ≤ y :=
  le_of_pow_le_pow_left₀ (by norm_num) hy h

/-- a comparison with `n^1.47` is a comparison of natural numbers -/
theorem le_mul_rpow {x C n : ℕ} (h : x ^ 100 ≤ C ^ 100 * n ^ 147) : (x : ℝ) ≤ C * (n : ℝ) ^ (147 / 100 : ℝ) := by
  refine le_of_pow_100 (by positivity) ?_
  have e := rpow_pow_100 (Nat.cast_nonneg n : (0 : ℝ) ≤ n) 147
  push_cast at e
  rw [mul_pow, e]
  exact_mod_cast h

/-- the same for `n^0.47` -/
theorem le_mul_rpow47 {x C n : ℕ} (h : x ^ 100 ≤ C ^ 100 * n ^ 47) : (x : ℝ) ≤ C * (n : ℝ) ^ (47 / 100 : ℝ) := by
  refine le_of_pow_100 (by positivity) ?_
  have e := rpow_pow_100 (Nat.cast_nonneg n : (0 : ℝ) ≤ n) 47
  push_cast at e
  rw [mul_pow, e]
  exact_mod_cast h

theorem rpow147 {n : ℕ} (hn : 1 ≤ n) : (n : ℝ) ^ (147 / 100 : ℝ) = n * (n : ℝ) ^ (47 / 100 : ℝ) := by
  have h : (0 : ℝ) < n := by exact_mod_cast hn
  rw [show (147 / 100 : ℝ) = 1 + 47 / 100 by norm_num, Real.rpow_add h, Real.rpow_one]

/-- five multiplications of a third of the length -/
theorem five_thirds {x n : ℝ} (hx : 0 ≤ x) (hn : 1400 ≤ n) (h : 3 * x ≤ n + 5) :
    5 * x ^ (147 / 100 : ℝ) ≤ n ^ (147 / 100 : ℝ) := by
  have h1 : x ≤ 1405 / 4200 * n := by linarith
  have h2 : x ^ (147 / 100 : ℝ) ≤ (1405 / 4200 * n) ^ (147 / 100 : ℝ) :=
    Real.rpow_le_rpow hx h1 (by norm_num)
  rw [Real.mul_rpow (by norm_num) (by linarith)] at h2
  have h3 : (1405 / 4200 : ℝ) ^ (147 / 100 : ℝ) ≤ 1 / 5 := by
    refine le_of_pow_100 (by norm_num) ?_
    have e := rpow_pow_100 (show (0 : ℝ) ≤ 1405 / 4200 by norm_num) 147
    push_cast at e
    rw [e]
    norm_num
  have h4 : 0 ≤ n ^ (147 / 100 : ℝ) := Real.rpow_nonneg (by linarith) _
  nlinarith

theorem mulCost_small : ∀ n < 65, 1 ≤ n → (mulCost 7 n) ^ 100 ≤ 21 ^ 100 * n ^ 147 := by decide +kernel

theorem mulCost_small' : ∀ n < 65, 25 ≤ n → (mulCost 7 n + 8 * n) ^ 100 ≤ 21 ^ 100 * n ^ 147 := by
  decide +kernel

/-- `mulCost` for the kernel to compute -/
noncomputable def mulCostK (fuel : Nat) : Nat → Nat :=
  Nat.rec (motive := fun _ => Nat → Nat) (fun _ => 0)
    (fun _ f n =>
      (Nat.ble n 24).rec (motive := fun _ => Nat)
        ((Nat.ble n 192).rec (motive := fun _ => Nat)
          (f ((n + 2) / 3) + 3 * f ((n + 2) / 3 + 1) + f (n - 2 * ((n + 2) / 3)) + (26 * n + 281))
          (2 * f ((n + 1) / 2) + f (n - (n + 1) / 2) + (13 * n + 81)))
        (n * (n + 5) + 7)) fuel

theorem mulCostK_eq (fuel n : Nat) : mulCost fuel n = mulCostK fuel n := by
  induction fuel generalizing n with
  | zero => rfl
  | succ fuel ih =>
    unfold mulCost
    change _ = (Nat.ble n 24).rec (motive := fun _ => Nat)
        ((Nat.ble n 192).rec (motive := fun _ => Nat)
          (mulCostK fuel ((n + 2) / 3) + 3 * mulCostK fuel ((n + 2) / 3 + 1) +
            mulCostK fuel (n - 2 * ((n + 2) / 3)) + (26 * n + 281))
          (2 * mulCostK fuel ((n + 1) / 2) + mulCostK fuel (n - (n + 1) / 2) + (13 * n + 81)))
        (n * (n + 5) + 7)
    simp only [← ih]
    by_cases h1 : n ≤ 24
    · rw [if_pos h1, Nat.ble_eq_true_of_le h1]
    · rw [if_neg h1, Bool.eq_false_iff.mpr (fun h => h1 (Nat.le_of_ble_eq_true h))]
      by_cases h2 : n ≤ 192
      · rw [if_pos h2, Nat.ble_eq_true_of_le h2]
      · rw [if_neg h2, Bool.eq_false_iff.mpr (fun h => h2 (Nat.le_of_ble_eq_true h))]

theorem mulCost_table : ∀ n < 1400, 65 ≤ n → (mulCost 7 n + 40 * n) ^ 100 ≤ 21 ^ 100 * n ^ 147 := by
  have h : ∀ n < 1400, 65 ≤ n → (mulCostK 7 n + 40 * n) ^ 100 ≤ 21 ^ 100 * n ^ 147 := by decide +kernel
  intro n
  rw [mulCostK_eq]
  exact h n

theorem mulCost_le_65 (fuel : ℕ) : ∀ n : ℕ, 65 ≤ n →
    (mulCost fuel n : ℝ) + 40 * n ≤ 21 * (n : ℝ) ^ (147 / 100 : ℝ) := by
  induction fuel with
  | zero =>
    intro n hn
    have h2 : ((2 : ℕ) : ℝ) ≤ (1 : ℕ) * (n : ℝ) ^ (47 / 100 : ℝ) := by
      refine le_mul_rpow47 ?_
      calc 2 ^ 100 ≤ 1 ^ 100 * 65 ^ 47 := by norm_num
        _ ≤ 1 ^ 100 * n ^ 47 := Nat.mul_le_mul_left _ (Nat.pow_le_pow_left hn _)
    have hn' : (65 : ℝ) ≤ n := by exact_mod_cast hn
    rw [rpow147 (by omega)]
    show ((0 : ℕ) : ℝ) + _ ≤ _
    push_cast at h2 ⊢
    nlinarith
  | succ fuel ih =>
    intro n hn
    by_cases hN : n < 1400
    · have h1 := mulCost_fuel 6 (fuel + 1) n (by omega)
      have h2 := le_mul_rpow (mulCost_table n hN hn)
      have h3 : ((mulCost (fuel + 1) n : ℕ) : ℝ) ≤ mulCost 7 n := by exact_mod_cast h1
      push_cast at h2
      linarith
    · have e1 := ih ((n + 2) / 3) (by omega)
      have e2 := ih ((n + 2) / 3 + 1) (by omega)
      have e3 := ih (n - 2 * ((n + 2) / 3)) (by omega)
      rw [mulCost, if_neg (by omega), if_neg (by omega)]
      generalize hx : (n + 2) / 3 = x at *
      generalize hy : n - 2 * x = y at *
      have hn' : (1400 : ℝ) ≤ n := by
        have : 1400 ≤ n := by omega
        exact_mod_cast this
      have hx1 : (3 * x : ℝ) ≤ n + 2 := by
        have : 3 * x ≤ n + 2 := by omega
        exact_mod_cast this
      have hx2 : (n : ℝ) ≤ 3 * x := by
        have : n ≤ 3 * x := by omega
        exact_mod_cast this
      have hy1 : (y : ℝ) + 2 * x = n := by
        have : y + 2 * x = n := by omega
        exact_mod_cast this
      have hx0 : (0 : ℝ) ≤ x := Nat.cast_nonneg x
      have hy0 : (0 : ℝ) ≤ y := Nat.cast_nonneg y
      have f1 := five_thirds hx0 hn' (by linarith)
      have f2 := five_thirds (x := (x : ℝ) + 1) (by linarith) hn' (by linarith)
      have f3 := five_thirds hy0 hn' (by linarith)
      push_cast at e2 ⊢
      linarith

theorem mulCost_le_25 (fuel : ℕ) {n : ℕ} (hn : 25 ≤ n) :
    (mulCost fuel n : ℝ) + 8 * n ≤ 21 * (n : ℝ) ^ (147 / 100 : ℝ) := by
  by_cases h : n < 65
  · have h1 := mulCost_fuel 6 fuel n (by omega)
    have h2 := le_mul_rpow (mulCost_small' n h hn)
    have h3 : ((mulCost fuel n : ℕ) : ℝ) ≤ mulCost 7 n := by exact_mod_cast h1
    push_cast at h2
    linarith
  · have := mulCost_le_65 fuel n (by omega)
    have h0 : (0 : ℝ) ≤ n := Nat.cast_nonneg n
    linarith

/-- Factors of the same length. -/
theorem mulCost_le (fuel : ℕ) {n : ℕ} (hn : 1 ≤ n) :
    (mulCost fuel n : ℝ) ≤ 21 * (n : ℝ) ^ (147 / 100 : ℝ) := by
  by_cases h : n < 65
  · have h1 := mulCost_fuel 6 fuel n (by omega)
    have h2 := le_mul_rpow (mulCost_small n h hn)
    have h3 : ((mulCost fuel n : ℕ) : ℝ) ≤ mulCost 7 n := by exact_mod_cast h1
    push_cast at h2
    linarith
  · have := mulCost_le_65 fuel n (by omega)
    have h0 : (0 : ℝ) ≤ n := Nat.cast_nonneg n
    linarith

theorem one_le_rpow47 {b : ℕ} (hb : 1 ≤ b) : (1 : ℝ) ≤ (b : ℝ) ^ (47 / 100 : ℝ) :=
  Real.one_le_rpow (by exact_mod_cast hb) (by norm_num)

theorem le_six_rpow47 {b : ℕ} (hb : 1 ≤ b) (h : b ≤ 24) : (b : ℝ) ≤ 6 * (b : ℝ) ^ (47 / 100 : ℝ) := by
  have : ((b : ℕ) : ℝ) ≤ ((6 : ℕ) : ℝ) * (b : ℝ) ^ (47 / 100 : ℝ) := by
    refine le_mul_rpow47 ?_
    calc b ^ 100 = b ^ 53 * b ^ 47 := by rw [← pow_add]
      _ ≤ 24 ^ 53 * b ^ 47 := Nat.mul_le_mul_right _ (Nat.pow_le_pow_left h _)
      _ ≤ 6 ^ 100 * b ^ 47 := Nat.mul_le_mul_right _ (by norm_num)
  exact_mod_cast this

/-- Factors of different lengths. -/
theorem mulCost2_le (fuel : ℕ) : ∀ {a b : ℕ}, 1 ≤ b → b ≤ a →
    (mulCost2 fuel a b : ℝ) ≤ 22 * (a + b) * (b : ℝ) ^ (47 / 100 : ℝ) := by
  induction fuel with
  | zero =>
    intro a b hb hab
    show ((0 : ℕ) : ℝ) ≤ _
    rw [Nat.cast_zero]
    positivity
  | succ fuel ih =>
    intro a b hb hab
    have hP := one_le_rpow47 hb
    have hb1 : (1 : ℝ) ≤ b := by exact_mod_cast hb
    have hab' : (b : ℝ) ≤ a := by exact_mod_cast hab
    -- the remainder
    have hrest : ∀ r : ℕ, r < b → r ≠ 0 →
        (mulCost2 fuel b r : ℝ) ≤ 22 * (b + r) * (b : ℝ) ^ (47 / 100 : ℝ) := by
      intro r hr h0
      refine (ih (by omega) hr.le).trans ?_
      have hrb : (r : ℝ) ≤ b := by exact_mod_cast hr.le
      have := Real.rpow_le_rpow (Nat.cast_nonneg r) hrb (show (0 : ℝ) ≤ 47 / 100 by norm_num)
      exact mul_le_mul_of_nonneg_left this (by positivity)
    have hrest2 : ∀ r : ℕ, b ≤ r → (mulCost2 fuel r b : ℝ) ≤ 22 * (r + b) * (b : ℝ) ^ (47 / 100 : ℝ) :=
      fun r hr => ih hb hr
    rw [mulCost2]
    by_cases h1 : b ≤ 24
    · have hb6 := le_six_rpow47 hb h1
      rw [if_pos h1]
      generalize (b : ℝ) ^ (47 / 100 : ℝ) = P at *
      by_cases h2 : a ≤ 1024
      · rw [if_pos h2]
        push_cast
        nlinarith
      · rw [if_neg h2]
        have hq : 1 ≤ a / 1024 := Nat.div_pos (by omega) (by norm_num)
        have hr : a % 1024 ≤ 1023 := by omega
        have ha : 1024 * (a / 1024) + a % 1024 = a := Nat.div_add_mod a 1024
        have hR : ((if b ≤ a % 1024 then mulCost2 fuel (a % 1024) b
            else if a % 1024 ≠ 0 then mulCost2 fuel b (a % 1024) else 0 : ℕ) : ℝ) ≤
            22 * ((a % 1024 : ℕ) + b) * P := by
          by_cases h3 : b ≤ a % 1024
          · rw [if_pos h3]
            exact hrest2 _ h3
          · rw [if_neg h3]
            by_cases h4 : a % 1024 ≠ 0
            · rw [if_pos h4]
              have := hrest _ (by omega) h4
              linarith
            · rw [if_neg h4, Nat.cast_zero]
              positivity
        generalize (if b ≤ a % 1024 then mulCost2 fuel (a % 1024) b
            else if a % 1024 ≠ 0 then mulCost2 fuel b (a % 1024) else 0) = rest at *
        generalize a / 1024 = q at *
        generalize a % 1024 = r at *
        have hq' : (1 : ℝ) ≤ q := by exact_mod_cast hq
        have hr' : (r : ℝ) ≤ 1023 := by exact_mod_cast hr
        have ha' : (1024 * q + r : ℝ) = a := by exact_mod_cast ha
        push_cast
        rw [← ha']
        have e1 : (1029 * b + 1033 : ℝ) ≤ 7207 * P := by linarith
        have e2 : (q : ℝ) * (b * 1029 + 1033) ≤ 7207 * (q * P) := by nlinarith
        have e3 : (1 : ℝ) ≤ q * P := by nlinarith
        nlinarith
    · rw [if_neg h1]
      have hM := mulCost_le_25 (fuel + 1) (n := b) (by omega)
      rw [rpow147 hb] at hM
      generalize (b : ℝ) ^ (47 / 100 : ℝ) = P at *
      have hq : 1 ≤ a / b := Nat.div_pos hab (by omega)
      have hr : a % b < b := Nat.mod_lt _ (by omega)
      have ha : b * (a / b) + a % b = a := Nat.div_add_mod a b
      have hR : ((if a % b ≠ 0 then mulCost2 fuel b (a % b) else 0 : ℕ) : ℝ) ≤
          22 * ((a % b : ℕ) + b) * P := by
        by_cases h4 : a % b ≠ 0
        · rw [if_pos h4]
          have := hrest _ hr h4
          linarith
        · rw [if_neg h4, Nat.cast_zero]
          positivity
      generalize (if a % b ≠ 0 then mulCost2 fuel b (a % b) else 0) = rest at *
      generalize a / b = q at *
      generalize a % b = r at *
      generalize mulCost (fuel + 1) b = m at *
      have hq' : (1 : ℝ) ≤ q := by exact_mod_cast hq
      have hr' : (r : ℝ) ≤ b := by exact_mod_cast hr.le
      have ha' : (b * q + r : ℝ) = a := by exact_mod_cast ha
      have hb25 : (25 : ℝ) ≤ b := by
        have : 25 ≤ b := by omega
        exact_mod_cast this
      push_cast
      rw [← ha']
      have e2 : (q : ℝ) * (m + b + 5) ≤ q * (21 * (b * P) - 6 * b) :=
        mul_le_mul_of_nonneg_left (by linarith) (by linarith)
      have e3 : (b : ℝ) ≤ q * b := by nlinarith
      have e4 : (0 : ℝ) ≤ q * b * P := by positivity
      nlinarith

end Ibig.Timed
