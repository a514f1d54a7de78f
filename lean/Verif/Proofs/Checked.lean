import Verif.Model.Checked
import Verif.Spec.Number
import Verif.Proofs.MulSimple
import Verif.Proofs.ShiftOps
import Verif.Proofs.FastDivide
import Verif.Proofs.DivSimple
import Verif.Proofs.ModularMul
import Mathlib.Tactic.Linarith
import Mathlib.Tactic.Ring
/-! Lemmas for C66. -/
namespace Ibig

theorem mul_add_add_lt {B a b c d : Nat} (ha : a < B) (hb : b < B) (hc : c < B) (hd : d < B) :
    a * b + c + d < B * B := by
  have h : a * b ≤ (B - 1) * (B - 1) := Nat.mul_le_mul (by omega) (by omega)
  obtain ⟨k, rfl⟩ : ∃ k, B = k + 1 := ⟨B - 1, by omega⟩
  simp only [Nat.add_sub_cancel] at h
  nlinarith

theorem splitDoubleWord_hi_lt {W d : Nat} (h : d < 2 ^ (2 * W)) : (splitDoubleWord W d).2 < base W := by
  unfold splitDoubleWord
  rw [← base_sq] at h
  exact Nat.div_lt_of_lt_mul h

theorem shlDouble_ok {W x s : Nat} (hx : x < base W) (hs : s < W) :
    Checked.shlDouble W x s = .ok (x * 2 ^ s) := by
  unfold Checked.shlDouble
  rw [if_pos (by omega), Nat.mod_eq_of_lt]
  rw [two_mul, pow_add, ← base_eq]
  exact Nat.mul_lt_mul_of_lt_of_le hx (by rw [base_eq]; exact Nat.pow_le_pow_right (by norm_num) hs.le)
    (base_pos W)

theorem FastDivideSmall.Valid.shift_lt {W d : Nat} {fd : FastDivideSmall} (h : fd.Valid W d) : fd.shift < W := by
  obtain ⟨-, -, h1, -, h2, k, hk, -, h3⟩ := h
  by_contra hc
  have e : 2 * base W ≤ 2 ^ (fd.shift + 1) := by
    rw [base_eq, ← pow_succ']; exact Nat.pow_le_pow_right (by norm_num) (by omega)
  have e1 : base W * (2 * base W) ≤ base W * 2 ^ (fd.shift + 1) := Nat.mul_le_mul_left _ e
  have e2 : d * (base W + fd.m) ≤ base W * (2 * base W) := Nat.mul_le_mul h1.le (by omega)
  omega

theorem checked_refineQ {W v0 v1 u2 : Nat} (hv1 : v1 < base W) (fuel q r : Nat) (hq : q < base W)
    (hf : q < fuel) : Checked.refineQ W v0 v1 u2 fuel q r = .ok (refineQ W v0 v1 u2 q r) := by
  induction fuel generalizing q r with
  | zero => omega
  | succ n ih =>
    have h := mul_add_add_lt hq hv1 (c := 0) (d := 0) (by omega) (by omega)
    rw [base_sq] at h
    unfold Checked.refineQ
    rw [ckMul_ok (by omega)]
    simp only [bind, Except.bind]
    cases q with
    | zero => simp [refineQ]
    | succ q =>
      simp only [refineQ]
      split
      · rw [ckSub_ok (by omega)]
        simp only [Nat.add_sub_cancel]
        split
        · exact ih q _ (by omega) (by omega)
        · rfl
      · rfl

theorem bitLen_le_of_lt {n U : Nat} (h : n < 2 ^ U) : bitLen (n - 1) ≤ U :=
  bitLen_le_iff.mpr (by omega)

end Ibig
