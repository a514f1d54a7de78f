import Mathlib.NumberTheory.LucasPrimality
import Mathlib.GroupTheory.OrderOfElement
import Verif.Model.Ntt
/-! Lemmas about the constants of the number-theoretic transform. -/
namespace Ibig

/-- `a^e mod p` by repeated squaring; the first number bounds the number of bits of `e`. -/
def powMod (p : Nat) : Nat → Nat → Nat → Nat
  | 0, _, _ => 1 % p
  | fuel + 1, a, e =>
    let h := powMod p fuel (a * a % p) (e / 2)
    if e % 2 = 1 then a * h % p else h

theorem powMod_eq (p : Nat) : ∀ (fuel a e : Nat), e < 2 ^ fuel → powMod p fuel a e = a ^ e % p
  | 0, a, e, h => by
    rw [pow_zero] at h
    rw [Nat.lt_one_iff.mp h, pow_zero]; rfl
  | fuel + 1, a, e, h => by
    have hlt : e / 2 < 2 ^ fuel := by rw [pow_succ] at h; omega
    unfold powMod
    simp only
    rw [powMod_eq p fuel _ _ hlt, ← Nat.pow_mod, ← pow_two, ← pow_mul]
    have he : e = 2 * (e / 2) + e % 2 := by omega
    rcases Nat.mod_two_eq_zero_or_one e with h0 | h1
    · rw [if_neg (by omega)]
      congr 2; omega
    · rw [if_pos h1, Nat.mul_mod, Nat.mod_mod, ← Nat.mul_mod, ← pow_succ']
      congr 2; omega

theorem pow_eq_one_iff {p a e : Nat} (hp : 1 < p) : ((a : ZMod p) ^ e = 1) ↔ a ^ e % p = 1 := by
  rw [← Nat.cast_pow, ← Nat.cast_one, ZMod.natCast_eq_natCast_iff, Nat.ModEq, Nat.mod_eq_of_lt hp]

/-- A certificate of primality of a number `k·2^m + 1`. -/
def primeCheck (p a m k : Nat) : Bool :=
  decide (p = k * 2 ^ m + 1) && decide (1 < p) && decide (p < 2 ^ 64) && decide (powMod p 64 a (p - 1) = 1) &&
  decide (powMod p 64 a ((p - 1) / 2) ≠ 1) &&
  (List.range (k + 1)).all fun q => q ≤ 1 || k % q ≠ 0 || decide (powMod p 64 a ((p - 1) / q) ≠ 1)

theorem prime_of_check {p a m k : Nat} (h : primeCheck p a m k = true) : p.Prime := by
  unfold primeCheck at h
  simp only [Bool.and_eq_true, decide_eq_true_eq, List.all_eq_true, List.mem_range, Bool.or_eq_true,
    decide_eq_true_eq] at h
  obtain ⟨⟨⟨⟨⟨h1, h2⟩, h3⟩, h4⟩, h5⟩, h6⟩ := h
  have hk : 0 < k := by
    rcases Nat.eq_zero_or_pos k with h | h
    · rw [h] at h1; omega
    · exact h
  have hle : ∀ q, (p - 1) / q < 2 ^ 64 := fun q => lt_of_le_of_lt (Nat.div_le_self _ _) (by omega)
  refine lucas_primality p (a : ZMod p) ?_ ?_
  · rw [pow_eq_one_iff h2, ← powMod_eq p 64 a (p - 1) (by omega)]; exact h4
  · intro q hq hd
    rw [Ne, pow_eq_one_iff h2, ← powMod_eq p 64 a _ (hle q)]
    rw [h1, Nat.add_sub_cancel] at hd
    rcases hq.dvd_mul.mp hd with hd | hd
    · have := h6 q (Nat.lt_succ_of_le (Nat.le_of_dvd hk hd))
      rcases this with (h | h) | h
      · exact absurd hq.two_le (by omega)
      · exact absurd (Nat.mod_eq_zero_of_dvd hd) h
      · exact h
    · have : q = 2 := (Nat.prime_dvd_prime_iff_eq hq Nat.prime_two).mp (hq.dvd_of_dvd_pow hd)
      rw [this]; exact h5

/-- Squaring down from `x` gives `-1` and then 1 after `n` and `n+1` steps. -/
theorem orderOf_of_squares {p : Nat} (hp : 2 < p) (x : Nat → Nat) (n : Nat) (h0 : x 0 = 1) (h1 : 1 ≤ n → x 1 = p - 1)
    (hsq : ∀ i < n, x i = x (i + 1) * x (i + 1) % p) : ∀ i ≤ n, orderOf (x i : ZMod p) = 2 ^ i := by
  have hpow : ∀ d i, i + d ≤ n → ((x (i + d) : Nat) : ZMod p) ^ 2 ^ d = (x i : ZMod p) := by
    intro d
    induction d with
    | zero => intro i _; simp
    | succ d ih =>
      intro i hi
      have := ih (i + 1) (by omega)
      rw [show i + (d + 1) = i + 1 + d by omega, pow_succ, pow_mul, this, hsq i (by omega), ZMod.natCast_mod,
        Nat.cast_mul, pow_two]
  intro i hi
  rcases i with _ | i
  · rw [h0]; simp
  · haveI : Fact (Nat.Prime 2) := ⟨Nat.prime_two⟩
    refine orderOf_eq_prime_pow ?_ ?_
    · have := hpow i 1 (by omega)
      rw [Nat.add_comm] at this
      rw [this, h1 (by omega), Nat.cast_sub (by omega), ZMod.natCast_self, zero_sub, Nat.cast_one]
      intro e
      have h2 : ((2 : Nat) : ZMod p) = ((0 : Nat) : ZMod p) := by
        have : (1 : ZMod p) + 1 = 0 := by
          nth_rewrite 1 [← e]; ring
        rw [Nat.cast_zero, Nat.cast_two, ← this]; ring
      rw [ZMod.natCast_eq_natCast_iff, Nat.ModEq, Nat.zero_mod, Nat.mod_eq_of_lt hp] at h2
      omega
    · have := hpow (i + 1) 0 (by omega)
      rw [Nat.zero_add] at this
      rw [this, h0]; simp

end Ibig
