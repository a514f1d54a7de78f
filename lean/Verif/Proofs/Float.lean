import Verif.Model.Float
import Verif.Proofs.PrimOps
import Verif.Proofs.BitCount
import Mathlib.Tactic.Linarith
import Mathlib.Tactic.Ring
import Mathlib.Tactic.FieldSimp
import Mathlib.Tactic.Positivity
import Mathlib.Algebra.Order.Group.Unbundled.Abs
import Mathlib.Order.Monotone.Basic
/-! Proofs for the conversions to floating point. -/
namespace Ibig

theorem FloatFmt.toRat_eq (f : FloatFmt) {e q : Nat} (he : 1 ≤ e) (h1 : 2 ^ f.mant ≤ q)
    (h2 : q ≤ 2 * 2 ^ f.mant) :
    f.toRat ((e - 1) * 2 ^ f.mant + q) = q * (2 : ℚ) ^ ((e : ℤ) - f.bias - f.mant) := by
  have hP : 0 < 2 ^ f.mant := Nat.two_pow_pos _
  unfold FloatFmt.toRat
  generalize hPe : 2 ^ f.mant = P at *
  rcases Nat.lt_or_ge q (2 * P) with h | h
  · have e1 : (e - 1) * P + q = e * P + (q - P) := by
      obtain ⟨e, rfl⟩ := Nat.exists_eq_add_of_le he
      rw [Nat.add_sub_cancel_left, Nat.add_mul]; omega
    rw [e1]
    have d : (e * P + (q - P)) / P = e := by
      rw [Nat.mul_comm, Nat.mul_add_div hP, Nat.div_eq_of_lt (by omega), Nat.add_zero]
    have m : (e * P + (q - P)) % P = q - P := by
      rw [Nat.mul_comm, Nat.mul_add_mod, Nat.mod_eq_of_lt (by omega)]
    rw [d, m, if_neg (by omega), Nat.add_sub_cancel' h1]
  · have hq : q = 2 * P := by omega
    have e1 : (e - 1) * P + q = P * (e + 1) := by
      obtain ⟨e, rfl⟩ := Nat.exists_eq_add_of_le he
      rw [Nat.add_sub_cancel_left, hq]; ring
    rw [e1, Nat.mul_div_cancel_left _ hP, Nat.mul_mod_right, if_neg (by omega), hq]
    push_cast
    rw [show ((e : ℤ) + 1 - f.bias - f.mant) = ((e : ℤ) - f.bias - f.mant) + 1 by ring,
      zpow_add_one₀ (by norm_num)]
    ring

theorem FloatFmt.toRat_sub (f : FloatFmt) {m : Nat} (h : m ≤ 2 ^ f.mant) :
    f.toRat m = m * (2 : ℚ) ^ (1 - f.bias - f.mant : ℤ) := by
  have hP : 0 < 2 ^ f.mant := Nat.two_pow_pos _
  rcases Nat.lt_or_ge m (2 ^ f.mant) with h1 | h1
  · unfold FloatFmt.toRat
    rw [if_pos (Nat.div_eq_of_lt h1), Nat.mod_eq_of_lt h1]
  · have := f.toRat_eq (e := 1) (q := m) (le_refl _) h1 (by omega)
    simpa using this

theorem FloatFmt.toRat_strictMono (f : FloatFmt) : StrictMono f.toRat := by
  refine strictMono_nat_of_lt_succ fun b => ?_
  have hP : 0 < 2 ^ f.mant := Nat.two_pow_pos _
  rcases Nat.lt_or_ge b (2 ^ f.mant) with h | h
  · rw [f.toRat_sub h.le, f.toRat_sub h]
    refine mul_lt_mul_of_pos_right ?_ (zpow_pos (by norm_num) _)
    push_cast; linarith
  · have he : 1 ≤ b / 2 ^ f.mant := (Nat.le_div_iff_mul_le hP).mpr (by omega)
    have hm := Nat.mod_lt b hP
    have hb : b = (b / 2 ^ f.mant - 1) * 2 ^ f.mant + (2 ^ f.mant + b % 2 ^ f.mant) := by
      have := Nat.div_add_mod' b (2 ^ f.mant)
      have h2 : (b / 2 ^ f.mant - 1) * 2 ^ f.mant + 2 ^ f.mant = b / 2 ^ f.mant * 2 ^ f.mant := by
        rw [← Nat.succ_mul, Nat.succ_eq_add_one, Nat.sub_add_cancel he]
      omega
    have e1 := f.toRat_eq he (q := 2 ^ f.mant + b % 2 ^ f.mant) (by omega) (by omega)
    have e2 := f.toRat_eq he (q := 2 ^ f.mant + b % 2 ^ f.mant + 1) (by omega) (by omega)
    rw [← hb] at e1
    rw [← Nat.add_assoc, ← hb] at e2
    rw [e1, e2]
    refine mul_lt_mul_of_pos_right ?_ (zpow_pos (by norm_num) _)
    push_cast; linarith

theorem FloatFmt.nearest_exact (f : FloatFmt) {n b b' : Nat} (h : f.toRat b = n) (hb : b' ≠ b) :
    |f.toRat b - n| < |f.toRat b' - n| := by
  have : f.toRat b' ≠ f.toRat b := fun e => hb (f.toRat_strictMono.injective e)
  rw [← h, sub_self, abs_zero]
  exact abs_pos.mpr (sub_ne_zero.mpr this)

theorem FloatFmt.nearest_between (f : FloatFmt) {q k r b0 b' : Nat} (h1 : f.toRat b0 = ((q * 2 ^ k : Nat) : ℚ))
    (h2 : f.toRat (b0 + 1) = (((q + 1) * 2 ^ k : Nat) : ℚ)) (hp : b0 % 2 = q % 2) (hr : r < 2 ^ k) {up : Nat}
    (hup : up = if 2 * r > 2 ^ k ∨ (2 * r = 2 ^ k ∧ q % 2 = 1) then 1 else 0) (hb : b' ≠ b0 + up) :
    |f.toRat (b0 + up) - (q * 2 ^ k + r : Nat)| < |f.toRat b' - (q * 2 ^ k + r : Nat)| ∨
    (|f.toRat (b0 + up) - (q * 2 ^ k + r : Nat)| = |f.toRat b' - (q * 2 ^ k + r : Nat)| ∧
      (b0 + up) % 2 = 0) := by
  have mono := f.toRat_strictMono
  have hQ : ((2 ^ k : Nat) : ℚ) > 0 := by positivity
  have hlo : b' ≤ b0 → f.toRat b' ≤ f.toRat b0 := fun h => mono.monotone h
  have hhi : b0 + 1 ≤ b' → f.toRat (b0 + 1) ≤ f.toRat b' := fun h => mono.monotone h
  have slo : b' < b0 → f.toRat b' < f.toRat b0 := fun h => mono h
  have shi : b0 + 1 < b' → f.toRat (b0 + 1) < f.toRat b' := fun h => mono h
  generalize f.toRat b' = y at *
  rw [Nat.add_mul, one_mul] at h2
  push_cast at h1 h2 hQ ⊢
  have hrQ : (r : ℚ) < (2 : ℚ) ^ k := by exact_mod_cast hr
  have hr0 : (0 : ℚ) ≤ r := by positivity
  by_cases hc : 2 * r > 2 ^ k ∨ (2 * r = 2 ^ k ∧ q % 2 = 1)
  · rw [if_pos hc] at hup
    subst hup
    rw [h2]
    have e : |(q : ℚ) * 2 ^ k + 2 ^ k - (q * 2 ^ k + r)| = 2 ^ k - r := by
      rw [abs_of_nonneg (by linarith)]; ring
    rw [e]
    have hge : (2 : ℚ) ^ k ≤ 2 * r := by
      have : 2 ^ k ≤ 2 * r := by omega
      exact_mod_cast this
    rcases Nat.lt_or_ge b0 b' with h | h
    · have := shi (by omega)
      left
      refine lt_of_lt_of_le ?_ (le_abs_self _)
      linarith
    · have h5 := hlo h
      have h6 : (r : ℚ) ≤ |y - (q * 2 ^ k + r)| := by
        refine le_trans ?_ (neg_le_abs _)
        linarith
      rcases lt_or_eq_of_le (show (2 : ℚ) ^ k - r ≤ |y - (q * 2 ^ k + r)| by linarith) with h7 | h7
      · left; exact h7
      · right
        refine ⟨h7, ?_⟩
        have h8 : 2 * (r : ℚ) ≤ 2 ^ k := by linarith
        have h9 : 2 * r ≤ 2 ^ k := by exact_mod_cast h8
        omega
  · rw [if_neg hc] at hup
    subst hup
    rw [Nat.add_zero, h1]
    have e : |(q : ℚ) * 2 ^ k - (q * 2 ^ k + r)| = r := by
      rw [abs_of_nonpos (by linarith)]; ring
    rw [e]
    have hge : 2 * (r : ℚ) ≤ 2 ^ k := by
      have : 2 * r ≤ 2 ^ k := by omega
      exact_mod_cast this
    rcases Nat.lt_or_ge b0 b' with h | h
    · have h5 := hhi (by omega)
      have h6 : (2 : ℚ) ^ k - r ≤ |y - (q * 2 ^ k + r)| := by
        refine le_trans ?_ (le_abs_self _)
        linarith
      rcases lt_or_eq_of_le (show (r : ℚ) ≤ |y - (q * 2 ^ k + r)| by linarith) with h7 | h7
      · left; exact h7
      · right
        refine ⟨h7, ?_⟩
        have h8 : (2 : ℚ) ^ k ≤ 2 * r := by linarith
        have h9 : 2 ^ k ≤ 2 * r := by exact_mod_cast h8
        omega
    · have := slo (by omega)
      left
      refine lt_of_lt_of_le ?_ (neg_le_abs _)
      linarith

/-- The conditions on a format used in the proofs. -/
structure FloatFmt.OK (f : FloatFmt) : Prop where
  mant : 1 ≤ f.mant
  bias : f.mant + 2 ≤ f.bias

theorem f32_ok : f32.OK := ⟨by decide, by decide⟩
theorem f64_ok : f64.OK := ⟨by decide, by decide⟩

theorem castFloat_nearest {f : FloatFmt} (hf : f.OK) {n : Nat} (hn : n < 2 ^ (f.bias + 1)) :
    f.Nearest n (castFloat f n) := by
  have hm := hf.mant
  have hb := hf.bias
  have hP : 0 < 2 ^ f.mant := Nat.two_pow_pos _
  have hPe : 2 ^ f.mant = 2 * 2 ^ (f.mant - 1) := by rw [← Nat.pow_succ']; congr 1; omega
  have hov : 2 ^ f.bias ≤ f.overflow := by
    unfold FloatFmt.overflow
    have : 2 ^ (f.bias - f.mant - 1) ≤ 2 ^ f.bias := Nat.pow_le_pow_right (by omega) (by omega)
    have : 2 ^ (f.bias + 1) = 2 * 2 ^ f.bias := Nat.pow_succ'
    omega
  have hinf : 2 ^ f.mant ≤ f.inf := by
    unfold FloatFmt.inf; exact Nat.le_mul_of_pos_left _ (by omega)
  unfold castFloat
  simp only
  by_cases h0 : n = 0
  · subst h0
    rw [if_pos rfl]
    refine ⟨fun _ => ⟨by omega, fun b _ hb => Or.inl (f.nearest_exact ?_ hb)⟩, fun h => ?_⟩
    · rw [f.toRat_sub (by omega)]; simp
    · have := Nat.two_pow_pos f.bias
      omega
  rw [if_neg h0]
  have hL : bitLen n ≤ f.bias + 1 := bitLen_le_iff.mpr hn
  have hlt := lt_two_pow_bitLen n
  have hge := two_pow_le_of_bitLen h0
  have hpos := bitLen_pos h0
  generalize bitLen n = L at *
  by_cases hs : L ≤ f.mant + 1
  · rw [if_pos hs]
    have hnL : n < 2 ^ f.bias := lt_of_lt_of_le hlt (Nat.pow_le_pow_right (by omega) (by omega))
    have hq1 : 2 ^ f.mant ≤ n * 2 ^ (f.mant + 1 - L) := by
      calc 2 ^ f.mant = 2 ^ (L - 1) * 2 ^ (f.mant + 1 - L) := by rw [← Nat.pow_add]; congr 1; omega
        _ ≤ _ := Nat.mul_le_mul_right _ hge
    have hq2 : n * 2 ^ (f.mant + 1 - L) < 2 * 2 ^ f.mant := by
      calc n * 2 ^ (f.mant + 1 - L) < 2 ^ L * 2 ^ (f.mant + 1 - L) :=
            Nat.mul_lt_mul_of_pos_right hlt (Nat.two_pow_pos _)
        _ = 2 * 2 ^ f.mant := by rw [← Nat.pow_add, ← Nat.pow_succ']; congr 1; omega
    refine ⟨fun _ => ⟨?_, fun b _ hb => Or.inl (f.nearest_exact ?_ hb)⟩, fun h => by omega⟩
    · unfold FloatFmt.inf
      have : (L + f.bias - 2) * 2 ^ f.mant + 2 * 2 ^ f.mant ≤ (2 * f.bias + 1) * 2 ^ f.mant := by
        rw [← Nat.add_mul]; exact Nat.mul_le_mul_right _ (by omega)
      omega
    · have := f.toRat_eq (e := L + f.bias - 1) (by omega) hq1 hq2.le
      rw [show L + f.bias - 1 - 1 = L + f.bias - 2 by omega] at this
      rw [this]
      push_cast
      rw [mul_assoc, ← zpow_natCast (2 : ℚ) (f.mant + 1 - L), ← zpow_add₀ (by norm_num)]
      rw [show (((f.mant + 1 - L : ℕ) : ℤ) + (((L + f.bias - 1 : ℕ) : ℤ) - f.bias - f.mant)) = 0 by omega]
      simp
  · rw [if_neg hs]
    obtain ⟨k, hk⟩ : ∃ k, L = f.mant + 1 + k + 1 := ⟨L - (f.mant + 1) - 1, by omega⟩
    have hk' : L - (f.mant + 1) = k + 1 := by omega
    rw [hk', Nat.add_sub_cancel]
    have hnd := Nat.div_add_mod' n (2 ^ (k + 1))
    have hr := Nat.mod_lt n (Nat.two_pow_pos (k + 1))
    have hK : 2 ^ (k + 1) = 2 * 2 ^ k := Nat.pow_succ'
    have hq1 : 2 ^ f.mant ≤ n / 2 ^ (k + 1) := by
      rw [Nat.le_div_iff_mul_le (Nat.two_pow_pos _), ← Nat.pow_add]
      rwa [show L - 1 = f.mant + (k + 1) by omega] at hge
    have hq2 : n / 2 ^ (k + 1) < 2 * 2 ^ f.mant := by
      rw [Nat.div_lt_iff_lt_mul (Nat.two_pow_pos _), ← Nat.pow_succ', ← Nat.pow_add]
      rwa [show L = f.mant.succ + (k + 1) by omega] at hlt
    generalize hqe : n / 2 ^ (k + 1) = q at *
    generalize hre : n % 2 ^ (k + 1) = r at *
    have t1 := f.toRat_eq (e := L + f.bias - 1) (by omega) hq1 hq2.le
    have t2 := f.toRat_eq (e := L + f.bias - 1) (q := q + 1) (by omega) (by omega) (by omega)
    rw [show L + f.bias - 1 - 1 = L + f.bias - 2 by omega,
      show ((L + f.bias - 1 : ℕ) : ℤ) - f.bias - f.mant = ((k + 1 : ℕ) : ℤ) by omega, zpow_natCast] at t1 t2
    rw [← Nat.add_assoc] at t2
    have hpar : ((L + f.bias - 2) * 2 ^ f.mant + q) % 2 = q % 2 := by
      rw [hPe, Nat.mul_left_comm, Nat.mul_add_mod]
    have hupe : (if r > 2 ^ k ∨ (r = 2 ^ k ∧ q % 2 = 1) then 1 else 0) =
        if 2 * r > 2 ^ (k + 1) ∨ (2 * r = 2 ^ (k + 1) ∧ q % 2 = 1) then 1 else 0 := by
      refine if_congr ?_ rfl rfl
      omega
    rw [hupe]
    generalize hup : (if 2 * r > 2 ^ (k + 1) ∨ (2 * r = 2 ^ (k + 1) ∧ q % 2 = 1) then 1 else 0) = up
    have hup1 : up ≤ 1 := by rw [← hup]; split <;> omega
    have hinfe : f.inf = (2 * f.bias - 1) * 2 ^ f.mant + 2 * 2 ^ f.mant := by
      unfold FloatFmt.inf; rw [← Nat.add_mul]; congr 1; omega
    have near : ∀ b, b ≠ (L + f.bias - 2) * 2 ^ f.mant + q + up →
        |f.toRat ((L + f.bias - 2) * 2 ^ f.mant + q + up) - n| < |f.toRat b - n| ∨
        (|f.toRat ((L + f.bias - 2) * 2 ^ f.mant + q + up) - n| = |f.toRat b - n| ∧
          ((L + f.bias - 2) * 2 ^ f.mant + q + up) % 2 = 0) := by
      intro b hb
      rw [← hnd]
      exact f.nearest_between (q := q) (k := k + 1) (r := r) (by rw [t1]; push_cast; rfl)
        (by rw [t2]; push_cast; rfl) hpar hr hup.symm hb
    rcases Nat.lt_or_ge L (f.bias + 1) with hLb | hLb
    · have hnL : n < 2 ^ f.bias := lt_of_lt_of_le hlt (Nat.pow_le_pow_right (by omega) (by omega))
      refine ⟨fun _ => ⟨?_, fun b _ hb => near b hb⟩, fun h => by omega⟩
      have : (L + f.bias - 2) * 2 ^ f.mant ≤ (2 * f.bias - 2) * 2 ^ f.mant :=
        Nat.mul_le_mul_right _ (by omega)
      have : (2 * f.bias - 1) * 2 ^ f.mant = (2 * f.bias - 2) * 2 ^ f.mant + 2 ^ f.mant := by
        rw [← Nat.succ_mul]; congr 1; omega
      omega
    · have hLe : L = f.bias + 1 := by omega
      have e1 : L + f.bias - 2 = 2 * f.bias - 1 := by omega
      rw [e1] at near ⊢
      have hove : f.overflow = (2 * 2 ^ f.mant - 1) * 2 ^ (k + 1) + 2 ^ k := by
        unfold FloatFmt.overflow
        rw [show f.bias - f.mant - 1 = k by omega,
          show 2 ^ (f.bias + 1) = 2 * 2 ^ f.mant * 2 ^ (k + 1) by
            rw [← Nat.pow_succ', ← Nat.pow_add]; congr 1; omega, Nat.sub_mul]
        have : 2 ^ (k + 1) ≤ 2 * 2 ^ f.mant * 2 ^ (k + 1) := Nat.le_mul_of_pos_left _ (by omega)
        omega
      refine ⟨fun h => ⟨?_, fun b _ hb => near b hb⟩, fun h => ?_⟩
      · by_contra hge'
        have hq3 : q = 2 * 2 ^ f.mant - 1 := by omega
        have hup2 : up = 1 := by omega
        rw [hup2] at hup
        have : 2 * r > 2 ^ (k + 1) ∨ (2 * r = 2 ^ (k + 1) ∧ q % 2 = 1) := by
          by_contra hc
          rw [if_neg hc] at hup
          omega
        rw [← hq3] at hove
        omega
      · have hq3 : q = 2 * 2 ^ f.mant - 1 := by
          by_contra hne
          have : q + 1 ≤ 2 * 2 ^ f.mant - 1 := by omega
          have := Nat.mul_le_mul_right (2 ^ (k + 1)) this
          rw [Nat.succ_mul] at this
          omega
        rw [← hq3] at hove
        have hup2 : up = 1 := by
          rw [← hup, if_pos (by omega)]
        omega

/-- The numbers in the code agree with the format. -/
structure FloatCode.Matches (c : FloatCode) (f : FloatFmt) : Prop where
  ok : f.OK
  mant : c.mant = f.mant
  extra : c.extra = f.mant + 2
  expAdd : c.expAdd + 1 = f.bias
  maxLen : c.maxLen = f.bias + 1
  inf : c.inf = f.inf
  lo : c.lo = c.prim
  prim : PBits c.prim
  big : f.mant + 2 < c.prim
  mid : c.prim ≤ f.bias
  top : f.inf + 2 ^ f.mant < 2 ^ c.prim

theorem code32_matches : code32.Matches f32 :=
  ⟨f32_ok, rfl, rfl, rfl, rfl, by decide +kernel, rfl, by simp [PBits, code32], by decide, by decide, by decide +kernel⟩
theorem code64_matches : code64.Matches f64 :=
  ⟨f64_ok, rfl, rfl, rfl, rfl, by decide +kernel, rfl, by simp [PBits, code64], by decide, by decide, by decide +kernel⟩

theorem roundToEven_spec {m s : Nat} {k : Nat} (hs : s < 2 ^ k) :
    (roundToEvenAdjustment (((m &&& 3) <<< 1) ||| (decide (s ≠ 0)).toNat)).toNat =
    if (m % 2 * 2 ^ k + s > 2 ^ k ∨ (m % 2 * 2 ^ k + s = 2 ^ k ∧ m / 2 % 2 = 1)) then 1 else 0 := by
  have hK : 0 < 2 ^ k := Nat.two_pow_pos _
  have e1 : m &&& 3 = m % 4 := Nat.and_two_pow_sub_one_eq_mod m 2
  rw [e1]
  have e2 : m % 4 = m / 2 % 2 * 2 + m % 2 := by omega
  rw [e2]
  have hx : m / 2 % 2 < 2 := Nat.mod_lt _ (by omega)
  have hy : m % 2 < 2 := Nat.mod_lt _ (by omega)
  generalize m / 2 % 2 = x at *
  generalize m % 2 = y at *
  clear e1 e2
  have hx' : x = 0 ∨ x = 1 := by omega
  have hy' : y = 0 ∨ y = 1 := by omega
  by_cases h0 : s = 0
  · subst h0
    rcases hx' with rfl | rfl <;> rcases hy' with rfl | rfl <;> simp [roundToEvenAdjustment] <;> omega
  · rcases hx' with rfl | rfl <;> rcases hy' with rfl | rfl <;>
      simp [roundToEvenAdjustment, h0] <;> omega

theorem UBig.toFloatSlow_spec {cfg : Cfg} (hv : cfg.Valid) {c : FloatCode} {f : FloatFmt} (hc : c.Matches f)
    {a : UBig} (ha : a.WF cfg) (hbig : 2 ^ c.prim ≤ a.value cfg) :
    ∃ b, a.toFloatSlow cfg c = .ok b ∧ f.Nearest (a.value cfg) b := by
  obtain ⟨hok, h1, h2, h3, h4, h5, h6, h7, h8, h9, h10⟩ := hc
  have hm := hok.mant
  unfold UBig.toFloatSlow
  rw [UBig.bitLen_spec hv ha]
  have hlen : c.prim < Ibig.bitLen (a.value cfg) := by
    by_contra h
    have := bitLen_le_iff.mp (Nat.le_of_not_lt h)
    omega
  show Returns (do
    assertR (Ibig.bitLen (a.value cfg) > c.lo)
    _) _
  rw [assertR_true (by omega)]
  show Returns (if _ then _ else _) _
  split
  · rename_i hgt
    refine returns_ok.mpr ⟨fun h => ?_, fun _ => h5⟩
    have : ¬a.value cfg < 2 ^ (f.bias + 1) := fun h' => by
      have := bitLen_le_iff.mpr h'
      omega
    unfold FloatFmt.overflow at h
    have := Nat.two_pow_pos (f.bias - f.mant - 1)
    omega
  · rename_i hle
    have hn0 : a.value cfg ≠ 0 := by have := Nat.two_pow_pos c.prim; omega
    have hnear := castFloat_nearest hok (n := a.value cfg) (bitLen_le_iff.mp (by omega))
    have hlt := lt_two_pow_bitLen (a.value cfg)
    have hge := two_pow_le_of_bitLen hn0
    unfold castFloat at hnear
    simp only at hnear
    have hlow := fun n => UBig.areLowBitsNonzero_spec hv ha n
    obtain ⟨m, m1, m2, m3⟩ := UBig.shr_spec hv .ref ha (Ibig.bitLen (a.value cfg) - c.extra)
    generalize Ibig.bitLen (a.value cfg) = L at *
    obtain ⟨k, hk⟩ : ∃ k, L = f.mant + 2 + k := ⟨L - (f.mant + 2), by omega⟩
    have hk2 : L - c.extra = k := by omega
    rw [if_neg hn0, if_neg (by omega), show L - (f.mant + 1) = k + 1 by omega, Nat.add_sub_cancel] at hnear
    rw [hk2] at m1 m3
    show Returns (do
      assertR (c.lo ≤ L - 1 ∧ L - 1 < c.maxLen)
      _) _
    rw [assertR_true (by omega)]
    show Returns (do
      let s ← ckSub L c.extra
      _) _
    rw [ckSub_ok (by omega), hk2]
    show Returns (do
      let sh ← a.shr cfg .ref k
      _) _
    rw [m1]
    have hP : 0 < 2 ^ k := Nat.two_pow_pos _
    have hm25 : m.value cfg < 2 ^ (f.mant + 2) := by
      rw [m3, Nat.div_lt_iff_lt_mul hP, ← Nat.pow_add, ← hk]; exact hlt
    have hm25p : m.value cfg < 2 ^ c.prim :=
      lt_trans hm25 (Nat.pow_lt_pow_right (by omega) (by omega))
    show Returns (do
      let u ← m.tryToUnsigned cfg c.prim
      _) _
    rw [UBig.tryToUnsigned_spec hv h7 m2, if_pos hm25p]
    show Returns (do
      let e ← ckAdd c.prim (L - 1) c.expAdd
      _) _
    have hP2 : 0 < 2 ^ f.mant := Nat.two_pow_pos _
    have e4 : 2 ^ (f.mant + 2) = 4 * 2 ^ f.mant := by rw [Nat.pow_add]; omega
    have b1 : (L + f.bias - 2) * 2 ^ f.mant + 2 * 2 ^ f.mant ≤ f.inf := by
      unfold FloatFmt.inf; rw [← Nat.add_mul]; exact Nat.mul_le_mul_right _ (by omega)
    have b2 : L + f.bias - 2 ≤ (L + f.bias - 2) * 2 ^ f.mant := Nat.le_mul_of_pos_right _ hP2
    rw [ckAdd_ok (by omega)]
    show Returns (do
      let value ← ckAdd c.prim (((L - 1 + c.expAdd) <<< c.mant) % 2 ^ c.prim) (m.value cfg >>> 1)
      _) _
    rw [Nat.shiftLeft_eq, h1, show L - 1 + c.expAdd = L + f.bias - 2 by omega,
      Nat.mod_eq_of_lt (by omega), Nat.shiftRight_eq_div_pow, pow_one, ckAdd_ok (by omega)]
    show Returns (do
      let extraBit ← a.areLowBitsNonzero cfg k
      _) _
    rw [hlow]
    have hs := Nat.mod_lt (a.value cfg) hP
    show Returns (ckAdd c.prim _ (roundToEvenAdjustment (((m.value cfg &&& 3) <<< 1) |||
      (decide (a.value cfg % 2 ^ k ≠ 0)).toNat)).toNat) _
    rw [roundToEven_spec hs]
    have q1 : a.value cfg / 2 ^ (k + 1) = m.value cfg / 2 := by
      rw [m3, Nat.div_div_eq_div_mul, ← Nat.pow_succ]
    have r1 : a.value cfg % 2 ^ (k + 1) = m.value cfg % 2 * 2 ^ k + a.value cfg % 2 ^ k := by
      rw [m3, Nat.pow_succ, Nat.mod_mul, Nat.mul_comm (2 ^ k), Nat.add_comm]
    rw [q1, r1] at hnear
    rw [ckAdd_ok (by split <;> omega)]
    exact returns_ok.mpr hnear

theorem UBig.toFloat_spec {cfg : Cfg} (hv : cfg.Valid) {c : FloatCode} {f : FloatFmt} (hc : c.Matches f)
    (h64 : 64 ≤ f.bias + 1) {a : UBig} (ha : a.WF cfg) :
    ∃ b, a.toFloat cfg c f = .ok b ∧ f.Nearest (a.value cfg) b := by
  unfold UBig.toFloat
  cases a with
  | small w =>
    refine ⟨_, rfl, castFloat_nearest hc.ok (lt_of_lt_of_le (show w < base cfg.W from ha) ?_)⟩
    rw [base_eq]
    exact Nat.pow_le_pow_right (by omega) (by have := hv.W64; omega)
  | large b =>
    simp only
    rw [UBig.tryToUnsigned_spec hv hc.prim ha]
    by_cases h : (UBig.large b).value cfg < 2 ^ c.prim
    · rw [if_pos h]
      refine ⟨_, rfl, castFloat_nearest hc.ok (lt_of_lt_of_le h ?_)⟩
      exact Nat.pow_le_pow_right (by omega) (by have := hc.mid; omega)
    · rw [if_neg h]
      exact UBig.toFloatSlow_spec hv hc ha (by omega)

end Ibig
