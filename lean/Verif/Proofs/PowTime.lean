import Verif.Proofs.Costs
import Verif.Proofs.Pow
import Verif.Model.PowTime
/-!
The number of steps of exponentiation.
-/
namespace Ibig.Timed

/-! The results are the same -/

theorem UBig.withBitWordSlow_result (cfg : Cfg) (w n : Nat) :
    (UBig.withBitWordSlow cfg w n).result = Ibig.UBig.withBitWordSlow cfg w n := by
  unfold UBig.withBitWordSlow Ibig.UBig.withBitWordSlow
  refine result_bind (result_pass _ _) (fun _ => ?_)
  refine result_bind (result_pass _ _) (fun _ => ?_)
  refine result_bind (result_pass _ _) (fun _ => ?_)
  refine result_bind (result_pass _ _) (fun _ => ?_)
  exact result_bind (result_pass _ _) (fun _ => result_pass _ _)

theorem UBig.withBitLarge_result (cfg : Cfg) (b : Buffer) (n : Nat) :
    (UBig.withBitLarge cfg b n).result = Ibig.UBig.withBitLarge cfg b n := by
  unfold UBig.withBitLarge Ibig.UBig.withBitLarge
  refine result_ite (fun _ => ?_) (fun _ => ?_)
  · refine result_bind (result_pass _ _) (fun _ => ?_)
    exact result_bind (result_pass _ _) (fun _ => result_pass _ _)
  · refine result_bind (result_pass _ _) (fun _ => ?_)
    refine result_bind (result_pass _ _) (fun _ => ?_)
    refine result_bind (result_pass _ _) (fun _ => ?_)
    exact result_bind (result_pass _ _) (fun _ => result_pass _ _)

theorem UBig.setBit_result (cfg : Cfg) (x : UBig) (n : Nat) :
    (UBig.setBit cfg x n).result = Ibig.UBig.setBit cfg x n := by
  cases x
  · exact result_ite (fun _ => rfl) (fun _ => UBig.withBitWordSlow_result _ _ _)
  · exact UBig.withBitLarge_result _ _ _

theorem UBig.powMul_result (cfg : Cfg) (x : UBig) (exp p : Nat) (res : UBig) :
    (UBig.powMul cfg x exp p res).result = Ibig.UBig.powMul cfg x exp p res :=
  result_ite (fun _ => UBig.mul_result _ _ _ _ _) (fun _ => rfl)

theorem UBig.powLoop_result (cfg : Cfg) (x : UBig) (exp p : Nat) : ∀ res : UBig,
    (UBig.powLoop cfg x exp p res).result = Ibig.UBig.powLoop cfg x exp p res := by
  induction p with
  | zero => exact fun res => (bind_of_ok rfl _).trans (UBig.powMul_result _ _ _ _ _)
  | succ p ih =>
    intro res
    rw [UBig.powLoop, Ibig.UBig.powLoop]
    refine (bind_of_ok rfl _).trans ?_
    refine result_bind (UBig.powMul_result _ _ _ _ _) (fun _ => ?_)
    exact result_bind (UBig.mul_result _ _ _ _ _) (fun _ => ih _)

theorem UBig.powGeneral_result (cfg : Cfg) (x : UBig) (exp : Nat) :
    (UBig.powGeneral cfg x exp).result = Ibig.UBig.powGeneral cfg x exp := by
  unfold UBig.powGeneral Ibig.UBig.powGeneral
  refine result_bind (result_pass _ _) (fun _ => ?_)
  refine result_bind (result_pass _ _) (fun _ => ?_)
  refine result_bind (UBig.mul_result _ _ _ _ _) (fun _ => ?_)
  exact result_bind (result_pass _ _) (fun _ => UBig.powLoop_result _ _ _ _ _)

theorem UBig.pow_result (cfg : Cfg) (x : UBig) (exp : Nat) :
    (UBig.pow cfg x exp).result = Ibig.UBig.pow cfg x exp := by
  unfold UBig.pow Ibig.UBig.pow
  refine result_ite (fun _ => rfl) (fun _ => ?_)
  refine result_ite (fun _ => result_pass _ _) (fun _ => ?_)
  refine result_ite (fun _ => UBig.mul_result _ _ _ _ _) (fun _ => ?_)
  rcases x with (_ | _ | _ | w) | b
  · rfl
  · rfl
  · exact UBig.setBit_result _ _ _
  · exact UBig.powGeneral_result _ _ _
  · exact UBig.powGeneral_result _ _ _

theorem IBig.pow_result (cfg : Cfg) (x : IBig) (exp : Nat) :
    (IBig.pow cfg x exp).result = Ibig.IBig.pow cfg x exp :=
  result_bind (UBig.pow_result _ _ _) (fun _ => rfl)

/-! The number of steps -/

theorem takes_push (b : Buffer) (w : Nat) : Takes (Buffer.push b w) 1 (fun c => c.words = b.words ++ [w]) := by
  refine Takes.pass ?_
  unfold Ibig.Buffer.push
  exact Post.bind (Post.true _) (fun _ _ => Post.ok rfl)

theorem takes_allocate (cfg : Cfg) (n : Nat) : Takes (Buffer.allocate cfg n) 1 (fun c => c.words = []) := by
  refine Takes.pass ?_
  unfold Ibig.Buffer.allocate
  refine Post.ite (fun _ => Post.error) (fun _ => ?_)
  exact Post.bind (Post.true _) (fun _ _ => Post.ok rfl)

theorem takes_withBitWordSlow (cfg : Cfg) (w n : Nat) :
    Takes (UBig.withBitWordSlow cfg w n) (3 * (n / cfg.W) + 11) (fun _ => True) := by
  unfold UBig.withBitWordSlow
  tone takes_assertR _ => _u
  refine Takes.bind (takes_allocate _ _) (by omega) (fun b M hM hb => ?_)
  refine Takes.bind (takes_push _ _) (by omega) (fun c M1 hM1 hc => ?_)
  refine Takes.bind (takes_extend _ _) (by rw [List.length_replicate]; omega) (fun d M2 hM2 hd => ?_)
  rw [List.length_replicate] at hM2
  refine Takes.bind (takes_push _ _) (by omega) (fun e M3 hM3 he => ?_)
  refine (takes_ofBuffer cfg e).mono ?_ (fun _ h => h)
  rw [he, List.length_append, hd, hc, hb, List.length_replicate]
  simp only [List.length_append, List.length_cons, List.length_nil]
  omega

theorem two_mul_rpow {e f : ℕ} (h : 2 * e ≤ f) :
    2 * ((e : ℝ) * (e : ℝ) ^ (47 / 100 : ℝ)) ≤ (f : ℝ) * (f : ℝ) ^ (47 / 100 : ℝ) := by
  have h1 : (2 : ℝ) * e ≤ f := by exact_mod_cast h
  rw [← mul_assoc]
  exact mul_le_mul h1 (rpow47_mono (by omega)) (rpow47_nonneg _) (Nat.cast_nonneg _)

theorem value_pow_lt {W n v : ℕ} (hv : v < 2 ^ (n * W)) {e : ℕ} (he : 1 ≤ e) : v ^ e < 2 ^ (n * e * W) := by
  calc v ^ e < (2 ^ (n * W)) ^ e := Nat.pow_lt_pow_left hv (by omega)
    _ = 2 ^ (n * e * W) := by rw [← pow_mul]; congr 1; ring

section
variable {cfg : Cfg}

/-- one multiplication by the base -/
theorem costs_powMul (hv : cfg.Valid) {x : UBig} (hx : x.WF cfg) {n : ℕ} (hn : 1 ≤ n)
    (hxn : x.value cfg < 2 ^ (n * cfg.W)) (exp p : ℕ) {res : UBig} (hr : res.WF cfg)
    (vr : res.value cfg = x.value cfg ^ (2 * (exp / 2 ^ (p + 1)))) (h1 : 1 ≤ exp / 2 ^ (p + 1)) :
    Costs (UBig.powMul cfg x exp p res)
      (54 * (n * (exp / 2 ^ p) : ℕ) * (n : ℝ) ^ (47 / 100 : ℝ) - 1)
      (fun c => c.WF cfg ∧ c.value cfg = x.value cfg ^ (exp / 2 ^ p)) := by
  have hE := div_two_pow_succ exp p
  have hy := one_le_rpow47 hn
  have hle : 2 * (exp / 2 ^ (p + 1)) ≤ exp / 2 ^ p := by omega
  have hr1 : ((n * (2 * (exp / 2 ^ (p + 1))) : ℕ) : ℝ) ≤ (n * (exp / 2 ^ p) : ℕ) := by
    exact_mod_cast Nat.mul_le_mul_left n hle
  have hr2 : ((2 * n : ℕ) : ℝ) ≤ (n * (exp / 2 ^ p) : ℕ) := by
    rw [Nat.mul_comm 2 n]
    exact_mod_cast Nat.mul_le_mul_left n (by omega)
  push_cast at hr2
  have hn' : (1 : ℝ) ≤ n := by exact_mod_cast hn
  refine (Costs.of_post (B := 27 * ((n * (exp / 2 ^ p) : ℕ) + n) * (n : ℝ) ^ (47 / 100 : ℝ))
    (fun r k hk => ?_) (UBig.powMul_result cfg x exp p res) (Yields.post (UBig.powMul_spec hv hx exp p hr vr))).mono
    ?_ (fun _ h => h)
  · unfold UBig.powMul at hk
    by_cases ht : exp.testBit p = true
    · rw [if_pos ht] at hk
      refine (UBig.mul_steps .val .ref hr hx hk).trans ?_
      refine (mulBound_mono (n' := n * (2 * (exp / 2 ^ (p + 1)))) (m' := n)
        (UBig.len_le hv hr (Nat.one_le_iff_ne_zero.mpr (by positivity)) ?_) (UBig.len_le hv hx hn hxn)).trans ?_
      · rw [vr]
        exact value_pow_lt hxn (by omega)
      · unfold mulBound
        refine mul_le_mul (by linarith) (rpow47_mono (Nat.min_le_right _ _)) (rpow47_nonneg _) (by positivity)
    · rw [if_neg ht] at hk
      cases hk
      simp only [Nat.cast_zero]
      positivity
  · have h5 : (1 : ℝ) * 1 ≤ n * (n : ℝ) ^ (47 / 100 : ℝ) := mul_le_mul hn' hy (by norm_num) (by positivity)
    have h6 := mul_le_mul_of_nonneg_right hr2 (rpow47_nonneg n)
    push_cast
    linarith

theorem costs_powLoop (hv : cfg.Valid) {x : UBig} (hx : x.WF cfg) {n : ℕ} (hn : 1 ≤ n)
    (hxn : x.value cfg < 2 ^ (n * cfg.W)) (exp : ℕ) : ∀ (p : ℕ) {res : UBig}, res.WF cfg →
    res.value cfg = x.value cfg ^ (2 * (exp / 2 ^ (p + 1))) → 1 ≤ exp / 2 ^ (p + 1) →
    Costs (UBig.powLoop cfg x exp p res)
      (54 * ((n * exp : ℕ) * ((n * exp : ℕ) : ℝ) ^ (47 / 100 : ℝ)) -
        54 * ((n * (exp / 2 ^ p) : ℕ) * ((n * (exp / 2 ^ p) : ℕ) : ℝ) ^ (47 / 100 : ℝ)) +
        (108 * (n * exp : ℕ) * (n : ℝ) ^ (47 / 100 : ℝ) -
          54 * (n * (exp / 2 ^ p) : ℕ) * (n : ℝ) ^ (47 / 100 : ℝ))) (fun _ => True) := by
  intro p
  induction p with
  | zero =>
    intro res hr vr h1
    rw [UBig.powLoop]
    refine (Costs.tick.bind fun _ _ => (costs_powMul hv hx hn hxn exp 0 hr vr h1)).mono ?_ (fun _ _ => trivial)
    rw [pow_zero, Nat.div_one]
    linarith
  | succ p ih =>
    intro res hr vr h1
    rw [UBig.powLoop]
    have hE := div_two_pow_succ exp p
    have hE1 := div_two_pow_succ exp (p + 1)
    have h2 : 1 ≤ exp / 2 ^ (p + 1) := by omega
    refine (Costs.tick.bind fun _ _ => (costs_powMul hv hx hn hxn exp (p + 1) hr vr h1).bind fun c hc =>
      (costs_mul hv .ref .ref hc.1 hc.1 (n := n * (exp / 2 ^ (p + 1))) (m := n * (exp / 2 ^ (p + 1)))
        (Nat.one_le_iff_ne_zero.mpr (by positivity)) (Nat.one_le_iff_ne_zero.mpr (by positivity)) ?_ ?_).bind
        fun d hd => ih hd.1 ?_ h2).mono ?_ (fun _ h => h)
    · rw [hc.2]; exact value_pow_lt hxn h2
    · rw [hc.2]; exact value_pow_lt hxn h2
    · rw [hd.2, hc.2, ← pow_add]; congr 1; ring
    · have hle : 2 * (n * (exp / 2 ^ (p + 1))) ≤ n * (exp / 2 ^ p) := by
        calc 2 * (n * (exp / 2 ^ (p + 1))) = n * (2 * (exp / 2 ^ (p + 1))) := by ring
          _ ≤ _ := Nat.mul_le_mul_left _ (by omega)
      have h3 := two_mul_rpow hle
      have h4 : 2 * ((n * (exp / 2 ^ (p + 1)) : ℕ) : ℝ) ≤ (n * (exp / 2 ^ p) : ℕ) := by exact_mod_cast hle
      have h5 := mul_le_mul_of_nonneg_right h4 (rpow47_nonneg n)
      unfold mulBound
      rw [min_self]
      nlinarith

theorem costs_powGeneral (hv : cfg.Valid) {x : UBig} (hx : x.WF cfg) {n : ℕ} (hn : 1 ≤ n)
    (hxn : x.value cfg < 2 ^ (n * cfg.W)) {exp : ℕ} (h2 : 2 < exp) (he : exp < 2 ^ cfg.U) :
    Costs (UBig.powGeneral cfg x exp)
      (54 * ((n * exp : ℕ) * ((n * exp : ℕ) : ℝ) ^ (47 / 100 : ℝ)) +
        108 * (n * exp : ℕ) * (n : ℝ) ^ (47 / 100 : ℝ)) (fun _ => True) := by
  have hL : Ibig.bitLen exp ≤ cfg.U := bitLen_le_iff.mpr he
  have hL2 : 2 ≤ Ibig.bitLen exp := by
    by_contra h
    have : exp < 2 ^ 1 := bitLen_le_iff.mp (by omega)
    omega
  have hlo := two_pow_le_of_bitLen (x := exp) (by omega)
  have hhi := lt_two_pow_bitLen exp
  have h1 : exp / 2 ^ (Ibig.bitLen exp - 1) = 1 := by
    have hP := Nat.two_pow_pos (Ibig.bitLen exp - 1)
    have e : 2 ^ Ibig.bitLen exp = 2 * 2 ^ (Ibig.bitLen exp - 1) := by
      rw [← Nat.pow_succ']; congr 1; omega
    rw [Nat.div_eq_iff hP]
    omega
  have sub : ∀ a b, Costs (ckSub a b) 1 (fun c => c = a - b) := fun a b => by
    refine (Costs.pass (n := 1) ?_).mono (by norm_num) (fun _ h => h)
    unfold Ibig.ckSub
    exact Post.ite (fun _ => Post.ok rfl) (fun _ => Post.error)
  have hn' : (1 : ℝ) ≤ n := by exact_mod_cast hn
  have hy := one_le_rpow47 hn
  have loop : ∀ c : UBig, c.WF cfg → c.value cfg = x.value cfg * x.value cfg →
      Costs (UBig.powLoop cfg x exp (Ibig.bitLen exp - 2) c)
        (54 * ((n * exp : ℕ) * ((n * exp : ℕ) : ℝ) ^ (47 / 100 : ℝ)) +
          108 * (n * exp : ℕ) * (n : ℝ) ^ (47 / 100 : ℝ) - 108 * (n * (n : ℝ) ^ (47 / 100 : ℝ))) (fun _ => True) := by
    intro c hc vc
    have e : Ibig.bitLen exp - 2 + 1 = Ibig.bitLen exp - 1 := by omega
    refine (costs_powLoop hv hx hn hxn exp (Ibig.bitLen exp - 2) hc ?_ ?_).mono ?_ (fun _ h => h)
    · rw [e, h1, vc, ← Nat.pow_two]
    · rw [e, h1]
    · have h3 := div_two_pow_succ exp (Ibig.bitLen exp - 2)
      rw [e, h1] at h3
      generalize exp / 2 ^ (Ibig.bitLen exp - 2) = q at *
      have h4 : ((2 * n : ℕ) : ℝ) ≤ (n * q : ℕ) := by
        rw [Nat.mul_comm 2 n]
        exact_mod_cast Nat.mul_le_mul_left n (by omega)
      have h5 := mul_le_mul_of_nonneg_right h4 (rpow47_nonneg n)
      have h6 : 0 ≤ ((n * q : ℕ) : ℝ) * ((n * q : ℕ) : ℝ) ^ (47 / 100 : ℝ) := by positivity
      push_cast at *
      linarith
  unfold UBig.powGeneral
  refine (sub _ _).step fun s hs => (sub _ _).step fun p hp => ?_
  refine (costs_mul hv .ref .ref hx hx hn hn hxn hxn).step fun c hc => ?_
  refine (Takes.costs (takes_assertR _)).step fun _ _ => ?_
  have : p = Ibig.bitLen exp - 2 := by rw [hp, hs]; unfold leadingZeros; omega
  rw [this]
  refine (loop c hc.1 hc.2).mono ?_ (fun _ h => h)
  have h5 : (1 : ℝ) * 1 ≤ n * (n : ℝ) ^ (47 / 100 : ℝ) := mul_le_mul hn' hy (by norm_num) (by positivity)
  unfold mulBound
  rw [min_self]
  push_cast
  linarith

/-- A bound for the steps of raising a number of `n` words to the power `e`. -/
noncomputable def powBound (n e : ℕ) : ℝ :=
  54 * ((n * e : ℕ) * ((n * e : ℕ) : ℝ) ^ (47 / 100 : ℝ)) + 108 * (n * e : ℕ) * (n : ℝ) ^ (47 / 100 : ℝ)

theorem costs_pow (hv : cfg.Valid) {x : UBig} (hx : x.WF cfg) {n : ℕ} (hn : 1 ≤ n)
    (hxn : x.value cfg < 2 ^ (n * cfg.W)) {exp : ℕ} (he : exp < 2 ^ cfg.U) :
    Costs (UBig.pow cfg x exp) (powBound n exp) (fun c => c.WF cfg ∧ c.value cfg = x.value cfg ^ exp) := by
  refine Costs.post (P := fun _ => True) ?_ (UBig.pow_result cfg x exp) (Yields.post (UBig.pow_spec hv hx he))
  have hn' : (1 : ℝ) ≤ n := by exact_mod_cast hn
  have hy := one_le_rpow47 hn
  have h0 : 0 ≤ powBound n exp := by unfold powBound; positivity
  have lin : 108 * ((n : ℝ) * exp) ≤ powBound n exp := by
    have h1 : (0 : ℝ) ≤ 54 * ((n * exp : ℕ) * ((n * exp : ℕ) : ℝ) ^ (47 / 100 : ℝ)) := by positivity
    have h2 : ((n * exp : ℕ) : ℝ) * 1 ≤ ((n * exp : ℕ) : ℝ) * (n : ℝ) ^ (47 / 100 : ℝ) :=
      mul_le_mul_of_nonneg_left hy (by positivity)
    unfold powBound
    push_cast at *
    linarith
  unfold UBig.pow
  refine Costs.ite (fun _ => (Costs.pure trivial).mono h0 (fun _ h => h)) (fun e0 => ?_)
  refine Costs.ite (fun e1 => ?_) (fun e1 => ?_)
  · refine (Costs.pass (Post.true _)).mono ?_ (fun _ h => h)
    have h1 : (x.len : ℝ) ≤ n := by exact_mod_cast UBig.len_le hv hx hn hxn
    subst e1
    push_cast at lin ⊢
    linarith
  refine Costs.ite (fun e2 => ?_) (fun e2 => ?_)
  · refine (costs_mul hv .ref .ref hx hx hn hn hxn hxn).mono ?_ (fun _ _ => trivial)
    have h1 : (0 : ℝ) ≤ 54 * ((n * exp : ℕ) * ((n * exp : ℕ) : ℝ) ^ (47 / 100 : ℝ)) := by positivity
    unfold mulBound powBound
    rw [min_self]
    subst e2
    have h3 : 0 ≤ (n : ℝ) * (n : ℝ) ^ (47 / 100 : ℝ) := by positivity
    push_cast at *
    linarith
  have gen := costs_powGeneral hv hx hn hxn (exp := exp) (by omega) he
  have small : Costs (UBig.setBit cfg (.small 0) exp) (powBound n exp) (fun _ => True) := by
    refine Costs.ite (fun _ => (Costs.pure trivial).mono h0 (fun _ h => h)) (fun _ => ?_)
    refine (Takes.costs (takes_withBitWordSlow cfg 0 exp)).mono ?_ (fun _ h => h)
    have h1 : ((3 * (exp / cfg.W) + 11 : ℕ) : ℝ) ≤ ((108 * exp : ℕ) : ℝ) := by
      have := Nat.div_le_self exp cfg.W
      exact_mod_cast (by omega : 3 * (exp / cfg.W) + 11 ≤ 108 * exp)
    have h2 : (1 : ℝ) * exp ≤ n * exp := mul_le_mul_of_nonneg_right hn' (Nat.cast_nonneg _)
    push_cast at *
    linarith
  rcases x with (_ | _ | _ | w) | b
  · exact (Costs.pure trivial).mono h0 (fun _ h => h)
  · exact (Costs.pure trivial).mono h0 (fun _ h => h)
  · exact small
  · exact gen
  · exact gen

end

end Ibig.Timed
