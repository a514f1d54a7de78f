import Verif.Model.Pow
import Verif.Proofs.MulOps
import Verif.Proofs.BitCount
/-! Proofs for exponentiation. -/
namespace Ibig

/-- A step producing a number no larger than the final one. -/
theorem Yields.seq {cfg : Cfg} {x : R UBig} {f : UBig → R UBig} {n N : Nat} (hx : Yields cfg x n)
    (hle : n ≤ N) (hf : ∀ c : UBig, c.WF cfg → c.value cfg = n → Yields cfg (f c) N) :
    Yields cfg (x >>= f) N := by
  by_cases h : Fits cfg n
  · obtain ⟨c, rfl, h1, h2⟩ := hx.1 h
    exact hf c h1 h2
  · rw [hx.2 h]
    exact ⟨fun h' => absurd (h'.mono hle) h, fun _ => rfl⟩

theorem div_two_pow_succ (e p : Nat) : e / 2 ^ p = 2 * (e / 2 ^ (p + 1)) + (e.testBit p).toNat := by
  rw [Nat.pow_succ, ← Nat.div_div_eq_div_mul, Nat.toNat_testBit]
  omega

theorem UBig.powMul_spec {cfg : Cfg} (hv : cfg.Valid) {x : UBig} (hx : x.WF cfg) (exp p : Nat) {res : UBig}
    (hr : res.WF cfg) (vr : res.value cfg = x.value cfg ^ (2 * (exp / 2 ^ (p + 1)))) :
    Yields cfg (UBig.powMul cfg x exp p res) (x.value cfg ^ (exp / 2 ^ p)) := by
  unfold UBig.powMul
  rw [div_two_pow_succ]
  cases h : exp.testBit p
  · rw [if_neg (by simp)]
    rw [Bool.toNat_false, Nat.add_zero, ← vr]
    exact ⟨fun _ => ⟨res, rfl, hr, rfl⟩, fun h => absurd (hr.fits hv) h⟩
  · rw [if_pos rfl, Bool.toNat_true, Nat.pow_succ, ← vr]
    exact UBig.mul_spec hv .val .ref hr hx

theorem UBig.powLoop_spec {cfg : Cfg} (hv : cfg.Valid) {x : UBig} (hx : x.WF cfg)
    (hx0 : 0 < x.value cfg) (exp : Nat) : ∀ (p : Nat) {res : UBig}, res.WF cfg →
    res.value cfg = x.value cfg ^ (2 * (exp / 2 ^ (p + 1))) →
    Yields cfg (UBig.powLoop cfg x exp p res) (x.value cfg ^ exp) := by
  intro p
  induction p with
  | zero =>
    intro res hr vr
    have := UBig.powMul_spec hv hx exp 0 hr vr
    rwa [Nat.pow_zero, Nat.div_one] at this
  | succ p ih =>
    intro res hr vr
    unfold UBig.powLoop
    refine (UBig.powMul_spec hv hx exp (p + 1) hr vr).seq
      (Nat.pow_le_pow_right hx0 (Nat.div_le_self _ _)) ?_
    intro c wc vc
    have hsq := UBig.mul_spec hv .ref .ref wc wc
    rw [vc, ← Nat.pow_add, ← Nat.two_mul] at hsq
    refine hsq.seq (Nat.pow_le_pow_right hx0 ?_) ?_
    · have := div_two_pow_succ exp p
      have := Nat.div_le_self exp (2 ^ p)
      omega
    · intro d wd vd
      exact ih wd vd

theorem UBig.powGeneral_spec {cfg : Cfg} (hv : cfg.Valid) {x : UBig} (hx : x.WF cfg)
    (hx0 : 0 < x.value cfg) {exp : Nat} (h2 : 2 < exp) (he : exp < 2 ^ cfg.U) :
    Yields cfg (UBig.powGeneral cfg x exp) (x.value cfg ^ exp) := by
  have hL : Ibig.bitLen exp ≤ cfg.U := bitLen_le_iff.mpr he
  have hL2 : 2 ≤ Ibig.bitLen exp := by
    by_contra h
    have : exp < 2 ^ 1 := bitLen_le_iff.mp (by omega)
    omega
  have hlo := two_pow_le_of_bitLen (x := exp) (by omega)
  have hhi := lt_two_pow_bitLen exp
  unfold UBig.powGeneral leadingZeros
  rw [ckSub_ok (by omega)]
  show Yields cfg (do let p ← ckSub (cfg.U - 2) (cfg.U - Ibig.bitLen exp); _) _
  rw [ckSub_ok (by omega)]
  show Yields cfg (do let res ← UBig.mul cfg .ref .ref x x; _) _
  refine (UBig.mul_spec hv .ref .ref hx hx).seq ?_ ?_
  · rw [← Nat.pow_two]; exact Nat.pow_le_pow_right hx0 (by omega)
  · intro c wc vc
    rw [assertR_true (by omega)]
    refine UBig.powLoop_spec hv hx hx0 exp _ wc ?_
    rw [vc, ← Nat.pow_two, show cfg.U - 2 - (cfg.U - Ibig.bitLen exp) + 1 = Ibig.bitLen exp - 1 by omega]
    have : exp / 2 ^ (Ibig.bitLen exp - 1) = 1 := by
      have hP := Nat.two_pow_pos (Ibig.bitLen exp - 1)
      have e : 2 ^ Ibig.bitLen exp = 2 * 2 ^ (Ibig.bitLen exp - 1) := by
        rw [← Nat.pow_succ']; congr 1; omega
      rw [Nat.div_eq_iff hP]
      omega
    rw [this]

theorem UBig.pow_spec {cfg : Cfg} (hv : cfg.Valid) {x : UBig} (hx : x.WF cfg) {exp : Nat}
    (he : exp < 2 ^ cfg.U) : Yields cfg (x.pow cfg exp) (x.value cfg ^ exp) := by
  have hW := hv.W4
  have hb : ∀ n, n < 4 → n < base cfg.W := by
    intro n hn
    rw [base_eq]; exact lt_of_lt_of_le hn (Nat.pow_le_pow_right (n := 2) (i := 2) (by omega) (by omega))
  have gen : 0 < x.value cfg → 2 < exp → Yields cfg (x.powGeneral cfg exp) (x.value cfg ^ exp) :=
    fun h1 h2 => UBig.powGeneral_spec hv hx h1 h2 he
  unfold UBig.pow
  by_cases h0 : exp = 0
  · rw [if_pos h0, h0, Nat.pow_zero]; exact yields_small hv (hb _ (by omega))
  rw [if_neg h0]
  by_cases h1 : exp = 1
  · rw [if_pos h1, h1, Nat.pow_one]
    obtain ⟨c, c1, c2, c3⟩ := UBig.clone_spec hx
    rw [c1]
    exact ⟨fun _ => ⟨c, rfl, c2, c3⟩, fun h => absurd (hx.fits hv) h⟩
  rw [if_neg h1]
  by_cases h2 : exp = 2
  · rw [if_pos h2, h2, Nat.pow_two]; exact UBig.mul_spec hv .ref .ref hx hx
  rw [if_neg h2]
  split
  · show Yields cfg _ (0 ^ exp)
    rw [Nat.zero_pow (by omega)]; exact yields_small hv (hb _ (by omega))
  · show Yields cfg _ (1 ^ exp)
    rw [Nat.one_pow]; exact yields_small hv (hb _ (by omega))
  · show Yields cfg _ (2 ^ exp)
    obtain ⟨n, n1, n2⟩ := UBig.setBit_spec hv (wf_zero cfg) exp
    have : n = 2 ^ exp := by
      refine Nat.eq_of_testBit_eq fun i => ?_
      rw [n1 i, Nat.testBit_two_pow]
      show (decide (i = exp) || Nat.testBit 0 i) = _
      rw [Nat.zero_testBit, Bool.or_false, decide_eq_decide]; exact eq_comm
    rw [← this]; exact n2
  · rename_i g0 _ _
    refine gen ?_ (by omega)
    cases x with
    | small w =>
      rcases Nat.eq_zero_or_pos w with h | h
      · exact absurd (by rw [h]) g0
      · exact h
    | large b =>
      exact lt_of_lt_of_le (base_pos _) (Buffer.WF.ge_base hx)

theorem IBig.pow_spec {cfg : Cfg} (hv : cfg.Valid) {x : IBig} (hx : x.WF cfg) {exp : Nat}
    (he : exp < 2 ^ cfg.U) : IYields cfg (x.pow cfg exp) (x.value cfg ^ exp) := by
  unfold IBig.pow
  have h := (UBig.pow_spec hv hx.mag he).withSign hv (if x.sign = .neg ∧ exp % 2 = 1 then .neg else .pos)
  have e : x.value cfg ^ exp = (if x.sign = .neg ∧ exp % 2 = 1 then Sign.neg else Sign.pos).toInt *
      (x.mag.value cfg ^ exp : Nat) := by
    rw [IBig.value_def, mul_pow]
    push_cast
    congr 1
    cases hs : x.sign
    · simp [Sign.toInt]
    · rcases Nat.mod_two_eq_zero_or_one exp with h | h
      · rw [if_neg (by omega)]
        exact Even.neg_one_pow (Nat.even_iff.mpr h)
      · rw [if_pos ⟨rfl, h⟩]
        exact Odd.neg_one_pow (Nat.odd_iff.mpr h)
  rw [e]
  exact h

end Ibig
