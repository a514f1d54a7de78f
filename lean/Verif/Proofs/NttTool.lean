import Mathlib.RingTheory.IntegralDomain
import Mathlib.FieldTheory.Finite.Basic
import Verif.Model.NttTool
import Verif.Spec.NttTool
import Verif.Proofs.Ntt
import Verif.Proofs.BitCount
import Verif.Proofs.ShiftOps
import Verif.Proofs.DivOps
import Verif.Proofs.MulOps
import Verif.Props.Modular
/-! Lemmas about the program which finds the constants of the number-theoretic transform. -/
namespace Ibig

/-! ### Mathematics -/

theorem pow_eq_neg_one_iff {p a e : Nat} (hp : 1 < p) : ((a : ZMod p) ^ e = -1) ↔ a ^ e % p = p - 1 := by
  have : (-1 : ZMod p) = ((p - 1 : Nat) : ZMod p) := by
    rw [Nat.cast_sub hp.le, ZMod.natCast_self, Nat.cast_one, zero_sub]
  rw [this, ← Nat.cast_pow, ZMod.natCast_eq_natCast_iff, Nat.ModEq, Nat.mod_eq_of_lt (a := p - 1) (by omega)]

/-- The residue in step `j` of the Miller-Rabin test. -/
def mrRes (n b mult j : Nat) : Nat := b ^ (mult * 2 ^ j) % n

theorem mrRes_succ (n b mult j : Nat) : mrRes n b mult (j + 1) = mrRes n b mult j * mrRes n b mult j % n := by
  unfold mrRes
  rw [← Nat.mul_mod, ← pow_add, pow_succ, ← mul_assoc, mul_two]

theorem mrRes_one_of_le {n b mult i j : Nat} (hn : 1 < n) (h : mrRes n b mult i = 1) (hij : i ≤ j) :
    mrRes n b mult j = 1 := by
  induction j, hij using Nat.le_induction with
  | base => exact h
  | succ j _ ih => rw [mrRes_succ, ih, Nat.mul_one, Nat.mod_eq_of_lt hn]

theorem mrRes_one_of_neg {n b mult i : Nat} (hn : 1 < n) (h : mrRes n b mult i = n - 1) :
    mrRes n b mult (i + 1) = 1 := by
  rw [mrRes_succ, h]
  obtain ⟨m, rfl⟩ : ∃ m, n = m + 2 := ⟨n - 2, by omega⟩
  rw [show m + 2 - 1 = m + 1 by omega, show (m + 1) * (m + 1) = 1 + (m + 2) * m by ring, Nat.add_mul_mod_self_left,
    Nat.mod_eq_of_lt hn]

/-- Every base passes the Miller-Rabin test if the number is prime. -/
theorem mrRes_prime {n b mult order : Nat} (hp : n.Prime) (hn : n = mult * 2 ^ order + 1) (h1 : 1 ≤ b) (hb : b < n) :
    mrRes n b mult 0 = 1 ∨ ∃ j < order, mrRes n b mult j = n - 1 := by
  haveI : Fact n.Prime := ⟨hp⟩
  have h2 := hp.two_le
  by_contra hc
  rw [not_or, not_exists] at hc
  have hz : (b : ZMod n) ≠ 0 := by
    rw [Ne, ZMod.natCast_eq_zero_iff]
    exact fun hd => absurd (Nat.le_of_dvd (by omega) hd) (by omega)
  have key : ∀ j, j ≤ order → mrRes n b mult (order - j) = 1 := by
    intro j
    induction j with
    | zero =>
      intro _
      rw [Nat.sub_zero]
      unfold mrRes
      rw [← pow_eq_one_iff (by omega), show mult * 2 ^ order = n - 1 by omega]
      exact ZMod.pow_card_sub_one_eq_one hz
    | succ j ih =>
      intro hj
      have := ih (by omega)
      rw [show order - j = (order - (j + 1)) + 1 by omega, mrRes, pow_succ, ← mul_assoc, pow_mul,
        ← Nat.cast_one (R := Nat), Nat.cast_one] at this
      have hsq : ((b : ZMod n) ^ (mult * 2 ^ (order - (j + 1)))) ^ 2 = 1 := by
        rw [← Nat.cast_pow (b) _, pow_eq_one_iff (by omega)]
        exact this
      rw [pow_two] at hsq
      rcases mul_self_eq_one_iff.mp hsq with h | h
      · exact (pow_eq_one_iff (by omega)).mp h
      · exact absurd ⟨by omega, (pow_eq_neg_one_iff (by omega)).mp h⟩ (hc.2 (order - (j + 1)))
  exact hc.1 (by have := key order (le_refl _); rwa [Nat.sub_self] at this)

/-- The three conditions for Lucas' criterion. -/
theorem prime_of_tool {n b mult order : Nat} (ho : 1 ≤ order) (hm : 1 ≤ mult) (hn : n = mult * 2 ^ order + 1)
    (h1 : mrRes n b mult (order - 1) = n - 1)
    (h2 : ∀ d, 2 ≤ d → d ≤ mult → mult % d = 0 → b ^ (mult / d * 2 ^ order) % n ≠ 1) : n.Prime := by
  have hp2 : 2 ≤ 2 ^ order := by
    calc 2 = 2 ^ 1 := rfl
      _ ≤ 2 ^ order := Nat.pow_le_pow_right (by norm_num) ho
  have hn3 : 2 < n := by
    have := Nat.mul_le_mul hm hp2
    omega
  have hsub : n - 1 = mult * 2 ^ order := by omega
  refine lucas_primality n (b : ZMod n) ?_ ?_
  · rw [pow_eq_one_iff (by omega), hsub]
    have := mrRes_one_of_neg (by omega) h1
    rwa [Nat.sub_add_cancel ho] at this
  · intro q hq hd
    rw [Ne, pow_eq_one_iff (by omega)]
    rw [hsub] at hd ⊢
    rcases hq.dvd_mul.mp hd with hd | hd
    · have := h2 q hq.two_le (Nat.le_of_dvd hm hd) (Nat.mod_eq_zero_of_dvd hd)
      rwa [Nat.div_mul_right_comm hd] at this
    · have : q = 2 := (Nat.prime_dvd_prime_iff_eq hq Nat.prime_two).mp (hq.dvd_of_dvd_pow hd)
      rw [this]
      have e : mult * 2 ^ order / 2 = mult * 2 ^ (order - 1) := by
        obtain ⟨o, rfl⟩ : ∃ o, order = o + 1 := ⟨order - 1, by omega⟩
        rw [pow_succ, ← mul_assoc, Nat.mul_div_cancel _ (by norm_num), Nat.add_sub_cancel]
      rw [e]
      change mrRes n b mult (order - 1) ≠ 1
      omega

/-- A generator meets the conditions. -/
theorem tool_of_generator {n b mult order : Nat} (hp : n.Prime) (ho : 1 ≤ order) (hm : 1 ≤ mult)
    (hn : n = mult * 2 ^ order + 1) (hg : orderOf (b : ZMod n) = n - 1) :
    mrRes n b mult (order - 1) = n - 1 ∧
    ∀ d, 2 ≤ d → d ≤ mult → mult % d = 0 → b ^ (mult / d * 2 ^ order) % n ≠ 1 := by
  haveI : Fact n.Prime := ⟨hp⟩
  have h2 := hp.two_le
  have hpos : 0 < 2 ^ order := by positivity
  have hlt : ∀ e, 0 < e → e < n - 1 → b ^ e % n ≠ 1 := fun e h0 hl hc => by
    have := orderOf_dvd_of_pow_eq_one ((pow_eq_one_iff (p := n) (by omega)).mpr hc)
    rw [hg] at this
    exact absurd (Nat.le_of_dvd h0 this) (by omega)
  have hone : b ^ (n - 1) % n = 1 := by
    rw [← pow_eq_one_iff (by omega), ← hg, pow_orderOf_eq_one]
  have hsub : n - 1 = mult * 2 ^ order := by omega
  constructor
  · obtain ⟨o, rfl⟩ : ∃ o, order = o + 1 := ⟨order - 1, by omega⟩
    rw [Nat.add_sub_cancel]
    rw [hsub, pow_succ, ← mul_assoc, pow_mul, ← pow_eq_one_iff (by omega), Nat.cast_pow] at hone
    rw [pow_two] at hone
    have hpos' : 0 < mult * 2 ^ o := Nat.mul_pos hm (by positivity)
    rcases mul_self_eq_one_iff.mp hone with h | h
    · exact absurd ((pow_eq_one_iff (by omega)).mp h) (hlt _ hpos' (by rw [hsub, pow_succ, ← mul_assoc]; omega))
    · exact (pow_eq_neg_one_iff (by omega)).mp h
  · intro d h2 hle hd
    have h1 : 0 < mult / d := Nat.div_pos hle (by omega)
    have h3 : mult / d < mult := Nat.div_lt_self (by omega) h2
    exact hlt _ (Nat.mul_pos h1 hpos) (by rw [hsub]; exact Nat.mul_lt_mul_of_pos_right h3 hpos)

/-! ### The loops -/

/-- The ring and its unit. -/
structure ToolRing (cfg : Cfg) (ring : Ring) (one : Modulo) (n : Nat) : Prop where
  isRing : IsRing cfg ring n
  one : Elem cfg ring one 1
  gt : 2 < n
  fits : Fits cfg (n ^ (bitLen n + 6))

namespace ToolRing
variable {cfg : Cfg} {ring : Ring} {one : Modulo} {n : Nat}

theorem fitsN (h : ToolRing cfg ring one n) : Fits cfg n :=
  h.fits.mono (Nat.le_self_pow (by omega) n)

theorem fitsSq (h : ToolRing cfg ring one n) : Fits cfg (n * n) := by
  refine h.fits.mono ?_
  rw [← pow_two]
  exact Nat.pow_le_pow_right (by have := h.gt; omega) (by omega)

theorem accepts (hv : cfg.Valid) (h : ToolRing cfg ring one n) {x : Nat} (hx : x ≤ n) : Accepts cfg n x := by
  by_cases hw : n < 2 ^ cfg.W
  · exact Or.inl hw
  · exact accepts_of_fits hv (h.fitsSq.mono (Nat.mul_le_mul hx (by omega)))

theorem pow (hv : cfg.Valid) (h : ToolRing cfg ring one n) {x : Modulo} {k : Nat} (hx : Elem cfg ring x k) {e : UBig}
    (he : e.WF cfg) (hle : e.value cfg ≤ n) :
    ∃ m, x.pow cfg e = .ok m ∧ Elem cfg ring m (k ^ e.value cfg % n) := by
  rcases C29_pow hv h.isRing hx he with h1 | ⟨-, h1⟩
  · exact h1
  · refine absurd (h.fits.mono (Nat.pow_le_pow_right (by have := h.gt; omega) ?_)) h1
    have := bitLen_mono hle
    omega

theorem mul (hv : cfg.Valid) (h : ToolRing cfg ring one n) {x y : Modulo} {j k : Nat} (o1 o2 : Own)
    (hx : Elem cfg ring x j) (hy : Elem cfg ring y k) :
    ∃ m, Modulo.mul cfg o1 o2 x y = .ok m ∧ Elem cfg ring m (j * k % n) := by
  rcases C27_mul hv h.isRing o1 o2 hx hy with h1 | ⟨-, h1⟩
  · exact h1
  · exact absurd h.fitsSq h1

theorem eq (hv : cfg.Valid) (h : ToolRing cfg ring one n) {x y : Modulo} {j k : Nat} (hx : Elem cfg ring x j)
    (hy : Elem cfg ring y k) : Modulo.eq x y = .ok (decide (j = k)) := by
  obtain ⟨b, e, hb⟩ := (C27_add_sub_neg_eq hv h.isRing .val .val hx hy).2.2.2
  rw [e]
  congr 1
  rw [Bool.eq_iff_iff, hb, decide_eq_true_iff]

theorem neg (hv : cfg.Valid) (h : ToolRing cfg ring one n) :
    ∃ m, one.neg cfg.W = .ok m ∧ Elem cfg ring m (n - 1) := by
  obtain ⟨m, i, e, hm, hi⟩ := (C27_add_sub_neg_eq hv h.isRing .val .val h.one h.one).1
  have h2 := h.gt
  have : (i : Int) = ((n - 1 : Nat) : Int) := by
    rw [hi, Nat.cast_sub (by omega)]
    rw [show -((1 : Nat) : Int) = ((n : Int) - (1 : Nat)) + (n : Int) * (-1) by ring, Int.add_mul_emod_self_left]
    exact Int.emod_eq_of_lt (by omega) (by omega)
  exact ⟨m, e, by rw [← Int.ofNat_inj.mp this]; exact hm⟩

end ToolRing

theorem millerLoop_spec {cfg : Cfg} (hv : cfg.Valid) {ring : Ring} {one : Modulo} {n : Nat}
    (h : ToolRing cfg ring one n) (b mult : Nat) : ∀ (k i : Nat) (passed : Option Nat) (p : Modulo),
    Elem cfg ring p (mrRes n b mult i) → ∃ passed' p', millerLoop cfg one k i passed p = .ok (passed', p') ∧
      Elem cfg ring p' (mrRes n b mult (i + k)) ∧
      ((passed' = passed ∧ ∀ j, i ≤ j → j < i + k → mrRes n b mult j ≠ n - 1) ∨
        ∃ j, i ≤ j ∧ j < i + k ∧ mrRes n b mult j = n - 1 ∧ passed' = some (j + 1)) ∧
      (1 ≤ k → mrRes n b mult (i + k - 1) = n - 1 → passed' = some (i + k))
  | 0, i, passed, p, hp => ⟨passed, p, rfl, hp, Or.inl ⟨rfl, fun j h1 h2 => by omega⟩, fun h => by omega⟩
  | k + 1, i, passed, p, hp => by
    obtain ⟨m, em, hm⟩ := h.neg hv
    obtain ⟨q, eq, hq⟩ := h.mul hv .ref .ref hp hp
    rw [← mrRes_succ] at hq
    obtain ⟨passed', p', e, h1, h2, h3⟩ := millerLoop_spec hv h b mult k (i + 1)
      (if decide (mrRes n b mult i = n - 1) then some (i + 1) else passed) q hq
    refine ⟨passed', p', ?_, by rw [show i + (k + 1) = i + 1 + k by omega]; exact h1, ?_, ?_⟩
    · unfold millerLoop
      rw [em]
      simp only [bind, Except.bind]
      rw [h.eq hv hp hm]
      simp only
      rw [eq]
      exact e
    · rcases h2 with ⟨h2, h4⟩ | ⟨j, h4, h5, h6, h7⟩
      · by_cases hi : mrRes n b mult i = n - 1
        · rw [if_pos (decide_eq_true hi)] at h2
          exact Or.inr ⟨i, le_refl _, by omega, hi, h2⟩
        · rw [decide_eq_false hi] at h2
          refine Or.inl ⟨h2, fun j h5 h6 => ?_⟩
          rcases Nat.eq_or_lt_of_le h5 with h7 | h7
          · rw [← h7]; exact hi
          · exact h4 j h7 (by omega)
      · exact Or.inr ⟨j, by omega, by omega, h6, h7⟩
    · intro _ hl
      rcases k with _ | k
      · rw [show i + (0 + 1) - 1 = i by omega] at hl
        rcases h2 with ⟨h2, -⟩ | ⟨j, h4, h5, -⟩
        · rw [if_pos (decide_eq_true hl)] at h2
          exact h2
        · omega
      · rw [show i + (k + 1 + 1) = i + 1 + (k + 1) by omega]
        exact h3 (by omega) (by rw [show i + 1 + (k + 1) - 1 = i + (k + 1 + 1) - 1 by omega]; exact hl)

theorem ubigLiteral_ok {cfg : Cfg} (hv : cfg.Valid) {x : Nat} (hx : x < 2 ^ 128) :
    ∃ c, ubigLiteral cfg x = .ok c ∧ c.WF cfg ∧ c.value cfg = x :=
  UBig.fromUnsigned_ok hv (by unfold PBits; omega) hx

theorem lucasStep_spec {cfg : Cfg} (hv : cfg.Valid) {ring : Ring} {one : Modulo} {n : Nat}
    (h : ToolRing cfg ring one n) {base : Modulo} {b : Nat} (hb : Elem cfg ring base b) {mult : UBig}
    (hm : mult.WF cfg) {order : Nat} (ho : order < 2 ^ cfg.U) (hn : n = mult.value cfg * 2 ^ order + 1)
    {divisor : UBig} (hd : divisor.WF cfg) (h2 : 2 ≤ divisor.value cfg) (ok : Bool) :
    lucasStep cfg one base mult order divisor ok = .ok (if mult.value cfg % divisor.value cfg = 0 ∧
      b ^ (mult.value cfg / divisor.value cfg * 2 ^ order) % n = 1 then false else ok) := by
  obtain ⟨r, er, r1, r2⟩ := (UBig.rem_spec hv .ref .ref hm hd).1 (by omega)
  obtain ⟨q, eq, q1, q2⟩ := (UBig.div_spec hv .ref .ref hm hd).1 (by omega)
  obtain ⟨z, ez, z1, z2⟩ := ubigLiteral_ok hv (x := 0) (by norm_num)
  unfold lucasStep
  rw [er]
  simp only [bind, Except.bind]
  rw [ez]
  simp only
  by_cases h0 : mult.value cfg % divisor.value cfg = 0
  · rw [if_pos ((UBig.beq_iff hv r1 z1).mpr (by rw [r2, z2, h0])), eq]
    simp only
    have hle : q.value cfg * 2 ^ order ≤ n := by
      rw [q2, hn]
      have := Nat.mul_le_mul_right (2 ^ order) (Nat.div_le_self (mult.value cfg) (divisor.value cfg))
      omega
    obtain ⟨e, ee, e1, e2⟩ := (UBig.shl_spec hv .val q1 ho).1 (h.fitsN.mono hle)
    rw [ee]
    simp only
    obtain ⟨p, ep, hp⟩ := h.pow hv hb e1 (by rw [e2]; exact hle)
    rw [ep]
    simp only
    rw [h.eq hv hp h.one, e2, q2]
    simp only [decide_eq_true_eq]
    by_cases hc : b ^ (mult.value cfg / divisor.value cfg * 2 ^ order) % n = 1
    · rw [if_pos hc, if_pos ⟨h0, hc⟩]
    · rw [if_neg hc, if_neg (fun hh => hc hh.2)]
  · rw [if_neg (fun hh => h0 (by rw [← r2, (UBig.beq_iff hv r1 z1).mp hh, z2])), if_neg (fun hh => h0 hh.1)]

theorem lucasLoop_spec {cfg : Cfg} (hv : cfg.Valid) {ring : Ring} {one : Modulo} {n : Nat}
    (h : ToolRing cfg ring one n) {base : Modulo} {b : Nat} (hb : Elem cfg ring base b) {mult : UBig}
    (hm : mult.WF cfg) {order : Nat} (ho : order < 2 ^ cfg.U) (hn : n = mult.value cfg * 2 ^ order + 1) :
    ∀ (fuel : Nat) (divisor : UBig) (ok : Bool), divisor.WF cfg → 2 ≤ divisor.value cfg →
      mult.value cfg + 2 ≤ fuel + divisor.value cfg → 1 ≤ fuel →
      ∃ ok', lucasLoop cfg one base mult order fuel divisor ok = .ok ok' ∧
        (ok' = true ↔ ok = true ∧ ∀ d, divisor.value cfg ≤ d → d ≤ mult.value cfg → mult.value cfg % d = 0 →
          b ^ (mult.value cfg / d * 2 ^ order) % n ≠ 1)
  | 0, _, _, _, _, _, h1 => by omega
  | fuel + 1, divisor, ok, hd, h2, hf, _ => by
    unfold lucasLoop
    rw [UBig.cmp_spec hv hd hm]
    simp only [bind, Except.bind]
    by_cases hgt : mult.value cfg < divisor.value cfg
    · rw [Nat.compare_eq_gt.mpr hgt]
      exact ⟨ok, rfl, ⟨fun h => ⟨h, fun d h1 h2 => by omega⟩, fun h => h.1⟩⟩
    · have hne : compare (divisor.value cfg) (mult.value cfg) ≠ .gt := fun hc => hgt (Nat.compare_eq_gt.mp hc)
      rw [lucasStep_spec hv h hb hm ho hn hd h2]
      obtain ⟨u, eu, u1, u2⟩ := ubigLiteral_ok hv (x := 1) (by norm_num)
      have hnn : n ≠ 0 := by have := h.gt; omega
      have hmn : mult.value cfg < n := by
        have := Nat.le_mul_of_pos_right (mult.value cfg) (show 0 < 2 ^ order by positivity)
        omega
      obtain ⟨d', ed, d1, d2⟩ := (UBig.add_spec hv .val .val hd u1).1 (h.fitsN.mono (by omega))
      obtain ⟨ok', e, hiff⟩ := lucasLoop_spec hv h hb hm ho hn fuel d' (if mult.value cfg % divisor.value cfg = 0 ∧
        b ^ (mult.value cfg / divisor.value cfg * 2 ^ order) % n = 1 then false else ok) d1 (by omega) (by omega)
        (by omega)
      refine ⟨ok', ?_, ?_⟩
      · generalize compare (divisor.value cfg) (mult.value cfg) = c at hne
        cases c
        · simp only
          rw [eu]; simp only; rw [ed]; exact e
        · simp only
          rw [eu]; simp only; rw [ed]; exact e
        · exact absurd rfl hne
      · rw [hiff, d2, u2]
        constructor
        · rintro ⟨h3, h4⟩
          split at h3
          · cases h3
          · rename_i hc
            refine ⟨h3, fun d h5 h6 h7 => ?_⟩
            rcases Nat.eq_or_lt_of_le h5 with h8 | h8
            · subst h8
              exact fun h9 => hc ⟨h7, h9⟩
            · exact h4 d h8 h6 h7
        · rintro ⟨h3, h4⟩
          refine ⟨?_, fun d h5 h6 h7 => h4 d (by omega) h6 h7⟩
          rw [if_neg (fun hc => h4 _ (le_refl _) (by omega) hc.1 hc.2)]
          exact h3

/-- The base shows that the number is not prime. -/
def MRFails (n mult order b : Nat) : Prop := mrRes n b mult 0 ≠ 1 ∧ ∀ j < order, mrRes n b mult j ≠ n - 1

/-- The base shows that the number is prime. -/
def LucasOK (n mult order b : Nat) : Prop :=
  mrRes n b mult (order - 1) = n - 1 ∧
  ∀ d, 2 ≤ d → d ≤ mult → mult % d = 0 → b ^ (mult / d * 2 ^ order) % n ≠ 1

theorem le_countUpTo {cfg : Cfg} {x : UBig} (hx : x.WF cfg) : x.value cfg + 1 ≤ countUpTo cfg x := by
  cases x with
  | small w => exact le_refl _
  | large b =>
    have hb : b.WF cfg := hx
    exact val_lt hb.words

theorem primeAttempt_spec {cfg : Cfg} (hv : cfg.Valid) {ring : Ring} {one : Modulo} {n : Nat}
    (h : ToolRing cfg ring one n) {mult : UBig} (hm : mult.WF cfg) {order : Nat} (ho : order < 2 ^ cfg.U)
    (ho1 : 1 ≤ order) (hn : n = mult.value cfg * 2 ^ order + 1) {x : UBig} (hx : x.WF cfg)
    (hlt : x.value cfg < n) :
    ∃ res, primeAttempt cfg ring one mult order x = .ok res ∧
      (res = some false ↔ MRFails n (mult.value cfg) order (x.value cfg)) ∧
      (res = some true ↔ LucasOK n (mult.value cfg) order (x.value cfg)) := by
  have hgt := h.gt
  obtain ⟨base, eb, hb⟩ := (C27_from_ubig hv h.isRing .val hx).1 (h.accepts hv hlt.le)
  rw [Nat.mod_eq_of_lt hlt] at hb
  have hmn : mult.value cfg ≤ n := by
    have := Nat.le_mul_of_pos_right (mult.value cfg) (show 0 < 2 ^ order by positivity)
    omega
  obtain ⟨p, ep, hp⟩ := h.pow hv hb hm hmn
  have hp0 : x.value cfg ^ mult.value cfg % n = mrRes n (x.value cfg) (mult.value cfg) 0 := by
    rw [mrRes, pow_zero, Nat.mul_one]
  rw [hp0] at hp
  obtain ⟨passed, p', el, h1, h2, h3⟩ := millerLoop_spec hv h (x.value cfg) (mult.value cfg) order 0
    (if decide (mrRes n (x.value cfg) (mult.value cfg) 0 = 1) then some 0 else none) p hp
  rw [Nat.zero_add] at h1 h3
  have h3 := h3 ho1
  unfold primeAttempt
  rw [eb]
  simp only [bind, Except.bind]
  rw [ep]
  simp only
  rw [h.eq hv hp h.one]
  simp only
  rw [el]
  simp only
  -- what `passed` says
  have hnone : passed = none ↔ MRFails n (mult.value cfg) order (x.value cfg) := by
    constructor
    · intro hnone
      rcases h2 with ⟨h2, h4⟩ | ⟨j, -, -, -, h5⟩
      · rw [hnone] at h2
        refine ⟨fun hc => ?_, fun j hj => h4 j (by omega) (by omega)⟩
        rw [if_pos (decide_eq_true hc)] at h2
        cases h2
      · rw [hnone] at h5; cases h5
    · rintro ⟨h4, h5⟩
      rcases h2 with ⟨h2, -⟩ | ⟨j, -, h6, h7, -⟩
      · rw [h2, if_neg (by rw [decide_eq_true_iff]; exact h4)]
      · exact absurd h7 (h5 j (by omega))
  have hord : passed = some order ↔ mrRes n (x.value cfg) (mult.value cfg) (order - 1) = n - 1 := by
    constructor
    · intro hs
      rcases h2 with ⟨h2, -⟩ | ⟨j, -, h6, h7, h8⟩
      · rw [hs] at h2
        split at h2
        · have := Option.some.inj h2; omega
        · cases h2
      · rw [hs] at h8
        rw [Option.some.inj h8, Nat.add_sub_cancel]; exact h7
    · exact h3
  by_cases hf : passed = none
  · rw [if_pos hf]
    refine ⟨_, rfl, ⟨fun _ => hnone.mp hf, fun _ => rfl⟩, ⟨fun h => (by cases h), fun hl => ?_⟩⟩
    have := hord.mpr hl.1
    rw [hf] at this; cases this
  · rw [if_neg hf]
    have hone : mrRes n (x.value cfg) (mult.value cfg) order = 1 := by
      rcases h2 with ⟨h2, -⟩ | ⟨j, -, h6, h7, h8⟩
      · by_cases hc : mrRes n (x.value cfg) (mult.value cfg) 0 = 1
        · exact mrRes_one_of_le (by omega) hc (by omega)
        · rw [if_neg (by rw [decide_eq_true_iff]; exact hc)] at h2
          exact absurd h2 hf
      · exact mrRes_one_of_le (by omega) (mrRes_one_of_neg (by omega) h7) (by omega)
    rw [h.eq hv h1 h.one, decide_eq_true hone]
    obtain ⟨two, e2, t1, t2⟩ := ubigLiteral_ok hv (x := 2) (by norm_num)
    have hc := le_countUpTo hm
    obtain ⟨ok, ek, hk⟩ := lucasLoop_spec hv h hb hm ho hn (countUpTo cfg mult) two (decide (passed = some order)) t1
      (by omega) (by omega) (by omega)
    simp only [assertR, if_true]
    rw [e2]
    simp only
    rw [ek]
    refine ⟨_, rfl, ⟨fun hh => ?_, fun hh => absurd (hnone.mpr hh) hf⟩, ?_⟩
    · split at hh <;> cases hh
    · rw [decide_eq_true_iff, hord, t2] at hk
      show (if ok = true then some true else none) = some true ↔ LucasOK _ _ _ _
      unfold LucasOK
      rw [← hk]
      cases ok <;> simp

theorem primeLoop_spec {cfg : Cfg} (hv : cfg.Valid) {ring : Ring} {one : Modulo} {n : Nat}
    (h : ToolRing cfg ring one n) {mult : UBig} (hm : mult.WF cfg) {order : Nat} (ho : order < 2 ^ cfg.U)
    (ho1 : 1 ≤ order) (hn : n = mult.value cfg * 2 ^ order + 1) {draw : Nat → UBig}
    (hd : ∀ i, (draw i).WF cfg ∧ (draw i).value cfg < n) :
    ∀ t i, ∃ res, primeLoop cfg ring one mult order draw t i = .ok res ∧
      (res = some false → ∃ j, i ≤ j ∧ j < i + t ∧ MRFails n (mult.value cfg) order ((draw j).value cfg)) ∧
      (res = some true → ∃ j, i ≤ j ∧ j < i + t ∧ LucasOK n (mult.value cfg) order ((draw j).value cfg)) ∧
      (res = none → ∀ j, i ≤ j → j < i + t → ¬MRFails n (mult.value cfg) order ((draw j).value cfg) ∧
        ¬LucasOK n (mult.value cfg) order ((draw j).value cfg))
  | 0, i => ⟨none, rfl, fun h => (by cases h), fun h => (by cases h), fun _ j h1 h2 => by omega⟩
  | t + 1, i => by
    obtain ⟨r, e, h1, h2⟩ := primeAttempt_spec hv h hm ho ho1 hn (hd i).1 (hd i).2
    unfold primeLoop
    rw [e]
    simp only [bind, Except.bind]
    rcases r with _ | b
    · obtain ⟨res, e', h3, h4, h5⟩ := primeLoop_spec hv h hm ho ho1 hn hd t (i + 1)
      refine ⟨res, e', fun hr => ?_, fun hr => ?_, fun hr j h6 h7 => ?_⟩
      · obtain ⟨j, a, b, c⟩ := h3 hr
        exact ⟨j, by omega, by omega, c⟩
      · obtain ⟨j, a, b, c⟩ := h4 hr
        exact ⟨j, by omega, by omega, c⟩
      · rcases Nat.eq_or_lt_of_le h6 with h8 | h8
        · rw [← h8]
          exact ⟨fun hh => (by cases h1.mpr hh), fun hh => (by cases h2.mpr hh)⟩
        · exact h5 hr j h8 (by omega)
    · refine ⟨some b, rfl, fun hr => ?_, fun hr => ?_, fun hr => by cases hr⟩
      · exact ⟨i, le_refl _, by omega, h1.mp hr⟩
      · exact ⟨i, le_refl _, by omega, h2.mp hr⟩

theorem Ring.one_spec {cfg : Cfg} (hv : cfg.Valid) {r : Ring} {n : Nat} (hr : IsRing cfg r n) (h2 : 1 < n) :
    ∃ m, r.fromPrim cfg (.i 32) 1 = .ok m ∧ Elem cfg r m 1 := by
  obtain ⟨m, k, e, hm, hk⟩ := (C27_from_primitive hv hr (t := .i 32) (by simp [PTy.Valid]) (z := 1) (by unfold PTy.InRange; norm_num)).1
  have : (k : Int) = ((1 : Nat) : Int) := by
    rw [hk]; exact Int.emod_eq_of_lt (by omega) (by omega)
  exact ⟨m, e, by rw [← Int.ofNat_inj.mp this]; exact hm⟩

theorem Ring.minusOne_spec {cfg : Cfg} (hv : cfg.Valid) {r : Ring} {n : Nat} (hr : IsRing cfg r n) (h2 : 1 < n) :
    ∃ m, r.fromPrim cfg (.i 32) (-1) = .ok m ∧ Elem cfg r m (n - 1) := by
  obtain ⟨m, k, e, hm, hk⟩ := (C27_from_primitive hv hr (t := .i 32) (by simp [PTy.Valid]) (z := -1) (by unfold PTy.InRange; norm_num)).1
  have : (k : Int) = ((n - 1 : Nat) : Int) := by
    rw [hk, Nat.cast_sub (by omega)]
    rw [show (-1 : Int) = ((n : Int) - (1 : Nat)) + (n : Int) * (-1) by push_cast; ring, Int.add_mul_emod_self_left]
    exact Int.emod_eq_of_lt (by omega) (by omega)
  exact ⟨m, e, by rw [← Int.ofNat_inj.mp this]; exact hm⟩

theorem isPrimeTool_spec {cfg : Cfg} (hv : cfg.Valid) (addr : Nat) {mult : UBig} (hm : mult.WF cfg)
    (hm1 : 1 ≤ mult.value cfg) {order : Nat} (ho1 : 1 ≤ order) (ho : order < 2 ^ cfg.U) {n : Nat}
    (hn : n = mult.value cfg * 2 ^ order + 1) (hf : Fits cfg (n ^ (bitLen n + 6))) {draw : Nat → UBig}
    (hd : ∀ i, (draw i).WF cfg ∧ (draw i).value cfg < n) (t : Nat) :
    ∃ res, isPrimeTool cfg addr mult order draw t = .ok res ∧
      (res = some false → ∃ j < t, MRFails n (mult.value cfg) order ((draw j).value cfg)) ∧
      (res = some true → ∃ j < t, LucasOK n (mult.value cfg) order ((draw j).value cfg)) ∧
      (res = none → ∀ j < t, ¬MRFails n (mult.value cfg) order ((draw j).value cfg) ∧
        ¬LucasOK n (mult.value cfg) order ((draw j).value cfg)) := by
  have hp2 : 2 ≤ 2 ^ order := by
    calc 2 = 2 ^ 1 := rfl
      _ ≤ 2 ^ order := Nat.pow_le_pow_right (by norm_num) ho1
  have hn3 : 2 < n := by
    have := Nat.mul_le_mul hm1 hp2
    omega
  have hfn : Fits cfg n := hf.mono (Nat.le_self_pow (by omega) n)
  obtain ⟨s, es, s1, s2⟩ := (UBig.shl_spec hv .ref hm ho).1 (hfn.mono (by omega))
  obtain ⟨u, eu, u1, u2⟩ := ubigLiteral_ok hv (x := 1) (by norm_num)
  obtain ⟨c, ec, c1, c2⟩ := (UBig.add_spec hv .val .val s1 u1).1 (by rw [s2, u2, ← hn]; exact hfn)
  have hcn : c.value cfg = n := by rw [c2, s2, u2, hn]
  obtain ⟨r, er, -, hr, -⟩ := (C27_new hv addr c1).1 (by omega)
  rw [hcn] at hr
  obtain ⟨one, eo, h1⟩ := Ring.one_spec hv hr (by omega)
  obtain ⟨res, e, a, b, d⟩ := primeLoop_spec hv ⟨hr, h1, hn3, hf⟩ hm ho ho1 hn hd t 0
  refine ⟨res, ?_, ?_, ?_, ?_⟩
  · unfold isPrimeTool
    rw [decide_eq_true ho1]
    simp only [assertR, if_true, bind, Except.bind]
    rw [es]; simp only
    rw [eu]; simp only
    rw [ec]; simp only
    rw [er]; simp only
    rw [eo]
    exact e
  · intro h
    obtain ⟨j, -, h2, h3⟩ := a h
    exact ⟨j, by omega, h3⟩
  · intro h
    obtain ⟨j, -, h2, h3⟩ := b h
    exact ⟨j, by omega, h3⟩
  · exact fun h j hj => d h j (by omega) (by omega)

theorem rootLoop_spec {cfg : Cfg} (hv : cfg.Valid) {ring : Ring} {one : Modulo} {n : Nat}
    (h : ToolRing cfg ring one n) {e : UBig} (he : e.WF cfg) (hle : e.value cfg ≤ n) {r : Nat} (hr : r < n)
    (h1 : r ^ e.value cfg % n = n - 1) (hmin : ∀ x, 1 ≤ x → x < r → x ^ e.value cfg % n ≠ n - 1) :
    ∀ (fuel : Nat) (root : UBig), root.WF cfg → 1 ≤ root.value cfg → root.value cfg ≤ r →
      r + 1 ≤ fuel + root.value cfg →
      ∃ c, rootLoop cfg ring e fuel root = .ok c ∧ c.WF cfg ∧ c.value cfg = r
  | 0, root, hw, h2, h3, h4 => by omega
  | fuel + 1, root, hw, h2, h3, h4 => by
    have hgt := h.gt
    obtain ⟨x, ex, hx⟩ := (C27_from_ubig hv h.isRing .ref hw).1 (h.accepts hv (by omega))
    rw [Nat.mod_eq_of_lt (by omega)] at hx
    obtain ⟨p, ep, hp⟩ := h.pow hv hx he hle
    obtain ⟨m, em, hm⟩ := Ring.minusOne_spec hv h.isRing (by omega)
    unfold rootLoop
    rw [ex]
    simp only [bind, Except.bind]
    rw [ep]
    simp only
    rw [em]
    simp only
    rw [h.eq hv hp hm]
    simp only [decide_eq_true_eq]
    by_cases hc : root.value cfg ^ e.value cfg % n = n - 1
    · rw [if_pos hc]
      refine ⟨root, rfl, hw, ?_⟩
      rcases Nat.eq_or_lt_of_le h3 with h5 | h5
      · exact h5
      · exact absurd hc (hmin _ h2 h5)
    · rw [if_neg hc]
      have hne : root.value cfg ≠ r := fun hh => hc (by rw [hh]; exact h1)
      obtain ⟨u, eu, u1, u2⟩ := ubigLiteral_ok hv (x := 1) (by norm_num)
      obtain ⟨c, ec, c1, c2⟩ := (UBig.add_spec hv .val .val hw u1).1 (h.fitsN.mono (by omega))
      rw [eu]; simp only
      rw [ec]
      exact rootLoop_spec hv h he hle hr h1 hmin fuel c c1 (by omega) (by omega) (by omega)

theorem findRootTool_spec {cfg : Cfg} (hv : cfg.Valid) (addr : Nat) {prime : UBig} (hp : prime.WF cfg) {n : Nat}
    (hn : prime.value cfg = n) (hn3 : 2 < n) (hf : Fits cfg (n ^ (bitLen n + 6))) {order : Nat} (ho1 : 1 ≤ order)
    (ho : 2 ^ (order - 1) ≤ n) {r : Nat} (hr1 : 1 ≤ r) (hr : r < n) (h1 : r ^ 2 ^ (order - 1) % n = n - 1)
    (hmin : ∀ x, 1 ≤ x → x < r → x ^ 2 ^ (order - 1) % n ≠ n - 1) :
    ∃ c, findRootTool cfg addr prime order = .ok c ∧ c.WF cfg ∧ c.value cfg = r := by
  have hfn : Fits cfg n := hf.mono (Nat.le_self_pow (by omega) n)
  obtain ⟨ring, er, -, hr', -⟩ := (C27_new hv addr hp).1 (by omega)
  rw [hn] at hr'
  obtain ⟨one, -, ho'⟩ := Ring.one_spec hv hr' (by omega)
  obtain ⟨u, eu, u1, u2⟩ := ubigLiteral_ok hv (x := 1) (by norm_num)
  have hou : order - 1 < 2 ^ cfg.U := by
    have h2 : 2 ^ (order - 1) < 2 ^ (cfg.maxLen * cfg.W) := lt_of_le_of_lt ho hfn
    have h3 := (Nat.pow_lt_pow_iff_right (by norm_num : 1 < 2)).mp h2
    exact lt_trans h3 hv.bits
  obtain ⟨e, ee, e1, e2⟩ := (UBig.shl_spec hv .val u1 hou).1 (by rw [u2, Nat.one_mul]; exact hfn.mono ho)
  rw [u2, Nat.one_mul] at e2
  have hc := le_countUpTo hp
  obtain ⟨c, ec, c1, c2⟩ := rootLoop_spec hv ⟨hr', ho', hn3, hf⟩ e1 (by rw [e2]; exact ho) hr (by rw [e2]; exact h1)
    (by rw [e2]; exact hmin) (countUpTo cfg prime) u u1 (by omega) (by omega) (by omega)
  refine ⟨c, ?_, c1, c2⟩
  unfold findRootTool
  rw [decide_eq_true ho1]
  simp only [assertR, if_true, bind, Except.bind]
  rw [er]; simp only
  rw [eu]; simp only
  rw [ckSub, if_pos ho1]; simp only
  rw [ee]
  exact ec

/-! ### The search -/

theorem mem_nttCandidates {bits order p : Nat} :
    p ∈ nttCandidates bits order ↔ p < 2 ^ bits ∧ p.Prime ∧ p % 2 ^ order = 1 := by
  unfold nttCandidates
  rw [Finset.mem_filter, Finset.mem_range]

theorem nttCandidates_top (bits k : Nat) (h : bits ≤ k) : nttCandidates bits k = ∅ := by
  rw [Finset.eq_empty_iff_forall_notMem]
  intro p hp
  obtain ⟨h1, h2, h3⟩ := mem_nttCandidates.mp hp
  rw [Nat.mod_eq_of_lt (lt_of_lt_of_le h1 (Nat.pow_le_pow_right (by norm_num) h))] at h3
  rw [h3] at h2
  exact Nat.not_prime_one h2

theorem nttCandidates_step {bits k p : Nat} (h1 : 1 ≤ k) (hk : k < bits) :
    p ∈ nttCandidates bits k ↔ p ∈ nttCandidates bits (k + 1) ∨
      (p.Prime ∧ ∃ m, m % 2 = 1 ∧ m < 2 ^ (bits - k) ∧ p = m * 2 ^ k + 1) := by
  rw [mem_nttCandidates, mem_nttCandidates]
  have hK : 2 ≤ 2 ^ k := by
    calc 2 = 2 ^ 1 := rfl
      _ ≤ 2 ^ k := Nat.pow_le_pow_right (by norm_num) h1
  have hb : 2 ^ bits = 2 ^ (bits - k) * 2 ^ k := by rw [← pow_add]; congr 1; omega
  have hs : 2 ^ (k + 1) = 2 * 2 ^ k := by rw [pow_succ']
  rw [hb, hs]
  generalize 2 ^ k = K at *
  generalize 2 ^ (bits - k) = L at *
  constructor
  · rintro ⟨h2, h3, h4⟩
    have hd := Nat.div_add_mod p K
    rw [h4] at hd
    have hq : p / K < L := Nat.div_lt_of_lt_mul (by rw [Nat.mul_comm]; exact h2)
    rcases Nat.mod_two_eq_zero_or_one (p / K) with h | h
    · refine Or.inl ⟨h2, h3, ?_⟩
      have e : p = 2 * K * (p / K / 2) + 1 := by
        have : p / K = 2 * (p / K / 2) := by omega
        calc p = K * (p / K) + 1 := hd.symm
          _ = K * (2 * (p / K / 2)) + 1 := by rw [← this]
          _ = _ := by ring
      rw [e, Nat.mul_add_mod, Nat.mod_eq_of_lt (by omega)]
    · exact Or.inr ⟨h3, p / K, h, hq, by rw [Nat.mul_comm]; exact hd.symm⟩
  · rintro (⟨h2, h3, h4⟩ | ⟨h2, m, h3, h4, rfl⟩)
    · refine ⟨h2, h3, ?_⟩
      have := Nat.mod_mod_of_dvd p (show K ∣ 2 * K from ⟨2, by ring⟩)
      rw [h4, Nat.mod_eq_of_lt (by omega)] at this
      exact this.symm
    · refine ⟨?_, h2, ?_⟩
      · have : (m + 1) * K ≤ L * K := Nat.mul_le_mul_right _ h4
        rw [Nat.add_mul] at this
        omega
      · rw [Nat.mul_comm, Nat.mul_add_mod, Nat.mod_eq_of_lt (by omega)]

theorem nttCandidates_odd {bits k m : Nat} (h1 : 1 ≤ k) (hm : m % 2 = 1) :
    m * 2 ^ k + 1 ∉ nttCandidates bits (k + 1) := by
  rw [mem_nttCandidates]
  rintro ⟨-, -, h⟩
  have hK : 2 ≤ 2 ^ k := by
    calc 2 = 2 ^ 1 := rfl
      _ ≤ 2 ^ k := Nat.pow_le_pow_right (by norm_num) h1
  rw [pow_succ'] at h
  generalize 2 ^ k = K at *
  have e : m * K + 1 = 2 * K * (m / 2) + (K + 1) := by
    have : m = 2 * (m / 2) + 1 := by omega
    calc m * K + 1 = (2 * (m / 2) + 1) * K + 1 := by rw [← this]
      _ = _ := by ring
  rw [e, Nat.mul_add_mod, Nat.mod_eq_of_lt (by omega)] at h
  omega

theorem fits64 {cfg : Cfg} (hv : cfg.Valid) {n : Nat} (h : n ≤ 2 ^ 64) : Fits cfg (n ^ (bitLen n + 6)) := by
  have hb : bitLen n ≤ 65 := bitLen_le_iff.mpr (lt_of_le_of_lt h (by norm_num))
  have h1 := hv.W16
  have h2 := hv.large
  rcases Nat.eq_zero_or_pos n with rfl | hp
  · unfold Fits
    rw [zero_pow (by omega)]
    positivity
  · have : n ^ (bitLen n + 6) ≤ 2 ^ 4544 :=
      calc n ^ (bitLen n + 6) ≤ n ^ 71 := Nat.pow_le_pow_right hp (by omega)
        _ ≤ (2 ^ 64) ^ 71 := Nat.pow_le_pow_left h 71
        _ = 2 ^ 4544 := by rw [← pow_mul]
    refine lt_of_le_of_lt this (Nat.pow_lt_pow_right (by norm_num) ?_)
    have := Nat.mul_le_mul h2 h1
    omega

/-- Some candidate could not be decided. -/
def Undecided (cfg : Cfg) (draw : Nat → UBig → Nat → UBig) (t bits : Nat) : Prop :=
  ∃ (order : Nat) (mult : UBig), 1 ≤ order ∧ order < bits ∧ mult.WF cfg ∧ mult.value cfg % 2 = 1 ∧
    mult.value cfg < 2 ^ (bits - order) ∧
    ∀ i < t, ¬MRFails (mult.value cfg * 2 ^ order + 1) (mult.value cfg) order ((draw order mult i).value cfg) ∧
      ¬LucasOK (mult.value cfg * 2 ^ order + 1) (mult.value cfg) order ((draw order mult i).value cfg)

theorem isPrimeTool_cases {cfg : Cfg} (hv : cfg.Valid) (addr : Nat) {mult : UBig} (hm : mult.WF cfg)
    (hm1 : 1 ≤ mult.value cfg) {order : Nat} (ho1 : 1 ≤ order) (ho : order < 2 ^ cfg.U)
    (hf : Fits cfg ((mult.value cfg * 2 ^ order + 1) ^ (bitLen (mult.value cfg * 2 ^ order + 1) + 6)))
    {draw : Nat → UBig}
    (hd : ∀ i, (draw i).WF cfg ∧ 1 ≤ (draw i).value cfg ∧ (draw i).value cfg < mult.value cfg * 2 ^ order + 1)
    (t : Nat) :
    isPrimeTool cfg addr mult order draw t = .ok (some (decide (mult.value cfg * 2 ^ order + 1).Prime)) ∨
    (isPrimeTool cfg addr mult order draw t = .ok none ∧
      ∀ j < t, ¬MRFails (mult.value cfg * 2 ^ order + 1) (mult.value cfg) order ((draw j).value cfg) ∧
        ¬LucasOK (mult.value cfg * 2 ^ order + 1) (mult.value cfg) order ((draw j).value cfg)) := by
  obtain ⟨res, e, h1, h2, h3⟩ := isPrimeTool_spec hv addr hm hm1 ho1 ho rfl hf
    (fun i => ⟨(hd i).1, (hd i).2.2⟩) t
  rw [e]
  rcases res with _ | b
  · exact Or.inr ⟨rfl, h3 rfl⟩
  · refine Or.inl ?_
    cases b
    · obtain ⟨j, -, hj⟩ := h1 rfl
      rw [decide_eq_false (fun hp => ?_)]
      rcases mrRes_prime hp rfl (hd j).2.1 (hd j).2.2 with h | ⟨i, hi, h⟩
      · exact hj.1 h
      · exact hj.2 i hi h
    · obtain ⟨j, -, hj⟩ := h2 rfl
      rw [decide_eq_true (prime_of_tool ho1 hm1 rfl hj.1 hj.2)]

theorem pushPrime_spec {cfg : Cfg} (hv : cfg.Valid) {mult : UBig} (hm : mult.WF cfg) {order : Nat}
    (ho : order < 2 ^ cfg.U) (hf : Fits cfg (mult.value cfg * 2 ^ order + 1)) (b : Bool) (primes : List UBig) :
    ∃ extra, pushPrime cfg mult order b primes = .ok (primes ++ extra) ∧ (∀ x ∈ extra, x.WF cfg) ∧
      extra.map (·.value cfg) = if b then [mult.value cfg * 2 ^ order + 1] else [] := by
  unfold pushPrime
  cases b
  · exact ⟨[], by simp, by simp, rfl⟩
  · obtain ⟨s, es, s1, s2⟩ := (UBig.shl_spec hv .ref hm ho).1 (hf.mono (by omega))
    obtain ⟨u, eu, u1, u2⟩ := ubigLiteral_ok hv (x := 1) (by norm_num)
    obtain ⟨c, ec, c1, c2⟩ := (UBig.add_spec hv .val .val s1 u1).1 (by rw [s2, u2]; exact hf)
    refine ⟨[c], ?_, by simpa using c1, by simp [c2, s2, u2]⟩
    simp only [if_true, bind, Except.bind]
    rw [es]; simp only
    rw [eu]; simp only
    rw [ec]

theorem multLoop_spec {cfg : Cfg} (hv : cfg.Valid) (addr : Nat) {draw : Nat → UBig → Nat → UBig}
    (hd : DrawsOK cfg draw) (t : Nat) {bits order : Nat} (hb : bits ≤ 64) (ho1 : 1 ≤ order) (ho : order < bits) :
    ∀ (fuel : Nat) (mult : UBig) (primes : List UBig), mult.WF cfg → mult.value cfg % 2 = 1 →
      2 ^ (bits - order) + 1 ≤ fuel + mult.value cfg → 1 ≤ fuel → mult.value cfg ≤ 2 ^ (bits - order) + 1 →
      (multLoop cfg addr (draw order) t bits order fuel mult primes = .ok none ∧ Undecided cfg draw t bits) ∨
      ∃ extra, multLoop cfg addr (draw order) t bits order fuel mult primes = .ok (some (primes ++ extra)) ∧
        (∀ x ∈ extra, x.WF cfg) ∧ (extra.map (·.value cfg)).Nodup ∧
        ∀ p, p ∈ extra.map (·.value cfg) ↔ p.Prime ∧ ∃ m, m % 2 = 1 ∧ mult.value cfg ≤ m ∧
          m < 2 ^ (bits - order) ∧ p = m * 2 ^ order + 1
  | 0, _, _, _, _, _, h, _ => by omega
  | fuel + 1, mult, primes, hm, hodd, hfu, _, hle => by
    unfold multLoop
    rw [UBig.bitLen_spec hv hm]
    simp only [bind, Except.bind]
    rw [ckSub, if_pos ho.le]
    simp only
    have hm1 : 1 ≤ mult.value cfg := by omega
    have hoU : order < 2 ^ cfg.U := by
      have h1 := hv.W16
      have h2 := hv.large
      have h3 := hv.bits
      have := Nat.mul_le_mul h2 h1
      omega
    by_cases hl : bitLen (mult.value cfg) ≤ bits - order
    · rw [if_pos hl]
      have hlt : mult.value cfg < 2 ^ (bits - order) := bitLen_le_iff.mp hl
      have hbit : 2 ^ bits = 2 ^ (bits - order) * 2 ^ order := by rw [← pow_add]; congr 1; omega
      have hn64 : mult.value cfg * 2 ^ order + 1 ≤ 2 ^ 64 := by
        have h1 : mult.value cfg * 2 ^ order < 2 ^ bits := by
          rw [hbit]; exact Nat.mul_lt_mul_of_pos_right hlt (by positivity)
        exact le_trans h1 (Nat.pow_le_pow_right (by norm_num) hb)
      have hfit := fits64 hv hn64
      have hfn : Fits cfg (mult.value cfg * 2 ^ order + 1) := hfit.mono (Nat.le_self_pow (by omega) _)
      rcases isPrimeTool_cases hv addr hm hm1 ho1 hoU hfit (fun i => hd order mult i hm hm1) t with e | ⟨e, hu⟩
      · rw [e]
        simp only
        obtain ⟨ex, ee, ex1, ex2⟩ := pushPrime_spec hv hm hoU hfn (decide (mult.value cfg * 2 ^ order + 1).Prime) primes
        rw [ee]
        simp only
        obtain ⟨u, eu, u1, u2⟩ := ubigLiteral_ok hv (x := 2) (by norm_num)
        have h2o : 2 ≤ 2 ^ order := by
          calc 2 = 2 ^ 1 := rfl
            _ ≤ 2 ^ order := Nat.pow_le_pow_right (by norm_num) ho1
        obtain ⟨c, ec, c1, c2⟩ := (UBig.add_spec hv .val .val hm u1).1 (hfn.mono (by
          rw [u2]
          have := Nat.mul_le_mul_left (mult.value cfg) h2o
          omega))
        rw [eu]
        simp only
        rw [ec]
        simp only
        rw [u2] at c2
        have hpw : 2 ^ (bits - order) % 2 = 0 := by
          obtain ⟨d, hd'⟩ : ∃ d, bits - order = d + 1 := ⟨bits - order - 1, by omega⟩
          rw [hd', pow_succ]; omega
        rcases multLoop_spec hv addr hd t hb ho1 ho fuel c (primes ++ ex) c1 (by omega) (by omega) (by omega) (by omega)
          with h | ⟨extra, e', x1, x2, x3⟩
        · exact Or.inl h
        · refine Or.inr ⟨ex ++ extra, by rw [e', List.append_assoc], ?_, ?_, ?_⟩
          · intro x hx
            rcases List.mem_append.mp hx with h | h
            · exact ex1 x h
            · exact x1 x h
          · rw [List.map_append, List.nodup_append']
            refine ⟨?_, x2, ?_⟩
            · rw [ex2]; split <;> simp
            · intro p h1 h2
              rw [ex2] at h1
              obtain ⟨-, m, -, h4, -, h6⟩ := (x3 p).mp h2
              split at h1
              · rw [List.mem_singleton.mp h1] at h6
                have h7 : mult.value cfg * 2 ^ order = m * 2 ^ order := by omega
                have := Nat.eq_of_mul_eq_mul_right (by positivity) h7
                omega
              · cases h1
          · intro p
            rw [List.map_append, List.mem_append, x3 p, ex2]
            constructor
            · rintro (h | ⟨h1, m, h2, h3, h4, h5⟩)
              · split at h
                · rename_i hp
                  rw [List.mem_singleton.mp h]
                  exact ⟨of_decide_eq_true hp, mult.value cfg, hodd, le_refl _, hlt, rfl⟩
                · cases h
              · exact ⟨h1, m, h2, by omega, h4, h5⟩
            · rintro ⟨h1, m, h2, h3, h4, h5⟩
              rcases Nat.eq_or_lt_of_le h3 with h6 | h6
              · left
                rw [← h6] at h5
                rw [h5] at h1
                rw [if_pos (decide_eq_true h1), h5]
                exact List.mem_singleton.mpr rfl
              · exact Or.inr ⟨h1, m, h2, by omega, h4, h5⟩
      · rw [e]
        exact Or.inl ⟨rfl, order, mult, ho1, ho, hm, hodd, hlt, hu⟩
    · rw [if_neg hl]
      have hge : 2 ^ (bits - order) ≤ mult.value cfg := by
        by_contra hc
        exact hl (bitLen_le_iff.mpr (by omega))
      exact Or.inr ⟨[], by simp, by simp, by simp, fun p => ⟨fun h => (by simp at h), fun ⟨_, m, _, h2, h3, _⟩ => by omega⟩⟩

/-- The list holds exactly the candidates. -/
structure HoldsCandidates (cfg : Cfg) (bits order : Nat) (primes : List UBig) : Prop where
  wf : ∀ x ∈ primes, x.WF cfg
  nodup : (primes.map (·.value cfg)).Nodup
  mem : ∀ p, p ∈ primes.map (·.value cfg) ↔ p ∈ nttCandidates bits order

theorem HoldsCandidates.card {cfg : Cfg} {bits order : Nat} {primes : List UBig}
    (h : HoldsCandidates cfg bits order primes) : primes.length = (nttCandidates bits order).card := by
  have : (primes.map (·.value cfg)).toFinset = nttCandidates bits order := by
    ext p
    rw [List.mem_toFinset, h.mem]
  rw [← this, List.toFinset_card_of_nodup h.nodup, List.length_map]

theorem orderLoop_spec {cfg : Cfg} (hv : cfg.Valid) (addr : Nat) {draw : Nat → UBig → Nat → UBig}
    (hd : DrawsOK cfg draw) (t : Nat) {bits : Nat} (hb : bits ≤ 64) (h3 : 3 ≤ (nttCandidates bits 1).card) :
    ∀ (order : Nat) (primes : List UBig), 1 ≤ order → order ≤ bits → HoldsCandidates cfg bits order primes →
      (nttCandidates bits (order + 1)).card < 3 →
      (orderLoop cfg addr draw t bits order primes = .ok none ∧ Undecided cfg draw t bits) ∨
      ∃ o l, orderLoop cfg addr draw t bits order primes = .ok (some (o, l)) ∧ 1 ≤ o ∧ o ≤ bits ∧
        HoldsCandidates cfg bits o l ∧ 3 ≤ (nttCandidates bits o).card ∧ (nttCandidates bits (o + 1)).card < 3
  | 0, _, h, _, _, _ => by omega
  | order + 1, primes, _, hle, hc, hlt => by
    unfold orderLoop
    by_cases hlen : 3 ≤ primes.length
    · rw [if_pos hlen]
      exact Or.inr ⟨order + 1, primes, rfl, by omega, hle, hc, by rw [← hc.card]; exact hlen, hlt⟩
    · rw [if_neg hlen]
      have ho : 1 ≤ order := by
        rcases Nat.eq_zero_or_pos order with h | h
        · subst h
          rw [← hc.card] at h3
          omega
        · exact h
      simp only [assertR, bind, Except.bind]
      rw [if_pos (decide_eq_true (by omega))]
      simp only
      obtain ⟨u, eu, u1, u2⟩ := ubigLiteral_ok hv (x := 1) (by norm_num)
      rw [eu]
      simp only
      have hpos : 0 < 2 ^ (bits - order) := by positivity
      rcases multLoop_spec hv addr hd t hb ho (show order < bits by omega) (2 ^ (bits - order) + 1) u primes u1
        (by rw [u2]) (by omega) (by omega) (by omega) with ⟨e, hu⟩ | ⟨extra, e, x1, x2, x3⟩
      · rw [e]
        exact Or.inl ⟨rfl, hu⟩
      · rw [e]
        simp only
        rw [u2] at x3
        refine orderLoop_spec hv addr hd t hb h3 order (primes ++ extra) ho (by omega) ⟨?_, ?_, ?_⟩
          (by rw [← hc.card]; omega)
        · intro x hx
          rcases List.mem_append.mp hx with h | h
          · exact hc.wf x h
          · exact x1 x h
        · rw [List.map_append, List.nodup_append']
          refine ⟨hc.nodup, x2, fun p h1 h2 => ?_⟩
          obtain ⟨-, m, h4, -, -, h5⟩ := (x3 p).mp h2
          rw [h5] at h1
          exact nttCandidates_odd ho h4 ((hc.mem _).mp h1)
        · intro p
          rw [List.map_append, List.mem_append, hc.mem, x3, nttCandidates_step ho (by omega)]
          constructor
          · rintro (h | ⟨h1, m, h2, -, h4, h5⟩)
            · exact Or.inl h
            · exact Or.inr ⟨h1, m, h2, h4, h5⟩
          · rintro (h | ⟨h1, m, h2, h4, h5⟩)
            · exact Or.inl h
            · exact Or.inr ⟨h1, m, h2, by omega, h4, h5⟩

/-! ### Sorting, roots and the final check -/

theorem insertUBig_spec {cfg : Cfg} (hv : cfg.Valid) {x : UBig} (hx : x.WF cfg) :
    ∀ l : List UBig, (∀ y ∈ l, y.WF cfg) → (l.map (·.value cfg)).Pairwise (· ≤ ·) →
      ∃ l', insertUBig x l = .ok l' ∧ l'.Perm (x :: l) ∧ (l'.map (·.value cfg)).Pairwise (· ≤ ·)
  | [], _, _ => ⟨[x], rfl, List.Perm.refl _, by simp⟩
  | y :: l, hl, hs => by
    unfold insertUBig
    rw [UBig.cmp_spec hv hx (hl y (by simp))]
    simp only [bind, Except.bind]
    rw [List.map_cons, List.pairwise_cons] at hs
    by_cases hgt : y.value cfg < x.value cfg
    · rw [Nat.compare_eq_gt.mpr hgt]
      obtain ⟨l', e, h1, h2⟩ := insertUBig_spec hv hx l (fun z hz => hl z (by simp [hz])) hs.2
      refine ⟨y :: l', by simp only; rw [e], ?_, ?_⟩
      · exact (List.Perm.cons y h1).trans (List.Perm.swap x y l)
      · rw [List.map_cons, List.pairwise_cons]
        refine ⟨fun v hv' => ?_, h2⟩
        have := (h1.map (·.value cfg)).mem_iff.mp hv'
        rw [List.map_cons, List.mem_cons] at this
        rcases this with h | h
        · rw [h]; exact hgt.le
        · exact hs.1 v h
    · have hne : compare (x.value cfg) (y.value cfg) ≠ .gt := fun hc => hgt (Nat.compare_eq_gt.mp hc)
      refine ⟨x :: y :: l, ?_, List.Perm.refl _, ?_⟩
      · generalize compare (x.value cfg) (y.value cfg) = c at hne
        cases c
        · rfl
        · rfl
        · exact absurd rfl hne
      · rw [List.map_cons, List.map_cons, List.pairwise_cons, List.pairwise_cons]
        refine ⟨fun v hv' => ?_, hs⟩
        rcases List.mem_cons.mp hv' with h | h
        · rw [h]; omega
        · exact le_trans (by omega) (hs.1 v h)

theorem sortUBigs_spec {cfg : Cfg} (hv : cfg.Valid) : ∀ l : List UBig, (∀ y ∈ l, y.WF cfg) →
    ∃ l', sortUBigs l = .ok l' ∧ l'.Perm l ∧ (l'.map (·.value cfg)).Pairwise (· ≤ ·)
  | [], _ => ⟨[], rfl, List.Perm.refl _, by simp⟩
  | x :: l, hl => by
    obtain ⟨l1, e1, h1, h2⟩ := sortUBigs_spec hv l (fun z hz => hl z (by simp [hz]))
    obtain ⟨l2, e2, h3, h4⟩ := insertUBig_spec hv (hl x (by simp)) l1
      (fun z hz => hl z (by simp [h1.mem_iff.mp hz])) h2
    refine ⟨l2, ?_, h3.trans (List.Perm.cons x h1), h4⟩
    unfold sortUBigs
    rw [e1]
    exact e2

theorem exists_root {p order : Nat} (hp : p.Prime) (hp2 : 2 < p) (ho : 1 ≤ order) (hd : 2 ^ order ∣ p - 1) :
    ∃ r, IsLeastRoot p order r ∧ r < p := by
  haveI : Fact p.Prime := ⟨hp⟩
  have hex : ∃ x, 1 ≤ x ∧ x < p ∧ x ^ 2 ^ (order - 1) % p = p - 1 := by
    obtain ⟨g, hg⟩ := IsCyclic.exists_generator (α := (ZMod p)ˣ)
    have hog : orderOf g = p - 1 := by
      rw [orderOf_eq_card_of_forall_mem_zpowers hg, Nat.card_eq_fintype_card, ZMod.card_units]
    obtain ⟨k, hk⟩ := hd
    have hkpos : k ≠ 0 := by rintro rfl; omega
    have hox : orderOf (g ^ k) = 2 ^ order := by
      rw [orderOf_pow_of_dvd hkpos (by rw [hog, hk]; exact Dvd.intro_left _ rfl), hog, hk,
        Nat.mul_div_cancel _ (Nat.pos_of_ne_zero hkpos)]
    have hh : (((g ^ k : (ZMod p)ˣ) : ZMod p)) ^ 2 ^ (order - 1) = -1 := by
      have h1 : ((g ^ k) ^ 2 ^ (order - 1)) ^ 2 = 1 := by
        rw [← pow_mul, ← pow_succ, Nat.sub_add_cancel ho, ← hox, pow_orderOf_eq_one]
      have h2 : (g ^ k) ^ 2 ^ (order - 1) ≠ 1 := by
        intro hc
        have := orderOf_dvd_of_pow_eq_one hc
        rw [hox] at this
        have := (Nat.pow_dvd_pow_iff_le_right (by norm_num : 1 < 2)).mp this
        omega
      have h3 : (((g ^ k) ^ 2 ^ (order - 1) : (ZMod p)ˣ) : ZMod p) * (((g ^ k) ^ 2 ^ (order - 1) : (ZMod p)ˣ) : ZMod p)
          = 1 := by
        rw [← Units.val_mul, ← pow_two, h1, Units.val_one]
      rcases mul_self_eq_one_iff.mp h3 with h | h
      · exact absurd (Units.ext (by rw [h, Units.val_one])) h2
      · rw [← Units.val_pow_eq_pow_val]; exact h
    refine ⟨(((g ^ k : (ZMod p)ˣ) : ZMod p)).val, ?_, ZMod.val_lt _, ?_⟩
    · refine Nat.one_le_iff_ne_zero.mpr fun h0 => ?_
      exact Units.ne_zero (g ^ k) ((ZMod.val_eq_zero _).mp h0)
    · rw [← pow_eq_neg_one_iff (by omega), ZMod.natCast_zmod_val]
      exact hh
  classical
  refine ⟨Nat.find hex, ⟨(Nat.find_spec hex).1, (Nat.find_spec hex).2.2, fun x h1 h2 h3 => ?_⟩, (Nat.find_spec hex).2.1⟩
  exact Nat.find_min hex h2 ⟨h1, lt_trans h2 (Nat.find_spec hex).2.1, h3⟩

theorem candidate_gt {bits order p : Nat} (ho : 1 ≤ order) (hp : p ∈ nttCandidates bits order) :
    2 < p ∧ 2 ^ order ∣ p - 1 := by
  obtain ⟨-, h2, h3⟩ := mem_nttCandidates.mp hp
  have hd : 2 ^ order ∣ p - 1 := by
    rw [← h3]; exact Nat.dvd_sub_mod p
  refine ⟨?_, hd⟩
  have h2' : 2 ≤ 2 ^ order := by
    calc 2 = 2 ^ 1 := rfl
      _ ≤ 2 ^ order := Nat.pow_le_pow_right (by norm_num) ho
  have := h2.two_le
  have := Nat.le_of_dvd (by omega) hd
  omega

theorem rootsTool_spec {cfg : Cfg} (hv : cfg.Valid) (addr : Nat) {bits order : Nat} (hb : bits ≤ 64)
    (ho : 1 ≤ order) : ∀ l : List UBig, (∀ x ∈ l, x.WF cfg) → (∀ x ∈ l, x.value cfg ∈ nttCandidates bits order) →
      ∃ l', rootsTool cfg addr order l = .ok l' ∧ l'.map (·.1) = l ∧
        ∀ x ∈ l', x.2.WF cfg ∧ IsLeastRoot (x.1.value cfg) order (x.2.value cfg)
  | [], _, _ => ⟨[], rfl, rfl, by simp⟩
  | x :: l, hw, hl => by
    obtain ⟨l', e', h1, h2⟩ := rootsTool_spec hv addr hb ho l (fun z hz => hw z (by simp [hz]))
      (fun z hz => hl z (by simp [hz]))
    have hx := hl x (by simp)
    obtain ⟨g1, g2⟩ := candidate_gt ho hx
    obtain ⟨m1, m2, -⟩ := mem_nttCandidates.mp hx
    obtain ⟨r, ⟨r1, r2, r3⟩, r4⟩ := exists_root m2 g1 ho g2
    have h64 : x.value cfg ≤ 2 ^ 64 := le_trans m1.le (Nat.pow_le_pow_right (by norm_num) hb)
    have hle : 2 ^ (order - 1) ≤ x.value cfg := by
      have h3 := Nat.le_of_dvd (by omega) g2
      have h4 : 2 ^ (order - 1) ≤ 2 ^ order := Nat.pow_le_pow_right (by norm_num) (by omega)
      omega
    obtain ⟨c, ec, c1, c2⟩ := findRootTool_spec hv addr (hw x (by simp)) rfl g1 (fits64 hv h64) ho hle r1 r4 r2 r3
    refine ⟨(x, c) :: l', ?_, by simp [h1], ?_⟩
    · unfold rootsTool
      rw [ec]
      simp only [bind, Except.bind]
      rw [e']
    · intro z hz
      rcases List.mem_cons.mp hz with rfl | hz
      · exact ⟨c1, by rw [c2]; exact ⟨r1, r2, r3⟩⟩
      · exact h2 z hz

theorem rangeTool_spec {cfg : Cfg} (hv : cfg.Valid) : ∀ (l : List UBig) (range : UBig), (∀ x ∈ l, x.WF cfg) →
    range.WF cfg → (∀ x ∈ l, 1 ≤ x.value cfg) → Fits cfg (range.value cfg * (l.map (·.value cfg)).prod) →
    ∃ c, rangeTool cfg l range = .ok c ∧ c.WF cfg ∧ c.value cfg = range.value cfg * (l.map (·.value cfg)).prod
  | [], range, _, hr, _, _ => ⟨range, rfl, hr, by simp⟩
  | x :: l, range, hw, hr, h1, hf => by
    rw [List.map_cons, List.prod_cons, ← Nat.mul_assoc] at hf ⊢
    have hpos : 0 < (l.map (·.value cfg)).prod := by
      refine Nat.pos_of_ne_zero fun h0 => ?_
      rw [List.prod_eq_zero_iff] at h0
      obtain ⟨y, hy, hy0⟩ := List.mem_map.mp h0
      have := h1 y (by simp [hy])
      omega
    obtain ⟨m, em, m1, m2⟩ := (UBig.mul_spec hv .val .ref hr (hw x (by simp))).1
      (hf.mono (Nat.le_mul_of_pos_right _ hpos))
    obtain ⟨c, ec, c1, c2⟩ := rangeTool_spec hv l m (fun z hz => hw z (by simp [hz])) m1
      (fun z hz => h1 z (by simp [hz])) (by rw [m2]; exact hf)
    refine ⟨c, ?_, c1, by rw [c2, m2]⟩
    unfold rangeTool
    rw [em]
    exact ec

theorem fits_small {cfg : Cfg} (hv : cfg.Valid) {n k : Nat} (h : n < 2 ^ k) (hk : k ≤ 8192) : Fits cfg n := by
  have h1 := hv.W16
  have h2 := hv.large
  refine lt_of_lt_of_le h (Nat.pow_le_pow_right (by norm_num) ?_)
  have := Nat.mul_le_mul h2 h1
  omega

theorem checkRangeTool_spec {cfg : Cfg} (hv : cfg.Valid) {bits order : Nat} (hb : bits ≤ 64) (hb1 : 1 ≤ bits)
    (ho1 : 1 ≤ order) (ho : order ≤ bits) {primes : List UBig} (hl : 3 ≤ primes.length) (hw : ∀ x ∈ primes, x.WF cfg)
    (h1 : ∀ x ∈ primes, 1 ≤ x.value cfg ∧ x.value cfg < 2 ^ 64) :
    checkRangeTool cfg bits order primes =
      if (2 ^ bits - 1) * (2 ^ bits - 1) * 2 ^ (order - 1) + 1 ≤
        ((primes.map (·.value cfg)).drop (primes.length - 3)).prod then .ok () else .error .assertFailed := by
  have hU : 64 < 2 ^ cfg.U := by
    have h1 := hv.W16
    have h2 := hv.large
    have h3 := hv.bits
    have := Nat.mul_le_mul h2 h1
    omega
  obtain ⟨u, eu, u1, u2⟩ := ubigLiteral_ok hv (x := 1) (by norm_num)
  have hbl : 2 ^ bits ≤ 2 ^ 64 := Nat.pow_le_pow_right (by norm_num) hb
  have hol : 2 ^ (order - 1) ≤ 2 ^ 64 := Nat.pow_le_pow_right (by norm_num) (by omega)
  have hbp : 0 < 2 ^ bits := by positivity
  obtain ⟨s, es, s1, s2⟩ := (UBig.shl_spec hv .val u1 (n := bits) (by omega)).1
    (fits_small hv (k := 65) (by rw [u2]; omega) (by norm_num))
  rw [u2, Nat.one_mul] at s2
  obtain ⟨w, ew, w1, w2⟩ := ((UBig.sub_spec hv .val .val s1 u1).1 (by omega)).1
    (fits_small hv (k := 65) (by omega) (by norm_num))
  rw [s2, u2] at w2
  have hsq : (2 ^ bits - 1) * (2 ^ bits - 1) ≤ 2 ^ 64 * 2 ^ 64 := Nat.mul_le_mul (by omega) (by omega)
  obtain ⟨q, eq, q1, q2⟩ := (UBig.mul_spec hv .ref .ref w1 w1).1
    (fits_small hv (k := 129) (by rw [w2]; exact lt_of_le_of_lt hsq (by norm_num)) (by norm_num))
  rw [w2] at q2
  have hsh : (2 ^ bits - 1) * (2 ^ bits - 1) * 2 ^ (order - 1) ≤ 2 ^ 64 * 2 ^ 64 * 2 ^ 64 := Nat.mul_le_mul hsq hol
  obtain ⟨sh, esh, sh1, sh2⟩ := (UBig.shl_spec hv .val q1 (n := order - 1) (by omega)).1
    (fits_small hv (k := 193) (by rw [q2]; exact lt_of_le_of_lt hsh (by norm_num)) (by norm_num))
  rw [q2] at sh2
  obtain ⟨nr, en, n1, n2⟩ := (UBig.add_spec hv .val .val sh1 u1).1
    (fits_small hv (k := 193) (by
      rw [sh2, u2]
      exact lt_of_le_of_lt (Nat.add_le_add_right hsh 1) (by norm_num)) (by norm_num))
  rw [sh2, u2] at n2
  have hd : ∀ x ∈ primes.drop (primes.length - 3), x ∈ primes := fun x hx => List.mem_of_mem_drop hx
  have hprod : ((primes.drop (primes.length - 3)).map (·.value cfg)).prod ≤ 2 ^ 192 := by
    have hlen : (primes.drop (primes.length - 3)).length = 3 := by rw [List.length_drop]; omega
    generalize primes.drop (primes.length - 3) = l at hd hlen
    match l, hlen with
    | [a, b, c], _ =>
      have ha := (h1 a (hd a (by simp))).2
      have hb := (h1 b (hd b (by simp))).2
      have hc := (h1 c (hd c (by simp))).2
      simp only [List.map_cons, List.map_nil, List.prod_cons, List.prod_nil, Nat.mul_one]
      calc a.value cfg * (b.value cfg * c.value cfg) ≤ 2 ^ 64 * (2 ^ 64 * 2 ^ 64) :=
            Nat.mul_le_mul ha.le (Nat.mul_le_mul hb.le hc.le)
        _ = 2 ^ 192 := by norm_num
  obtain ⟨r, er, r1, r2⟩ := rangeTool_spec hv (primes.drop (primes.length - 3)) u (fun x hx => hw x (hd x hx)) u1
    (fun x hx => (h1 x (hd x hx)).1)
    (fits_small hv (k := 193) (by rw [u2, Nat.one_mul]; exact lt_of_le_of_lt hprod (by norm_num)) (by norm_num))
  rw [u2, Nat.one_mul, List.map_drop] at r2
  unfold checkRangeTool
  simp only [bind, Except.bind]
  rw [eu]; simp only
  rw [es]; simp only
  rw [ew]; simp only
  rw [eq]; simp only
  rw [ckSub, if_pos ho1]; simp only
  rw [esh]; simp only
  rw [en]; simp only
  rw [ckSub, if_pos hl]; simp only
  rw [er]; simp only
  rw [UBig.cmp_spec hv r1 n1, n2, r2]
  by_cases hc : ((primes.map (·.value cfg)).drop (primes.length - 3)).prod <
      (2 ^ bits - 1) * (2 ^ bits - 1) * 2 ^ (order - 1) + 1
  · rw [Nat.compare_eq_lt.mpr hc, if_neg (by omega)]
  · have hne := fun h => hc (Nat.compare_eq_lt.mp h)
    rw [if_pos (by omega)]
    generalize compare ((primes.map (·.value cfg)).drop (primes.length - 3)).prod
      ((2 ^ bits - 1) * (2 ^ bits - 1) * 2 ^ (order - 1) + 1) = o at hne
    cases o
    · exact absurd rfl hne
    · rfl
    · rfl

end Ibig
