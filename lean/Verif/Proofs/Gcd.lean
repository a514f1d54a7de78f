import Verif.Model.Gcd
import Verif.Proofs.PrimOps
import Verif.Proofs.BitCount
import Mathlib.Data.Nat.GCD.Basic
import Mathlib.Algebra.Ring.Parity
import Mathlib.Tactic.Linarith
import Mathlib.Tactic.Ring
/-! Proofs for greatest common divisors. -/
namespace Ibig

theorem UBig.lt_spec {cfg : Cfg} (hv : cfg.Valid) {a b : UBig} (ha : a.WF cfg) (hb : b.WF cfg) :
    UBig.lt a b = .ok (decide (a.value cfg < b.value cfg)) := by
  unfold UBig.lt
  rw [UBig.cmp_spec hv ha hb]
  show Except.ok _ = _
  congr 1
  rcases Nat.lt_trichotomy (a.value cfg) (b.value cfg) with h | h | h
  · rw [Nat.compare_eq_lt.mpr h]; simp [h]
  · rw [Nat.compare_eq_eq.mpr h]; simp [h]
  · rw [Nat.compare_eq_gt.mpr h, decide_eq_false (by omega)]; rfl

theorem UBig.le_spec {cfg : Cfg} (hv : cfg.Valid) {a b : UBig} (ha : a.WF cfg) (hb : b.WF cfg) :
    UBig.le a b = .ok (decide (a.value cfg ≤ b.value cfg)) := by
  unfold UBig.le
  rw [UBig.cmp_spec hv ha hb]
  show Except.ok _ = _
  congr 1
  rcases Nat.lt_trichotomy (a.value cfg) (b.value cfg) with h | h | h
  · rw [Nat.compare_eq_lt.mpr h]; simp [h.le]
  · rw [Nat.compare_eq_eq.mpr h]; simp [h]
  · rw [Nat.compare_eq_gt.mpr h, decide_eq_false (by omega)]; rfl

theorem UBig.value_lt_len {cfg : Cfg} {a : UBig} (ha : a.WF cfg) : a.value cfg < 2 ^ (a.len * cfg.W) := by
  cases a with
  | small w =>
    have : w < base cfg.W := ha
    simpa [UBig.len, UBig.value, base_eq] using this
  | large b =>
    have := Buffer.WF.lt ha
    rwa [base_eq, ← Nat.pow_mul, Nat.mul_comm] at this

theorem UBig.isEven_spec {cfg : Cfg} (hv : cfg.Valid) {a : UBig} (ha : a.WF cfg) :
    a.isEven cfg = .ok (decide (a.value cfg % 2 = 0)) := by
  unfold UBig.isEven UBig.bitandUnsigned
  obtain ⟨r, h1, h2, h3⟩ := UBig.fromUnsigned_ok hv (Or.inl rfl : PBits 8) (x := 1) (by norm_num)
  rw [h1]
  obtain ⟨m, g1, g2, g3⟩ := UBig.bitand_spec hv .ref .val ha h2
  have hm : m.value cfg = a.value cfg % 2 := by
    rw [← Nat.and_one_is_mod]
    refine Nat.eq_of_testBit_eq fun i => ?_
    rw [g3 i, Nat.testBit_and, h3]
  show (do
    let m ← (do let m ← UBig.bitand cfg .ref .val a r; let t ← m.tryToUnsigned cfg 8; unwrapR t)
    Except.ok (m == 0)) = _
  rw [g1]
  show (do
    let m ← (do let t ← m.tryToUnsigned cfg 8; unwrapR t)
    Except.ok (m == 0)) = _
  rw [UBig.tryToUnsigned_unwrap hv (Or.inl rfl) g2 (by omega), hm]
  show Except.ok _ = _
  congr 1

theorem odd_shift {n k : Nat} (h0 : n ≠ 0) (h1 : 2 ^ k ∣ n) (h2 : ¬2 ^ (k + 1) ∣ n) :
    n = 2 ^ k * (n / 2 ^ k) ∧ n / 2 ^ k % 2 = 1 := by
  obtain ⟨m, rfl⟩ := h1
  rw [Nat.mul_div_cancel_left _ (Nat.two_pow_pos k)]
  refine ⟨rfl, ?_⟩
  by_contra h
  refine h2 ?_
  rw [Nat.pow_succ]
  exact Nat.mul_dvd_mul_left _ (Nat.dvd_of_mod_eq_zero (by omega))

theorem gcd_two_pow_mul {k a b : Nat} (hb : b % 2 = 1) : Nat.gcd (2 ^ k * a) b = Nat.gcd a b := by
  refine Nat.Coprime.gcd_mul_left_cancel a ?_
  exact Nat.Coprime.pow_left k (by
    unfold Nat.Coprime; rw [Nat.gcd_rec, hb]; rfl)

/-- The number of rounds left: `a`'s odd part times `b` is below `2^n`. -/
def GcdBound (a b n : Nat) : Prop := a ≠ 0 → ∀ z c, a = 2 ^ z * c → c % 2 = 1 → c * b < 2 ^ n

theorem GcdBound.step {a c b z n M m : Nat} (h : GcdBound a b (n + 1)) (h0 : a ≠ 0) (ha : a = 2 ^ z * c)
    (hc : c % 2 = 1) (hb : b % 2 = 1) (hM : (M = c ∧ m = b) ∨ (M = b ∧ m = c)) (hle : m ≤ M) :
    GcdBound (M - m) m n := by
  intro h1 z' c' h2 h3
  have h4 := h h0 z c ha hc
  have hmp : M * m < 2 ^ (n + 1) := by
    rcases hM with ⟨rfl, rfl⟩ | ⟨rfl, rfl⟩
    · exact h4
    · rw [Nat.mul_comm]; exact h4
  have hm0 : 0 < m := by rcases hM with ⟨rfl, rfl⟩ | ⟨rfl, rfl⟩ <;> omega
  have hz : z' ≠ 0 := by
    rintro rfl
    rw [Nat.pow_zero, Nat.one_mul] at h2
    rcases hM with ⟨rfl, rfl⟩ | ⟨rfl, rfl⟩ <;> omega
  obtain ⟨y, rfl⟩ := Nat.exists_eq_succ_of_ne_zero hz
  have h5 : 2 * c' ≤ M := by
    calc 2 * c' ≤ 2 ^ (y + 1) * c' := by
          refine Nat.mul_le_mul_right _ ?_
          rw [Nat.pow_succ]; have := Nat.two_pow_pos y; omega
      _ = M - m := h2.symm
      _ ≤ M := Nat.sub_le _ _
  have h6 : 2 * (c' * m) ≤ M * m := by rw [← Nat.mul_assoc]; exact Nat.mul_le_mul_right _ h5
  rw [Nat.pow_succ] at hmp
  omega

theorem gcdBound_start {cfg : Cfg} {a b : UBig} (ha : a.WF cfg) (hb : b.WF cfg) :
    GcdBound (a.value cfg) (b.value cfg) ((a.len + b.len) * cfg.W) := by
  intro _ z c h1 h2
  have ha' := UBig.value_lt_len ha
  have hb' := UBig.value_lt_len hb
  have : c ≤ a.value cfg := by
    rw [h1]; exact Nat.le_mul_of_pos_left _ (Nat.two_pow_pos z)
  rw [Nat.add_mul, Nat.pow_add]
  exact lt_of_le_of_lt (Nat.mul_le_mul_right _ this) (Nat.mul_lt_mul'' ha' hb')

theorem swap_cases {α : Type} {v : α → Nat} {a b : α} :
    let p := if decide (v a < v b) then (b, a) else (a, b)
    v p.2 ≤ v p.1 ∧ ((p.1 = a ∧ p.2 = b) ∨ (p.1 = b ∧ p.2 = a)) := by
  intro p
  by_cases h : v a < v b
  · simp only [p, decide_eq_true h, if_true]
    exact ⟨h.le, Or.inr ⟨trivial, trivial⟩⟩
  · simp only [p, decide_eq_false h, Bool.false_eq_true, if_false]
    exact ⟨by omega, Or.inl ⟨trivial, trivial⟩⟩

theorem UBig.gcdLoop_spec {cfg : Cfg} (hv : cfg.Valid) : ∀ (n : Nat) {a b : UBig}, a.WF cfg → b.WF cfg →
    b.value cfg % 2 = 1 → GcdBound (a.value cfg) (b.value cfg) n →
    Returns (UBig.gcdLoop cfg (n + 1) a b) fun g =>
      g.WF cfg ∧ g.value cfg = Nat.gcd (a.value cfg) (b.value cfg) := by
  intro n
  induction n with
  | zero =>
    intro a b ha hb hodd hn
    unfold UBig.gcdLoop
    refine Returns.bind (UBig.trailingZeros_spec hv ha) ?_
    intro z hz
    cases z with
    | none => simp only at hz ⊢; rw [hz, Nat.gcd_zero_left]; exact returns_ok.mpr ⟨hb, rfl⟩
    | some k =>
      simp only at hz
      obtain ⟨h1, h2⟩ := odd_shift hz.1 hz.2.1 hz.2.2
      have := hn hz.1 k _ h1 h2
      rw [Nat.pow_zero, Nat.lt_one_iff, Nat.mul_eq_zero] at this
      omega
  | succ n ih =>
    intro a b ha hb hodd hn
    unfold UBig.gcdLoop
    refine Returns.bind (UBig.trailingZeros_spec hv ha) ?_
    intro z hz
    cases z with
    | none => simp only at hz ⊢; rw [hz, Nat.gcd_zero_left]; exact returns_ok.mpr ⟨hb, rfl⟩
    | some k =>
      simp only at hz ⊢
      obtain ⟨h1, h2⟩ := odd_shift hz.1 hz.2.1 hz.2.2
      refine Returns.bind (UBig.shr_spec hv .val ha k) ?_
      rintro a1 ⟨ha1, va1⟩
      rw [UBig.lt_spec hv ha1 hb]
      refine Returns.bind (P := fun s => s = decide (a1.value cfg < b.value cfg)) (returns_ok.mpr rfl) ?_
      intro s hs
      rw [hs]
      obtain ⟨hle, hp⟩ := swap_cases (v := UBig.value cfg) (a := a1) (b := b)
      generalize (if decide (a1.value cfg < b.value cfg) = true then (b, a1) else (a1, b)) = p at *
      have w1 : p.1.WF cfg := by rcases hp with ⟨e1, e2⟩ | ⟨e1, e2⟩ <;> rw [e1] <;> assumption
      have w2 : p.2.WF cfg := by rcases hp with ⟨e1, e2⟩ | ⟨e1, e2⟩ <;> rw [e2] <;> assumption
      have hg : Nat.gcd (p.1.value cfg) (p.2.value cfg) = Nat.gcd (a.value cfg) (b.value cfg) := by
        rw [h1, gcd_two_pow_mul hodd, ← va1]
        rcases hp with ⟨e1, e2⟩ | ⟨e1, e2⟩ <;> rw [e1, e2]
        rw [Nat.gcd_comm]
      refine Returns.bind (((UBig.sub_spec hv .val .ref w1 w2).1 hle).returns
        ((w1.fits hv).mono (Nat.sub_le _ _))) ?_
      rintro d ⟨hd, vd⟩
      refine (ih hd w2 ?_ ?_).mono ?_
      · rcases hp with ⟨e1, e2⟩ | ⟨e1, e2⟩ <;> rw [e2] <;> omega
      · rw [vd]
        refine hn.step (c := a1.value cfg) (z := k) hz.1 (by rw [va1]; exact h1) (by omega) hodd ?_ hle
        rcases hp with ⟨e1, e2⟩ | ⟨e1, e2⟩ <;> rw [e1, e2] <;> simp
      · rintro g ⟨hg1, hg2⟩
        refine ⟨hg1, ?_⟩
        rw [hg2, vd, Nat.gcd_sub_self_left hle, hg]

/-- A shift count that occurs in a number is a `usize`. -/
theorem UBig.zeros_lt {cfg : Cfg} (hv : cfg.Valid) {a : UBig} (ha : a.WF cfg) {k : Nat}
    (h0 : a.value cfg ≠ 0) (h : 2 ^ k ∣ a.value cfg) : k < 2 ^ cfg.U := by
  have h1 := Nat.le_of_dvd (Nat.pos_of_ne_zero h0) h
  have h2 : a.value cfg < 2 ^ (cfg.maxLen * cfg.W) := ha.fits hv
  have h3 : k < cfg.maxLen * cfg.W := (Nat.pow_lt_pow_iff_right (by omega)).mp (lt_of_le_of_lt h1 h2)
  have := hv.bits
  omega

theorem gcd_shift {x y a b i j : Nat} (hx : x = 2 ^ i * a) (hy : y = 2 ^ j * b) (ha : a % 2 = 1)
    (hb : b % 2 = 1) : Nat.gcd x y = Nat.gcd a b * 2 ^ min i j := by
  subst hx hy
  rcases Nat.le_total i j with h | h
  · obtain ⟨d, rfl⟩ := Nat.exists_eq_add_of_le h
    rw [Nat.min_eq_left h, Nat.pow_add, Nat.mul_assoc, Nat.gcd_mul_left, Nat.mul_comm, Nat.gcd_comm,
      gcd_two_pow_mul ha, Nat.gcd_comm]
  · obtain ⟨d, rfl⟩ := Nat.exists_eq_add_of_le h
    rw [Nat.min_eq_right h, Nat.pow_add, Nat.mul_assoc, Nat.gcd_mul_left, Nat.mul_comm,
      gcd_two_pow_mul hb]

theorem gcd_fits {cfg : Cfg} (hv : cfg.Valid) {a b : UBig} (ha : a.WF cfg) (hb : b.WF cfg) :
    Fits cfg (Nat.gcd (a.value cfg) (b.value cfg)) := by
  rcases Nat.eq_zero_or_pos (a.value cfg) with h | h
  · rw [h, Nat.gcd_zero_left]; exact hb.fits hv
  · exact (ha.fits hv).mono (Nat.gcd_le_left _ h)

theorem UBig.gcdNonzero_spec {cfg : Cfg} (hv : cfg.Valid) {a b : UBig} (ha : a.WF cfg) (hb : b.WF cfg)
    {i j : Nat} (hi : a.value cfg ≠ 0 ∧ 2 ^ i ∣ a.value cfg ∧ ¬2 ^ (i + 1) ∣ a.value cfg)
    (hj : b.value cfg ≠ 0 ∧ 2 ^ j ∣ b.value cfg ∧ ¬2 ^ (j + 1) ∣ b.value cfg) :
    Returns (UBig.gcdNonzero cfg a b i j) fun g =>
      g.WF cfg ∧ g.value cfg = Nat.gcd (a.value cfg) (b.value cfg) := by
  obtain ⟨i1, i2⟩ := odd_shift hi.1 hi.2.1 hi.2.2
  obtain ⟨j1, j2⟩ := odd_shift hj.1 hj.2.1 hj.2.2
  have hG := gcd_shift i1 j1 i2 j2
  unfold UBig.gcdNonzero
  refine Returns.bind (UBig.shr_spec hv .val ha i) ?_
  rintro a1 ⟨ha1, va1⟩
  refine Returns.bind (UBig.shr_spec hv .val hb j) ?_
  rintro b1 ⟨hb1, vb1⟩
  rw [← va1] at hG i2
  rw [← vb1] at hG j2
  rw [UBig.lt_spec hv ha1 hb1]
  refine Returns.bind (P := fun s => s = decide (a1.value cfg < b1.value cfg)) (returns_ok.mpr rfl) ?_
  intro s hs
  rw [hs]
  obtain ⟨hle, hp⟩ := swap_cases (v := UBig.value cfg) (a := a1) (b := b1)
  simp only
  generalize (if decide (a1.value cfg < b1.value cfg) = true then (b1, a1) else (a1, b1)) = p at *
  have w1 : p.1.WF cfg := by rcases hp with ⟨e1, e2⟩ | ⟨e1, e2⟩ <;> rw [e1] <;> assumption
  have w2 : p.2.WF cfg := by rcases hp with ⟨e1, e2⟩ | ⟨e1, e2⟩ <;> rw [e2] <;> assumption
  have o2 : p.2.value cfg % 2 = 1 := by rcases hp with ⟨e1, e2⟩ | ⟨e1, e2⟩ <;> rw [e2] <;> assumption
  have hg : Nat.gcd (p.1.value cfg) (p.2.value cfg) = Nat.gcd (a1.value cfg) (b1.value cfg) := by
    rcases hp with ⟨e1, e2⟩ | ⟨e1, e2⟩ <;> rw [e1, e2]
    rw [Nat.gcd_comm]
  refine Returns.bind ((UBig.rem_spec hv .val .ref w1 w2).1 (by omega)) ?_
  rintro r ⟨hr, vr⟩
  refine Returns.bind (UBig.gcdLoop_spec hv _ hr w2 o2 (gcdBound_start hr w2)) ?_
  rintro g ⟨hg1, hg2⟩
  have hz : min i j < 2 ^ cfg.U := lt_of_le_of_lt (Nat.min_le_left _ _) (UBig.zeros_lt hv ha hi.1 hi.2.1)
  have hval : g.value cfg * 2 ^ min i j = Nat.gcd (a.value cfg) (b.value cfg) := by
    rw [hG, hg2, vr, ← Nat.gcd_rec, Nat.gcd_comm, hg]
  have := UBig.shl_spec hv .val hg1 hz
  rw [hval] at this
  exact this.returns (gcd_fits hv ha hb)

theorem UBig.gcd_spec {cfg : Cfg} (hv : cfg.Valid) {x y : UBig} (hx : x.WF cfg) (hy : y.WF cfg) :
    (x.value cfg ≠ 0 ∨ y.value cfg ≠ 0 → Returns (UBig.gcd cfg x y) fun g =>
      g.WF cfg ∧ g.value cfg = Nat.gcd (x.value cfg) (y.value cfg)) ∧
    (x.value cfg = 0 → y.value cfg = 0 → UBig.gcd cfg x y = .error .gcdZero) := by
  unfold UBig.gcd
  obtain ⟨a, a1, a2, a3⟩ := UBig.clone_spec hx
  obtain ⟨b, b1, b2, b3⟩ := UBig.clone_spec hy
  obtain ⟨az, az1, az2⟩ := UBig.trailingZeros_spec hv a2
  obtain ⟨bz, bz1, bz2⟩ := UBig.trailingZeros_spec hv b2
  rw [a1]
  show (_ → Returns (do let b ← y.clone cfg; _) _) ∧ _
  rw [b1]
  show (_ → Returns (do let az ← a.trailingZeros cfg; _) _) ∧ (_ → _ → (do let az ← a.trailingZeros cfg; _) = _)
  rw [az1]
  show (_ → Returns (do let bz ← b.trailingZeros cfg; _) _) ∧ (_ → _ → (do let bz ← b.trailingZeros cfg; _) = _)
  rw [bz1, ← a3, ← b3]
  cases az with
  | none =>
    simp only at az2
    cases bz with
    | none => simp only at bz2; exact ⟨fun h => by omega, fun _ _ => rfl⟩
    | some j =>
      simp only at bz2
      refine ⟨fun _ => returns_ok.mpr ⟨b2, by rw [az2, Nat.gcd_zero_left]⟩, fun _ h => absurd h bz2.1⟩
  | some i =>
    simp only at az2
    refine ⟨fun _ => ?_, fun h => absurd h az2.1⟩
    cases bz with
    | none => simp only at bz2; exact returns_ok.mpr ⟨a2, by rw [bz2, Nat.gcd_zero_right]⟩
    | some j => simp only at bz2; exact UBig.gcdNonzero_spec hv a2 b2 az2 bz2

end Ibig
