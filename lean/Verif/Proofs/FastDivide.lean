import Verif.Proofs.Basic
import Verif.Model.FastDivide
namespace Ibig

theorem bitLen_le_iff {x n : Nat} : bitLen x ≤ n ↔ x < 2 ^ n := by
  unfold bitLen
  split
  · rename_i h; subst h; simp
  · rename_i h
    rw [Nat.succ_le_iff, Nat.log2_lt h]

theorem lt_two_pow_bitLen (x : Nat) : x < 2 ^ bitLen x := bitLen_le_iff.mp (le_refl _)

theorem two_pow_le_of_bitLen {x : Nat} (h : x ≠ 0) : 2 ^ (bitLen x - 1) ≤ x := by
  by_contra hlt
  have := bitLen_le_iff.mpr (Nat.lt_of_not_le hlt)
  have : 1 ≤ bitLen x := by unfold bitLen; simp [h]
  omega

theorem bitLen_pos {x : Nat} (h : x ≠ 0) : 1 ≤ bitLen x := by unfold bitLen; simp [h]

theorem bitLen_mono {x y : Nat} (h : x ≤ y) : bitLen x ≤ bitLen y :=
  bitLen_le_iff.mpr (lt_of_le_of_lt h (lt_two_pow_bitLen y))

theorem base_eq (W : Nat) : base W = 2 ^ W := rfl

theorem base_sq (W : Nat) : base W * base W = 2 ^ (2 * W) := by
  unfold base; rw [← pow_add]; congr 1; omega

/-- A normalized divisor: top bit set. -/
def FastDivideNormalized.Valid (W : Nat) (fd : FastDivideNormalized) (d : Nat) : Prop :=
  fd.divisor = d ∧ d < base W ∧ base W ≤ 2 * d ∧ ∃ k, 1 ≤ k ∧ k ≤ d ∧
    (fd.m + base W) * d + k = base W * base W ∧ fd.m < base W

theorem leadingZeros_zero_iff {W x : Nat} (hW : 1 ≤ W) (hx : x < base W) :
    leadingZeros W x = 0 ↔ base W ≤ 2 * x := by
  unfold leadingZeros
  have h1 : bitLen x ≤ W := bitLen_le_iff.mpr hx
  have h2 : base W = 2 * 2 ^ (W - 1) := by
    unfold base; rw [← pow_succ']; congr 1; omega
  constructor
  · intro h
    have h3 : ¬ bitLen x ≤ W - 1 := by omega
    rw [bitLen_le_iff] at h3
    omega
  · intro h
    have h3 : ¬ bitLen x ≤ W - 1 := by rw [bitLen_le_iff]; omega
    omega

theorem FastDivideNormalized.new_spec {W d : Nat} (hW : 1 ≤ W) (hd : d < base W)
    (hn : base W ≤ 2 * d) :
    Returns (FastDivideNormalized.new W d) fun fd => fd.Valid W d := by
  unfold FastDivideNormalized.new
  refine Returns.bind (returns_assertR ((leadingZeros_zero_iff hW hd).mpr hn)) fun _ _ => ?_
  have hB := two_le_base hW
  have hdpos : 0 < d := by omega
  simp only [splitDoubleWord]
  have hdm := Nat.div_add_mod (base W * base W - 1) d
  have hml := Nat.mod_lt (base W * base W - 1) hdpos
  set q := (base W * base W - 1) / d with hq
  set r := (base W * base W - 1) % d with hr
  have hBB : 1 ≤ base W * base W := Nat.mul_pos (by omega) (by omega)
  have hq1 : base W ≤ q := by
    rw [hq, Nat.le_div_iff_mul_le hdpos]
    have : base W * d ≤ base W * (base W - 1) := Nat.mul_le_mul_left _ (by omega)
    rw [Nat.mul_sub] at this
    omega
  have hq2 : q < 2 * base W := by
    rw [hq, Nat.div_lt_iff_lt_mul hdpos]
    have : base W * base W ≤ base W * (2 * d) := Nat.mul_le_mul_left _ hn
    have e : 2 * base W * d = base W * (2 * d) := by ring
    omega
  have hhi : q / base W = 1 := by
    rw [Nat.div_eq_of_lt_le] <;> omega
  refine Returns.bind (returns_assertR hhi) fun _ _ => ?_
  simp only [returns_ok]
  have hm := Nat.div_add_mod q (base W)
  rw [hhi] at hm
  refine ⟨rfl, hd, hn, r + 1, by omega, by omega, ?_, Nat.mod_lt _ (by omega)⟩
  have : q % base W + base W = q := by omega
  simp only
  rw [this]
  have e : q * d = d * q := by ring
  omega

theorem FastDivideNormalized.divRemWord_spec {W d a : Nat} {fd : FastDivideNormalized}
    (h : fd.Valid W d) (ha : a < base W) : fd.divRemWord a = (a / d, a % d) := by
  obtain ⟨h1, h2, h3, _⟩ := h
  unfold FastDivideNormalized.divRemWord
  rw [h1]
  split
  · rename_i hlt
    rw [Nat.div_eq_of_lt hlt, Nat.mod_eq_of_lt hlt]
  · rename_i hge
    have e1 : a / d = 1 := by rw [Nat.div_eq_of_lt_le] <;> omega
    have := Nat.div_add_mod a d
    rw [e1] at this
    rw [e1]; congr 1; omega

theorem and_allOnes {W d : Nat} (hd : d < base W) : (base W - 1 &&& d) = d := by
  unfold base at *
  rw [Nat.and_comm, Nat.and_two_pow_sub_one_of_lt_two_pow hd]

theorem hi_wrappingSub {W x y : Nat} (hx : x < base W) (hy : y < base W) :
    wrappingSub (base W * base W) x y / base W = if x < y then base W - 1 else 0 := by
  have hB := base_pos W
  unfold wrappingSub
  split
  · rename_i h
    have h1 : x + base W * base W - y < base W * base W := by
      have : base W ≤ base W * base W := Nat.le_mul_of_pos_left _ hB
      omega
    rw [Nat.mod_eq_of_lt h1]
    have h2 : base W * base W = (base W - 1) * base W + base W := by
      conv_rhs => rw [← Nat.succ_mul]
      congr 1; omega
    rw [Nat.div_eq_of_lt_le]
    · omega
    · rw [show base W - 1 + 1 = base W by omega]
      exact h1
  · rename_i h
    have h1 : x + base W * base W - y = (x - y) + base W * base W := by omega
    rw [h1, Nat.add_mod_right]
    have : base W ≤ base W * base W := Nat.le_mul_of_pos_left _ hB
    rw [Nat.mod_eq_of_lt (by omega)]
    exact Nat.div_eq_of_lt (by omega)

/-- The core bound of Möller–Granlund (fast_divide.rs:152-171), over the integers. -/
theorem mg_bounds {B d m k ah al q0 q1 r : Int} (hd : 0 < d) (hdB : d < B) 
    (hk1 : 1 ≤ k) (hkd : k ≤ d) (hm : (m + B) * d + k = B * B) (hah : 0 ≤ ah) (hahd : ah < d)
    (hal : 0 ≤ al) (halB : al < B) (hq0 : 0 ≤ q0) (hq0B : q0 < B)
    (hq : q0 + B * q1 = m * ah + (al + B * ah)) (hr : r = al + B * ah - (q1 + 1) * d) :
    -d ≤ r ∧ q0 - B < r ∧ (r < B - d ∨ r < q0) ∧ r < B := by
  have hB : 0 < B := by linarith
  have key : B * r = ah * k + al * (B - d) + q0 * d - B * d := by
    have : B * q1 = m * ah + (al + B * ah) - q0 := by linarith
    have h2 : B * r = B * (al + B * ah) - (B * q1) * d - B * d := by rw [hr]; ring
    rw [h2, this]
    linear_combination -ah * hm
  have p1 : 0 ≤ ah * k := by positivity
  have p2 : 0 ≤ al * (B - d) := mul_nonneg hal (by linarith)
  have p3 : 0 ≤ q0 * d := by positivity
  have p4 : ah * k ≤ (d - 1) * d := by
    have : ah * k ≤ ah * d := mul_le_mul_of_nonneg_left hkd hah
    have : ah * d ≤ (d - 1) * d := mul_le_mul_of_nonneg_right (by linarith) hd.le
    linarith
  have p5 : al * (B - d) ≤ (B - 1) * (B - d) := mul_le_mul_of_nonneg_right (by linarith) (by linarith)
  have up : B * r < (B - d) * (B - d) + q0 * d := by
    have : (d - 1) * d + (B - 1) * (B - d) - B * d = (B - d) * (B - d) - B := by ring
    linarith
  have c1 : -d ≤ r := by
    by_contra h
    have : B * r ≤ B * (-d - 1) := mul_le_mul_of_nonneg_left (by linarith) hB.le
    nlinarith
  have c2 : q0 - B < r := by
    by_contra h
    have h1 : B * r ≤ B * (q0 - B) := mul_le_mul_of_nonneg_left (by linarith) hB.le
    have h2 : (B - q0) * d < (B - q0) * B := mul_lt_mul_of_pos_left hdB (by linarith)
    nlinarith
  have c3 : r < B - d ∨ r < q0 := by
    by_cases h : q0 ≤ B - d
    · left
      by_contra hc
      have h1 : B * (B - d) ≤ B * r := mul_le_mul_of_nonneg_left (by linarith) hB.le
      have h2 : q0 * d ≤ (B - d) * d := mul_le_mul_of_nonneg_right h hd.le
      nlinarith
    · right
      by_contra hc
      have h1 : B * q0 ≤ B * r := mul_le_mul_of_nonneg_left (by linarith) hB.le
      have h2 : (B - d) * (B - d) ≤ q0 * (B - d) := mul_le_mul_of_nonneg_right (by linarith) (by linarith)
      nlinarith
  exact ⟨c1, c2, c3, by rcases c3 with h | h <;> linarith⟩

theorem wrappingSub_int {M a b : Nat} (hM : 0 < M) (hb : b ≤ M) (ha : a < M) :
    wrappingSub M a b < M ∧ ((wrappingSub M a b : Int) = (a : Int) - b ∨
      (wrappingSub M a b : Int) = (a : Int) - b + M) := by
  unfold wrappingSub
  refine ⟨Nat.mod_lt _ hM, ?_⟩
  by_cases h : b ≤ a
  · left
    have : a + M - b = (a - b) + M := by omega
    rw [this, Nat.add_mod_right, Nat.mod_eq_of_lt (by omega)]
    omega
  · right
    rw [Nat.mod_eq_of_lt (by omega)]
    omega

theorem int_mod_unique {B : Int} {x : Nat} {R t : Int} (hx : (x : Int) < B)
    (h : (x : Int) = R + t * B) (hR : -B ≤ R) (hR2 : R < B) : (x : Int) = R ∨ (x : Int) = R + B := by
  have hx0 : (0 : Int) ≤ x := Int.natCast_nonneg x
  have hB : 0 < B := by linarith
  have h1 : t < 2 := by
    by_contra hc
    have : 2 * B ≤ t * B := mul_le_mul_of_nonneg_right (by linarith) hB.le
    linarith
  have h2 : -1 < t := by
    by_contra hc
    have : t * B ≤ (-1) * B := mul_le_mul_of_nonneg_right (by linarith) hB.le
    linarith
  have : t = 0 ∨ t = 1 := by omega
  rcases this with rfl | rfl
  · left; linarith
  · right; linarith

theorem FastDivideNormalized.divRem_spec {W d a : Nat} {fd : FastDivideNormalized}
    (h : fd.Valid W d) (ha : a < d * base W) : fd.divRem W a = .ok (a / d, a % d) := by
  obtain ⟨h1, hdB, hn, k, hk1, hkd, hm, hmB⟩ := h
  have hB : 0 < base W := base_pos W
  have hdpos : 0 < d := by omega
  unfold FastDivideNormalized.divRem
  simp only [splitDoubleWord, h1]
  have hah : a / base W < d := (Nat.div_lt_iff_lt_mul hB).mpr ha
  have hadm := Nat.div_add_mod a (base W)
  have hal : a % base W < base W := Nat.mod_lt _ hB
  rw [assertR_true hah]
  set ah := a / base W with hah_def
  set al := a % base W with hal_def
  -- no overflow in the product
  have hsum : fd.m * ah + a < 2 ^ (2 * W) := by
    rw [← base_sq]
    have e1 : (fd.m + base W) * (ah + 1) ≤ (fd.m + base W) * d := Nat.mul_le_mul_left _ hah
    have e2 : (fd.m + base W) * (ah + 1) = fd.m * ah + base W * ah + fd.m + base W := by ring
    omega
  have hck : ckAdd (2 * W) (fd.m * ah) a = .ok (fd.m * ah + a) := by simp [ckAdd, hsum]
  simp only [bind, Except.bind, hck]
  set p := fd.m * ah + a with hp
  have hpdm := Nat.div_add_mod p (base W)
  have hq0 : p % base W < base W := Nat.mod_lt _ hB
  set q0 := p % base W
  set q1 := p / base W
  have hq1 : q1 < base W := by
    rw [← base_sq] at hsum
    exact Nat.div_lt_of_lt_mul hsum
  -- integer facts
  have bounds := mg_bounds (B := base W) (d := d) (m := fd.m) (k := k) (ah := ah) (al := al)
    (q0 := q0) (q1 := q1) (by exact_mod_cast hdpos) (by exact_mod_cast hdB) (by exact_mod_cast hk1)
    (by exact_mod_cast hkd) (by exact_mod_cast hm) (by positivity) (by exact_mod_cast hah)
    (by positivity) (by exact_mod_cast hal) (by positivity) (by exact_mod_cast hq0)
    (by
      have e : q0 + base W * q1 = fd.m * ah + (al + base W * ah) := by omega
      exact_mod_cast e) rfl
  set Rr : Int := (al : Int) + base W * ah - (q1 + 1) * d with hRr
  obtain ⟨b1, b2, b3, b4⟩ := bounds
  have haR : (a : Int) = (q1 + 1) * d + Rr := by
    have : (a : Int) = al + base W * ah := by rw [← hadm]; push_cast; ring
    rw [hRr, this]; ring
  -- q mod B
  set q := (q1 + 1) % base W with hqdef
  have hqlt : q < base W := Nat.mod_lt _ hB
  have hqcong : ∃ t : Int, (q : Int) = q1 + 1 + t * base W := by
    refine ⟨-(((q1 + 1) / base W : Nat) : Int), ?_⟩
    have := Nat.div_add_mod (q1 + 1) (base W)
    have : (base W : Int) * ((q1 + 1) / base W : Nat) + q = q1 + 1 := by exact_mod_cast this
    linarith
  obtain ⟨t, ht⟩ := hqcong
  set r := wrappingSub (base W) al (q * d % base W) with hrdef
  have hr := wrappingSub_int (M := base W) (a := al) (b := q * d % base W) hB
    (Nat.mod_lt _ hB).le hal
  rw [← hrdef] at hr
  have hrlt : r < base W := hr.1
  have hrR : (r : Int) = Rr ∨ (r : Int) = Rr + base W := by
    have hdm := Nat.div_add_mod (q * d) (base W)
    have hdm' : (base W : Int) * ((q * d / base W : Nat) : Int) + ((q * d % base W : Nat) : Int)
      = q * d := by exact_mod_cast hdm
    have hex : ∃ u : Int, (r : Int) = Rr + u * base W := by
      rcases hr.2 with h | h
      · refine ⟨-ah - t * d + ((q * d / base W : Nat) : Int), ?_⟩
        rw [h, hRr]
        have : ((q * d % base W : Nat) : Int) = (q1 + 1 + t * base W) * d
          - base W * ((q * d / base W : Nat) : Int) := by rw [← ht]; linarith
        rw [this]; ring
      · refine ⟨-ah - t * d + ((q * d / base W : Nat) : Int) + 1, ?_⟩
        rw [h, hRr]
        have : ((q * d % base W : Nat) : Int) = (q1 + 1 + t * base W) * d
          - base W * ((q * d / base W : Nat) : Int) := by rw [← ht]; linarith
        rw [this]; ring
    obtain ⟨u, hu⟩ := hex
    refine int_mod_unique (by exact_mod_cast hrlt) hu ?_ b4
    have : (d : Int) < base W := by exact_mod_cast hdB
    linarith
  -- first correction
  rw [hi_wrappingSub hq0 hrlt]
  -- state after the first correction
  obtain ⟨q', r', hq'lt, hr'lt, hq'c, hr'v, hqe, hre⟩ : ∃ q' r' : Nat, q' < base W ∧ r' < base W ∧
      (∃ t : Int, (a : Int) = ((q' : Int) + t * base W) * d + r') ∧ True ∧
      (q + if q0 < r then base W - 1 else 0) % base W = q' ∧
      (r + ((if q0 < r then base W - 1 else 0) &&& d)) % base W = r' := by
    by_cases hlt : q0 < r
    · simp only [hlt, if_true]
      rw [and_allOnes hdB]
      refine ⟨_, _, Nat.mod_lt _ hB, Nat.mod_lt _ hB, ?_, trivial, rfl, rfl⟩
      have e1 := Nat.div_add_mod (q + (base W - 1)) (base W)
      have e1' : (base W : Int) * (((q + (base W - 1)) / base W : Nat) : Int)
        + (((q + (base W - 1)) % base W : Nat) : Int) = q + (base W - 1) := by
        have := congrArg (Nat.cast : Nat → Int) e1
        push_cast [Nat.cast_sub (show 1 ≤ base W from hB)] at this ⊢
        exact this
      have er : (((r + d) % base W : Nat) : Int) = Rr + d := by
        rcases hrR with hh | hh
        · have hlt2 : r + d < base W := by
            have : (q0 : Int) < r := by exact_mod_cast hlt
            rcases b3 with b3 | b3
            · omega
            · omega
          rw [Nat.mod_eq_of_lt hlt2]; push_cast; rw [hh]
        · have hge : base W ≤ r + d := by omega
          have hlt3 : r + d - base W < base W := by omega
          rw [Nat.mod_eq_sub_mod hge, Nat.mod_eq_of_lt hlt3]
          rw [Nat.cast_sub hge]; push_cast; rw [hh]; ring
      rw [er]
      refine ⟨-(t + 1 - (((q + (base W - 1)) / base W : Nat) : Int)), ?_⟩
      have e2 : (((q + (base W - 1)) % base W : Nat) : Int)
        = q1 + 1 + t * base W + (base W - 1) - base W * (((q + (base W - 1)) / base W : Nat) : Int) := by
        rw [← ht]; linarith
      rw [e2, haR]; ring
    · simp only [hlt, if_false]
      rw [Nat.zero_and, Nat.add_zero, Nat.add_zero, Nat.mod_eq_of_lt hqlt, Nat.mod_eq_of_lt hrlt]
      refine ⟨q, r, hqlt, hrlt, ⟨-t, ?_⟩, trivial, rfl, rfl⟩
      have hh : (r : Int) = Rr := by
        rcases hrR with hh | hh
        · exact hh
        · exfalso
          have : (r : Int) ≤ q0 := by exact_mod_cast Nat.le_of_not_lt hlt
          linarith
      rw [hh, ht, haR]; ring
  rw [hqe, hre]
  -- second correction
  rw [hi_wrappingSub hr'lt hdB]
  obtain ⟨t', ht'⟩ := hq'c
  have hadm2 := Nat.div_add_mod a d
  have hqq : a / d < base W := by
    rw [Nat.div_lt_iff_lt_mul hdpos, Nat.mul_comm]; exact ha
  -- unique quotient
  have finish : ∀ (qf rf : Nat), qf < base W → rf < d →
      (∃ t : Int, (a : Int) = ((qf : Int) + t * base W) * d + rf) → (qf, rf) = (a / d, a % d) := by
    rintro qf rf hqf hrf ⟨t, ht⟩
    have e1 : (qf : Int) + t * base W = ((a / d : Nat) : Int) := by
      have hpos : (0 : Int) < d := by exact_mod_cast hdpos
      have h1 : (a : Int) / d = (qf : Int) + t * base W := by
        rw [ht, add_comm, Int.add_mul_ediv_right _ _ hpos.ne']
        rw [Int.ediv_eq_zero_of_lt (by positivity) (by exact_mod_cast hrf)]
        ring
      rw [← h1]; push_cast; rfl
    have e2 : rf = a % d := by
      have : (a : Int) = d * ((a / d : Nat) : Int) + ((a % d : Nat) : Int) := by exact_mod_cast hadm2.symm
      rw [e1] at ht
      have : (rf : Int) = ((a % d : Nat) : Int) := by linarith
      exact_mod_cast this
    have hBint : (0 : Int) < base W := by exact_mod_cast hB
    have e3 : t = 0 := by
      have i1 : ((a / d : Nat) : Int) < base W := by exact_mod_cast hqq
      have i2 : (0 : Int) ≤ ((a / d : Nat) : Int) := by positivity
      have i3 : (qf : Int) < base W := by exact_mod_cast hqf
      have i4 : (0 : Int) ≤ qf := by positivity
      rw [← e1] at i1 i2
      by_contra hne
      rcases lt_or_gt_of_ne hne with hlt | hgt
      · have : t * base W ≤ (-1) * base W := mul_le_mul_of_nonneg_right (by linarith) hBint.le
        linarith
      · have : 1 * (base W : Int) ≤ t * base W := mul_le_mul_of_nonneg_right (by linarith) hBint.le
        linarith
    rw [e3] at e1
    have : qf = a / d := by
      have : (qf : Int) = ((a / d : Nat) : Int) := by linarith
      exact_mod_cast this
    rw [this, e2]
  congr 1
  by_cases hlt : r' < d
  · simp only [hlt, if_true]
    have z : base W - 1 - (base W - 1) = 0 := by omega
    rw [z, Nat.zero_and]
    have w1 : wrappingSub (base W) q' 0 = q' := by
      unfold wrappingSub; rw [Nat.sub_zero, Nat.add_mod_right, Nat.mod_eq_of_lt hq'lt]
    have w2 : wrappingSub (base W) r' 0 = r' := by
      unfold wrappingSub; rw [Nat.sub_zero, Nat.add_mod_right, Nat.mod_eq_of_lt hr'lt]
    rw [w1, w2]
    exact finish q' r' hq'lt hlt ⟨t', ht'⟩
  · simp only [hlt, if_false, Nat.sub_zero]
    rw [and_allOnes hdB]
    have w1 := wrappingSub_int (M := base W) (a := q') (b := base W - 1) hB (by omega) hq'lt
    have w2 : wrappingSub (base W) r' d = r' - d := by
      unfold wrappingSub
      have : r' + base W - d = (r' - d) + base W := by omega
      rw [this, Nat.add_mod_right, Nat.mod_eq_of_lt (by omega)]
    rw [w2]
    apply finish _ _ w1.1 (by omega)
    have c1 : ((base W - 1 : Nat) : Int) = base W - 1 := by
      rw [Nat.cast_sub (show 1 ≤ base W from hB)]; simp
    have c2 : ((r' - d : Nat) : Int) = r' - d := Nat.cast_sub (by omega)
    rw [c2]
    rcases w1.2 with hw | hw
    · refine ⟨t' + 1, ?_⟩
      rw [hw, c1, ht']; ring
    · refine ⟨t', ?_⟩
      rw [hw, c1, ht']; ring


theorem onesWord_eq {W n : Nat} (h : n ≤ W) : onesWord W n = 2 ^ n - 1 := by
  unfold onesWord
  split
  · rename_i h0; subst h0; simp
  · have e : base W = 2 ^ n * 2 ^ (W - n) := by unfold base; rw [← pow_add]; congr 1; omega
    have p : 0 < 2 ^ (W - n) := Nat.two_pow_pos _
    have p' : 0 < 2 ^ n := Nat.two_pow_pos _
    rw [e]
    rw [Nat.div_eq_of_lt_le]
    · rw [Nat.sub_mul, Nat.one_mul]; omega
    · rw [Nat.sub_add_cancel p']; 
      have := Nat.mul_pos p' p
      omega

/-- The precomputed reciprocal is right (comment at fast_divide.rs:43-45). -/
def FastDivideSmall.Valid (W : Nat) (fd : FastDivideSmall) (d : Nat) : Prop :=
  fd.divisor = d ∧ 1 < d ∧ d < base W ∧ d ≤ 2 ^ (fd.shift + 1) ∧ fd.m < base W ∧
    ∃ k, 1 ≤ k ∧ k ≤ d ∧ d * (base W + fd.m) = base W * 2 ^ (fd.shift + 1) + k

theorem FastDivideSmall.new_spec {W d : Nat} (hd1 : 1 < d) (hd : d < base W) :
    Returns (FastDivideSmall.new W d) fun fd => fd.Valid W d := by
  unfold FastDivideSmall.new
  refine Returns.bind (returns_assertR hd1) fun _ _ => ?_
  have hB := base_pos W
  have hc : ceilLog2 d = .ok (bitLen (d - 1)) := by unfold ceilLog2; rw [if_neg (by omega)]
  rw [hc]
  refine Returns.bind (P := fun n => n = bitLen (d - 1)) (by simp) ?_
  intro n hn
  have hnW : n ≤ W := by rw [hn]; exact bitLen_le_iff.mpr (by unfold base at hd; omega)
  have hn1 : 1 ≤ n := by rw [hn]; exact bitLen_pos (by omega)
  have hdn : d ≤ 2 ^ n := by
    have := lt_two_pow_bitLen (d - 1); rw [← hn] at this; omega
  have hdn2 : 2 ^ (n - 1) < d := by
    have := two_pow_le_of_bitLen (x := d - 1) (by omega); rw [← hn] at this; omega
  have hpow : 2 ^ n = 2 * 2 ^ (n - 1) := by rw [← pow_succ']; congr 1; omega
  rw [onesWord_eq hnW]
  have hck : ckSub (2 ^ n - 1) (d - 1) = .ok (2 ^ n - d) := by
    unfold ckSub; rw [if_pos (by omega)]; congr 1; omega
  rw [hck]
  refine Returns.bind (P := fun x => x = 2 ^ n - d) (by simp) ?_
  rintro x rfl
  simp only [splitDoubleWord, doubleWord, Nat.zero_add]
  set x := 2 ^ n - d with hx
  have hxd : x + 2 ≤ d := by omega
  have hdpos : 0 < d := by omega
  have hdm := Nat.div_add_mod (base W * x) d
  have hml := Nat.mod_lt (base W * x) hdpos
  set q := base W * x / d
  set r := base W * x % d
  have hq : q + 2 ≤ base W := by
    by_contra hcon
    have h1 : d * (base W - 1) ≤ d * q := Nat.mul_le_mul_left _ (by omega)
    have h2 : base W * (x + 2) ≤ base W * d := Nat.mul_le_mul_left _ hxd
    rw [Nat.mul_sub, Nat.mul_one] at h1
    rw [Nat.mul_add] at h2
    have h3 : d * base W = base W * d := Nat.mul_comm _ _
    omega
  rw [Nat.mod_eq_of_lt (by omega : q < base W)]
  have hck2 : ckSub n 1 = .ok (n - 1) := by unfold ckSub; rw [if_pos hn1]
  have hck3 : ckAdd W q 1 = .ok (q + 1) := by
    unfold ckAdd; rw [if_pos]; unfold base at hq; omega
  rw [hck2, hck3]
  simp only [bind, Except.bind, returns_ok]
  have hs : n - 1 + 1 = n := by omega
  refine ⟨rfl, hd1, hd, by simp only; rw [hs]; exact hdn, by simp only; omega, d - r, by omega, by omega, ?_⟩
  simp only
  rw [hs]
  have e : 2 ^ n = x + d := by omega
  rw [e]
  have hr : r ≤ d := hml.le
  zify [hr] at *
  linear_combination hdm

theorem FastDivideSmall.divRem_spec {W d a : Nat} {fd : FastDivideSmall} (h : fd.Valid W d)
    (ha : a < base W) : fd.divRem W a = .ok (a / d, a % d) := by
  obtain ⟨h1, hd1, hdB, hdn, hm, k, hk1, hkd, he⟩ := h
  have hB := base_pos W
  have hdpos : 0 < d := by omega
  unfold FastDivideSmall.divRem
  simp only [splitDoubleWord]
  set t := fd.m * a / base W with ht
  have hta : t ≤ a := by
    rw [ht]
    apply Nat.div_le_of_le_mul
    exact Nat.mul_le_mul_right _ hm.le
  have hck1 : ckSub a t = .ok (a - t) := by unfold ckSub; rw [if_pos hta]
  have hck2 : ckAdd W t ((a - t) / 2) = .ok (t + (a - t) / 2) := by
    unfold ckAdd; rw [if_pos]; unfold base at ha; omega
  have hq : (t + (a - t) / 2) / 2 ^ fd.shift = a / d := by
    have e1 : t + (a - t) / 2 = (t + a) / 2 := by omega
    rw [e1, Nat.div_div_eq_div_mul, ← pow_succ']
    have e2 : t + a = (base W + fd.m) * a / base W := by
      rw [Nat.add_mul, Nat.add_comm (base W * a), Nat.add_mul_div_left _ _ hB]
    rw [e2, Nat.div_div_eq_div_mul]
    have hadm := Nat.div_add_mod a d
    have hml := Nat.mod_lt a hdpos
    set Q := a / d
    set N := 2 ^ (fd.shift + 1)
    have e3 : d * ((base W + fd.m) * a) = base W * N * a + k * a := by
      rw [← Nat.mul_assoc, he]; ring
    apply Nat.div_eq_of_lt_le
    · refine le_of_mul_le_mul_left (a := d) ?_ hdpos
      rw [e3]
      have : d * (Q * (base W * N)) = base W * N * (d * Q) := by ring
      rw [this]
      have : base W * N * (d * Q) ≤ base W * N * a := Nat.mul_le_mul_left _ (by omega)
      omega
    · refine Nat.lt_of_mul_lt_mul_left (a := d) ?_
      rw [e3]
      have e4 : d * ((Q + 1) * (base W * N)) = base W * N * (d * Q + d) := by ring
      rw [e4]
      have h5 : base W * N * (a + 1) ≤ base W * N * (d * Q + d) := Nat.mul_le_mul_left _ (by omega)
      have h6 : k * a ≤ N * a := Nat.mul_le_mul_right _ (by omega)
      have h7 : N * a < N * base W := Nat.mul_lt_mul_of_pos_left ha (Nat.two_pow_pos _)
      have h8 : base W * N * (a + 1) = base W * N * a + N * base W := by ring
      omega
  have hadm := Nat.div_add_mod a d
  have hck3 : ckMul W (a / d) d = .ok (a / d * d) := by
    unfold ckMul; rw [if_pos]; unfold base at ha
    have : a / d * d = d * (a / d) := Nat.mul_comm _ _
    omega
  have hck4 : ckSub a (a / d * d) = .ok (a % d) := by
    have : a / d * d = d * (a / d) := Nat.mul_comm _ _
    unfold ckSub; rw [if_pos (by omega)]; congr 1; omega
  simp only [bind, Except.bind, hck1, hck2, hq, h1, hck3, hck4]

end Ibig
