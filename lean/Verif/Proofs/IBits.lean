import Verif.Spec.Bits
import Verif.Proofs.Bits
/-! Bitwise operations and right shift of `IBig` (/repo/src/bits.rs, shift_ops.rs). -/
namespace Ibig

theorem ibit_natCast (n i : Nat) : ibit (n : Int) i = n.testBit i := by
  rw [Nat.testBit_eq_decide_div_mod_eq]
  unfold ibit
  have : (n : Int) / 2 ^ i % 2 = ((n / 2 ^ i % 2 : Nat) : Int) := by push_cast; rfl
  rw [this]
  congr 1
  rw [eq_iff_iff]
  omega

theorem neg_sub_one_ediv (z : Int) (i : Nat) : (-z - 1) / 2 ^ i = -(z / 2 ^ i) - 1 := by
  have hp : (0 : Int) < 2 ^ i := by positivity
  have h1 := Int.emod_add_mul_ediv z (2 ^ i)
  have h2 := Int.emod_nonneg z hp.ne'
  have h3 := Int.emod_lt_of_pos z hp
  refine ((Int.ediv_emod_unique'' hp.ne' (r := 2 ^ i - 1 - z % 2 ^ i)).mpr ⟨?_, ?_, ?_⟩).1
  · linarith
  · linarith
  · rw [abs_of_pos hp]; linarith

theorem ibit_not (z : Int) (i : Nat) : ibit (-z - 1) i = !ibit z i := by
  unfold ibit
  rw [neg_sub_one_ediv]
  generalize z / 2 ^ i = q
  rw [← decide_not]
  congr 1
  rw [eq_iff_iff]
  omega

/-- Two integers with the same bits are equal. -/
theorem ibit_ext {a b : Int} (h : ∀ i, ibit a i = ibit b i) : a = b := by
  have key : ∀ {a b : Int}, 0 ≤ a → (∀ i, ibit a i = ibit b i) → a = b := by
    intro a b ha h
    obtain ⟨n, rfl⟩ := Int.eq_ofNat_of_zero_le ha
    by_cases hb : 0 ≤ b
    · obtain ⟨m, rfl⟩ := Int.eq_ofNat_of_zero_le hb
      congr 1
      exact Nat.eq_of_testBit_eq fun i => by simpa [ibit_natCast] using h i
    · obtain ⟨m, hm⟩ := Int.eq_ofNat_of_zero_le (show 0 ≤ -b - 1 by omega)
      have hb' : b = -(m : Int) - 1 := by omega
      subst hb'
      have := h (n + m)
      rw [ibit_not, ibit_natCast, ibit_natCast,
        Nat.testBit_lt_two_pow (lt_of_lt_of_le (Nat.lt_two_pow_self (n := n))
          (Nat.pow_le_pow_right (by norm_num) (by omega))),
        Nat.testBit_lt_two_pow (lt_of_lt_of_le (Nat.lt_two_pow_self (n := m))
          (Nat.pow_le_pow_right (by norm_num) (by omega)))] at this
      simp at this
  by_cases ha : 0 ≤ a
  · exact key ha h
  · have := key (a := -a - 1) (b := -b - 1) (by omega) fun i => by rw [ibit_not, ibit_not, h]
    omega

theorem IBig.value_of_pos {cfg : Cfg} {x : IBig} (h : x.sign = .pos) :
    x.value cfg = (x.mag.value cfg : Int) := by simp [IBig.value, h, Sign.toInt]
theorem IBig.value_of_neg {cfg : Cfg} {x : IBig} (h : x.sign = .neg) :
    x.value cfg = -(x.mag.value cfg : Int) := by simp [IBig.value, h, Sign.toInt]

theorem IBig.WF.pos_of_neg {cfg : Cfg} {x : IBig} (hx : x.WF cfg) (h : x.sign = .neg) :
    0 < x.mag.value cfg := by
  by_contra hc
  have := hx.zero (by omega)
  rw [h] at this; cases this

theorem iOne_spec {cfg : Cfg} (hv : cfg.Valid) :
    (IBig.ofUBig (.small 1)).WF cfg ∧ (IBig.ofUBig (.small 1)).value cfg = 1 := by
  have := IBig.ofUBig_spec hv (wf_small (cfg := cfg) (w := 1) (by have := two_le_base hv.W1; omega))
  simpa [UBig.value] using this

theorem IBig.not_spec {cfg : Cfg} (hv : cfg.Valid) (o : Own) {x : IBig} (hx : x.WF cfg) :
    IYields cfg (x.not cfg o) (-x.value cfg - 1) := by
  have h1 := iOne_spec hv
  have := IBig.add_spec hv o .val hx h1.1
  rw [h1.2] at this
  exact negR_spec hv this (by ring)

/-- `(!x).unsigned_abs()` of a negative number -/
theorem IBig.notAbs_spec {cfg : Cfg} (hv : cfg.Valid) (o : Own) {x : IBig} (hx : x.WF cfg)
    (hs : x.sign = .neg) :
    Returns (x.notAbs cfg o) fun n => n.WF cfg ∧
      ∀ i, ibit (x.value cfg) i = !(n.value cfg).testBit i := by
  have hp := hx.pos_of_neg hs
  have hval := IBig.value_of_neg (cfg := cfg) hs
  have hfit : Fits cfg (-x.value cfg - 1).natAbs :=
    (hx.mag.fits hv).mono (by rw [hval]; omega)
  unfold IBig.notAbs
  refine Returns.bind ((IBig.not_spec hv o hx).returns hfit) ?_
  rintro y ⟨h1, h2⟩
  refine returns_ok.mpr ⟨h1.mag, fun i => ?_⟩
  have h3 := IBig.natAbs_value (cfg := cfg) y
  have h4 : ((y.mag.value cfg : Nat) : Int) = -x.value cfg - 1 := by
    rw [← h3, h2, hval]; omega
  rw [← ibit_natCast, h4, ibit_not, Bool.not_not]

/-- The computation produces exactly the integer whose two's complement bits are `p`. -/
def IBitYields (cfg : Cfg) (x : R IBig) (p : Nat → Bool) : Prop :=
  ∃ z : Int, (∀ i, ibit z i = p i) ∧ IYields cfg x z

theorem IBitYields.of_bind {α : Type} {cfg : Cfg} {x : R α} {f : α → R IBig} {p : Nat → Bool}
    {P : α → Prop} (hx : Returns x P) (hf : ∀ a, P a → IBitYields cfg (f a) p) :
    IBitYields cfg (x >>= f) p := by
  obtain ⟨a, rfl, ha⟩ := hx
  exact hf a ha

theorem ofUBigR_bits {cfg : Cfg} (hv : cfg.Valid) {m : R UBig} {p q : Nat → Bool}
    (h : BitYields cfg m p) (hq : ∀ i, q i = p i) : IBitYields cfg (ofUBigR m) q := by
  obtain ⟨c, rfl, h1, h2⟩ := h
  refine ⟨(c.value cfg : Int), fun i => by rw [ibit_natCast, h2, hq], ?_⟩
  exact ofUBigR_spec hv (yields_of_ok (h1.fits hv) (returns_ok.mpr ⟨h1, rfl⟩)) rfl

theorem notOfUBig_bits {cfg : Cfg} (hv : cfg.Valid) {m : R UBig} {p q : Nat → Bool}
    (h : BitYields cfg m p) (hq : ∀ i, q i = !p i) : IBitYields cfg (notOfUBig cfg m) q := by
  obtain ⟨c, rfl, h1, h2⟩ := h
  have h3 := IBig.ofUBig_spec hv h1
  have h4 := IBig.not_spec hv .val h3.1
  refine ⟨_, fun i => ?_, h4⟩
  rw [ibit_not, h3.2, ibit_natCast, h2, hq]

theorem ibit_of_pos {cfg : Cfg} {x : IBig} (h : x.sign = .pos) (i : Nat) :
    ibit (x.value cfg) i = (x.mag.value cfg).testBit i := by
  rw [IBig.value_of_pos h, ibit_natCast]

theorem IBig.bitandGen_spec {cfg : Cfg} (hv : cfg.Valid) (o1 o2 : Own) {x y : IBig} (hx : x.WF cfg)
    (hy : y.WF cfg) : IBitYields cfg (IBig.bitandGen cfg o1 o2 x y) fun i =>
      ibit (x.value cfg) i && ibit (y.value cfg) i := by
  unfold IBig.bitandGen
  rcases hsx : x.sign <;> rcases hsy : y.sign <;> simp only
  · exact ofUBigR_bits hv (UBig.bitand_spec hv o1 o2 hx.mag hy.mag) fun i => by
      rw [ibit_of_pos hsx, ibit_of_pos hsy]
  · refine IBitYields.of_bind (IBig.notAbs_spec hv o2 hy hsy) fun n hn => ?_
    exact ofUBigR_bits hv (UBig.andNot_spec hv o1 .val hx.mag hn.1) fun i => by
      rw [ibit_of_pos hsx, hn.2]
  · refine IBitYields.of_bind (IBig.notAbs_spec hv o1 hx hsx) fun n hn => ?_
    exact ofUBigR_bits hv (UBig.andNot_spec hv o2 .val hy.mag hn.1) fun i => by
      rw [ibit_of_pos hsy, hn.2, Bool.and_comm]
  · refine IBitYields.of_bind (IBig.notAbs_spec hv o1 hx hsx) fun n hn => ?_
    refine IBitYields.of_bind (IBig.notAbs_spec hv o2 hy hsy) fun m hm => ?_
    exact notOfUBig_bits hv (UBig.bitor_spec hv .val .val hn.1 hm.1) fun i => by
      rw [hn.2, hm.2, Bool.not_or]

theorem IBig.bitorGen_spec {cfg : Cfg} (hv : cfg.Valid) (o1 o2 : Own) {x y : IBig} (hx : x.WF cfg)
    (hy : y.WF cfg) : IBitYields cfg (IBig.bitorGen cfg o1 o2 x y) fun i =>
      ibit (x.value cfg) i || ibit (y.value cfg) i := by
  unfold IBig.bitorGen
  rcases hsx : x.sign <;> rcases hsy : y.sign <;> simp only
  · exact ofUBigR_bits hv (UBig.bitor_spec hv o1 o2 hx.mag hy.mag) fun i => by
      rw [ibit_of_pos hsx, ibit_of_pos hsy]
  · refine IBitYields.of_bind (IBig.notAbs_spec hv o2 hy hsy) fun n hn => ?_
    exact notOfUBig_bits hv (UBig.andNot_spec hv .val o1 hn.1 hx.mag) fun i => by
      rw [ibit_of_pos hsx, hn.2, Bool.not_and, Bool.not_not, Bool.or_comm]
  · refine IBitYields.of_bind (IBig.notAbs_spec hv o1 hx hsx) fun n hn => ?_
    exact notOfUBig_bits hv (UBig.andNot_spec hv .val o2 hn.1 hy.mag) fun i => by
      rw [ibit_of_pos hsy, hn.2, Bool.not_and, Bool.not_not]
  · refine IBitYields.of_bind (IBig.notAbs_spec hv o1 hx hsx) fun n hn => ?_
    refine IBitYields.of_bind (IBig.notAbs_spec hv o2 hy hsy) fun m hm => ?_
    exact notOfUBig_bits hv (UBig.bitand_spec hv .val .val hn.1 hm.1) fun i => by
      rw [hn.2, hm.2, Bool.not_and]

theorem IBig.bitxorGen_spec {cfg : Cfg} (hv : cfg.Valid) (o1 o2 : Own) {x y : IBig} (hx : x.WF cfg)
    (hy : y.WF cfg) : IBitYields cfg (IBig.bitxorGen cfg o1 o2 x y) fun i =>
      (ibit (x.value cfg) i ^^ ibit (y.value cfg) i) := by
  unfold IBig.bitxorGen
  rcases hsx : x.sign <;> rcases hsy : y.sign <;> simp only
  · exact ofUBigR_bits hv (UBig.bitxor_spec hv o1 o2 hx.mag hy.mag) fun i => by
      rw [ibit_of_pos hsx, ibit_of_pos hsy]
  · refine IBitYields.of_bind (IBig.notAbs_spec hv o2 hy hsy) fun n hn => ?_
    exact notOfUBig_bits hv (UBig.bitxor_spec hv o1 .val hx.mag hn.1) fun i => by
      rw [ibit_of_pos hsx, hn.2]; simp
  · refine IBitYields.of_bind (IBig.notAbs_spec hv o1 hx hsx) fun n hn => ?_
    exact notOfUBig_bits hv (UBig.bitxor_spec hv .val o2 hn.1 hy.mag) fun i => by
      rw [ibit_of_pos hsy, hn.2]; simp
  · refine IBitYields.of_bind (IBig.notAbs_spec hv o1 hx hsx) fun n hn => ?_
    refine IBitYields.of_bind (IBig.notAbs_spec hv o2 hy hsy) fun m hm => ?_
    exact ofUBigR_bits hv (UBig.bitxor_spec hv .val .val hn.1 hm.1) fun i => by
      rw [hn.2, hm.2]; simp

/-- `a.and_not(b)` acts bit by bit on two's complement. -/
theorem IBig.andNot_spec {cfg : Cfg} (hv : cfg.Valid) (o1 o2 : Own) {x y : IBig} (hx : x.WF cfg)
    (hy : y.WF cfg) : IBitYields cfg (IBig.andNot cfg o1 o2 x y) fun i =>
      ibit (x.value cfg) i && !ibit (y.value cfg) i := by
  unfold IBig.andNot
  rcases hsx : x.sign <;> rcases hsy : y.sign <;> simp only
  · exact ofUBigR_bits hv (UBig.andNot_spec hv o1 o2 hx.mag hy.mag) fun i => by
      rw [ibit_of_pos hsx, ibit_of_pos hsy]
  · refine IBitYields.of_bind (IBig.notAbs_spec hv o2 hy hsy) fun n hn => ?_
    exact ofUBigR_bits hv (UBig.bitand_spec hv o1 .val hx.mag hn.1) fun i => by
      rw [ibit_of_pos hsx, hn.2, Bool.not_not]
  · refine IBitYields.of_bind (IBig.notAbs_spec hv o1 hx hsx) fun n hn => ?_
    exact notOfUBig_bits hv (UBig.bitor_spec hv .val o2 hn.1 hy.mag) fun i => by
      rw [ibit_of_pos hsy, hn.2, Bool.not_or]
  · refine IBitYields.of_bind (IBig.notAbs_spec hv o2 hy hsy) fun m hm => ?_
    refine IBitYields.of_bind (IBig.notAbs_spec hv o1 hx hsx) fun n hn => ?_
    exact ofUBigR_bits hv (UBig.andNot_spec hv .val .val hm.1 hn.1) fun i => by
      rw [hn.2, hm.2, Bool.not_not, Bool.and_comm]

theorem IBitYields.congr {cfg : Cfg} {x : R IBig} {p q : Nat → Bool} (h : IBitYields cfg x p)
    (hpq : ∀ i, p i = q i) : IBitYields cfg x q := by
  have : p = q := funext hpq
  rwa [← this]

/-- `a & b` acts bit by bit on two's complement. -/
theorem IBig.bitand_spec {cfg : Cfg} (hv : cfg.Valid) (o1 o2 : Own) {x y : IBig} (hx : x.WF cfg)
    (hy : y.WF cfg) : IBitYields cfg (IBig.bitand cfg o1 o2 x y) fun i =>
      ibit (x.value cfg) i && ibit (y.value cfg) i := by
  cases o1 <;> cases o2
  · exact IBig.bitandGen_spec hv .val .val hx hy
  · exact IBig.bitandGen_spec hv .val .ref hx hy
  · exact (IBig.bitandGen_spec hv .val .ref hy hx).congr fun i => Bool.and_comm ..
  · exact IBig.bitandGen_spec hv .ref .ref hx hy

/-- `a | b` acts bit by bit on two's complement. -/
theorem IBig.bitor_spec {cfg : Cfg} (hv : cfg.Valid) (o1 o2 : Own) {x y : IBig} (hx : x.WF cfg)
    (hy : y.WF cfg) : IBitYields cfg (IBig.bitor cfg o1 o2 x y) fun i =>
      ibit (x.value cfg) i || ibit (y.value cfg) i := by
  cases o1 <;> cases o2
  · exact IBig.bitorGen_spec hv .val .val hx hy
  · exact IBig.bitorGen_spec hv .val .ref hx hy
  · exact (IBig.bitorGen_spec hv .val .ref hy hx).congr fun i => Bool.or_comm ..
  · exact IBig.bitorGen_spec hv .ref .ref hx hy

/-- `a ^ b` acts bit by bit on two's complement. -/
theorem IBig.bitxor_spec {cfg : Cfg} (hv : cfg.Valid) (o1 o2 : Own) {x y : IBig} (hx : x.WF cfg)
    (hy : y.WF cfg) : IBitYields cfg (IBig.bitxor cfg o1 o2 x y) fun i =>
      (ibit (x.value cfg) i ^^ ibit (y.value cfg) i) := by
  cases o1 <;> cases o2
  · exact IBig.bitxorGen_spec hv .val .val hx hy
  · exact IBig.bitxorGen_spec hv .val .ref hx hy
  · exact (IBig.bitxorGen_spec hv .val .ref hy hx).congr fun i => Bool.xor_comm ..
  · exact IBig.bitxorGen_spec hv .ref .ref hx hy

/-! ### Right shift -/

theorem ones_spec {bits n : Nat} (h : n ≤ bits) : ones bits n = .ok (2 ^ n - 1) := by
  unfold ones
  by_cases h0 : n = 0
  · simp [h0]
  · rw [if_neg h0, ckSub_ok h]
    show Except.ok ((2 ^ bits - 1) / 2 ^ (bits - n)) = _
    congr 1
    have e : 2 ^ bits = 2 ^ (bits - n) * 2 ^ n := by rw [← pow_add]; congr 1; omega
    have h1 := Nat.one_le_two_pow (n := n)
    have h2 := Nat.one_le_two_pow (n := bits - n)
    rw [e]
    generalize 2 ^ (bits - n) = A at *
    obtain ⟨m, hm⟩ : ∃ m, 2 ^ n = m + 1 := ⟨2 ^ n - 1, by omega⟩
    rw [hm]
    rw [show A * (m + 1) - 1 = (A - 1) + A * m by rw [Nat.mul_add]; omega,
      Nat.add_mul_div_left _ _ (by omega), Nat.div_eq_of_lt (by omega)]
    omega

theorem any_ne_zero {W : Nat} {l : List Nat} : l.any (fun x => x != 0) = true ↔ val W l ≠ 0 := by
  have hB := base_pos W
  induction l with
  | nil => simp
  | cons x l ih =>
    simp only [List.any_cons, Bool.or_eq_true, ih, val_cons, bne_iff_ne]
    constructor
    · rintro (h | h)
      · omega
      · have := Nat.mul_pos hB (Nat.pos_of_ne_zero h); omega
    · intro h
      by_cases hx : x = 0
      · right; intro h'; apply h; rw [hx, h']; ring
      · exact Or.inl hx

theorem UBig.areLowBitsNonzero_spec {cfg : Cfg} (hv : cfg.Valid) {a : UBig} (ha : a.WF cfg) (n : Nat) :
    a.areLowBitsNonzero cfg n = .ok (decide (a.value cfg % 2 ^ n ≠ 0)) := by
  have hW := hv.W1
  cases a with
  | small w =>
    simp only [UBig.areLowBitsNonzero, UBig.value]
    rw [ones_spec (Nat.min_le_right _ _)]
    show Except.ok _ = _
    congr 2
    simp only [Nat.and_two_pow_sub_one_eq_mod]
    by_cases hn : n ≤ cfg.W
    · rw [Nat.min_eq_left hn]
    · have hw : w < 2 ^ cfg.W := ha
      rw [Nat.min_eq_right (by omega), Nat.mod_eq_of_lt hw, Nat.mod_eq_of_lt
        (lt_of_lt_of_le hw (Nat.pow_le_pow_right (by norm_num) (by omega)))]
  | large b =>
    have hval : (UBig.large b).value cfg = val cfg.W b.words := rfl
    rw [hval]
    simp only [UBig.areLowBitsNonzero]
    by_cases hl : b.len ≤ n / cfg.W
    · rw [if_pos hl]
      unfold Buffer.len at hl
      have h1 := Buffer.WF.ge_base ha
      have h2 := base_pos cfg.W
      have h3 := shr_long (Buffer.WF.words ha) hl
      have h4 := Nat.div_add_mod (val cfg.W b.words) (2 ^ n)
      rw [h3] at h4
      simp only [mul_zero, zero_add] at h4
      rw [h4, decide_eq_true (by omega)]
    · rw [if_neg hl]
      unfold Buffer.len at hl
      have hw := Buffer.WF.words ha
      have hmod : n % cfg.W < cfg.W := Nat.mod_lt _ (by omega)
      obtain ⟨x, y, e, hx⟩ := exists_split (l := b.words) (n := n / cfg.W) (by omega)
      rcases y with _ | ⟨w, y⟩
      · rw [e] at hl; simp at hl; omega
      rw [sliceR_ok (by omega) (by omega), ones_spec hmod.le, getR_ok (by omega)]
      have e1 : b.words.take (n / cfg.W) = x := by rw [e, ← hx]; simp
      have e2 : b.words[n / cfg.W]'(by omega) = w := by
        simp only [e, ← hx]; simp
      have e3 : val cfg.W b.words % 2 ^ n = val cfg.W x + base cfg.W ^ (n / cfg.W) * (w % 2 ^ (n % cfg.W)) := by
        rw [e, val_append, hx, shift_split cfg.W n, Nat.mod_mul]
        rw [Nat.add_mul_mod_self_left, Nat.add_mul_div_left _ _ (base_pow_pos _ _)]
        rw [e, isWords_append] at hw
        have hlt := val_lt hw.1
        rw [hx] at hlt
        rw [Nat.mod_eq_of_lt hlt, Nat.div_eq_of_lt hlt, Nat.zero_add, val_cons,
          base_split hmod.le, Nat.mul_assoc, Nat.add_mul_mod_self_left]
      rw [e3, e2]
      show (if ((b.words.take (n / cfg.W)).drop 0).any _ = true then _ else Except.ok _) = _
      rw [List.drop_zero, e1, Nat.and_two_pow_sub_one_eq_mod]
      have hp := base_pow_pos cfg.W (n / cfg.W)
      split
      · rename_i h
        rw [any_ne_zero (W := cfg.W)] at h
        rw [decide_eq_true (by omega)]
      · rename_i h
        rw [any_ne_zero (W := cfg.W), not_not] at h
        rw [h]
        congr 2
        rw [eq_iff_iff]
        generalize w % 2 ^ (n % cfg.W) = t
        rw [Nat.zero_add]
        constructor
        · intro ht hc
          exact ht ((Nat.mul_eq_zero.mp hc).resolve_left (by omega))
        · rintro h rfl; simp at h

/-- `⌊-m / 2^n⌋` in terms of natural-number division -/
theorem neg_ediv_pow (m n : Nat) :
    (-(m : Int)) / 2 ^ n = -((m / 2 ^ n : Nat) : Int) - ((decide (m % 2 ^ n ≠ 0)).toNat : Int) := by
  have hp : (0 : Int) < 2 ^ n := by positivity
  have h1 := Nat.mod_add_div m (2 ^ n)
  have h2 := Nat.mod_lt m (show 0 < 2 ^ n by positivity)
  generalize m / 2 ^ n = q at *
  generalize m % 2 ^ n = r at *
  have h1' : (m : Int) = r + 2 ^ n * q := by rw [← h1]; push_cast; ring
  have h2' : (r : Int) < 2 ^ n := by exact_mod_cast h2
  by_cases hr : r = 0
  · subst hr
    rw [h1']
    simp only [ne_eq, not_true_eq_false, decide_false, Bool.toNat_false, Int.natCast_zero, zero_add,
      sub_zero]
    rw [← mul_neg, Int.mul_ediv_cancel_left _ hp.ne']
  · simp only [ne_eq, hr, not_false_eq_true, decide_true, Bool.toNat_true]
    refine ((Int.ediv_emod_unique'' hp.ne' (r := 2 ^ n - r)).mpr ⟨?_, ?_, ?_⟩).1
    · rw [h1']; push_cast; ring
    · omega
    · rw [abs_of_pos hp]; omega

/-- `a >> n` is `⌊a / 2^n⌋`, and never panics. -/
theorem IBig.shr_spec {cfg : Cfg} (hv : cfg.Valid) (o : Own) {a : IBig} (ha : a.WF cfg) (n : Nat) :
    Returns (a.shr cfg o n) fun c => c.WF cfg ∧ c.value cfg = a.value cfg / 2 ^ n := by
  obtain ⟨m, hm, h1, h2⟩ := UBig.shr_spec hv o ha.mag n
  unfold IBig.shr
  rcases hs : a.sign <;> simp only
  · rw [hm]
    have := IBig.ofUBig_spec hv h1
    refine returns_ok.mpr ⟨this.1, ?_⟩
    rw [this.2, h2, IBig.value_of_pos hs]; push_cast; rfl
  · rw [UBig.areLowBitsNonzero_spec hv ha.mag, hm]
    have g1 := IBig.ofUBig_spec hv h1
    have g2 := IBig.neg_spec hv g1.1
    set bb := decide (a.mag.value cfg % 2 ^ n ≠ 0) with hbb
    have g3 := IBig.ofUBig_spec hv (wf_small (cfg := cfg) (w := bb.toNat)
      (by have := two_le_base hv.W1; have := Bool.toNat_le bb; omega))
    have g4 := IBig.sub_spec hv .val .val g2.1 g3.1
    have e : (IBig.ofUBig m).neg.value cfg - (IBig.ofUBig (.small bb.toNat)).value cfg
        = a.value cfg / 2 ^ n := by
      rw [g2.2, g1.2, g3.2, IBig.value_of_neg hs, neg_ediv_pow, h2]; rfl
    rw [e] at g4
    refine g4.returns ?_
    have hp := ha.pos_of_neg hs
    refine (ha.mag.fits hv).mono ?_
    rw [IBig.value_of_neg hs, neg_ediv_pow]
    have h5 := Nat.mod_add_div (a.mag.value cfg) (2 ^ n)
    have h6 := Bool.toNat_le bb
    generalize hM : a.mag.value cfg = M at *
    by_cases hq : M / 2 ^ n = 0
    · rw [hq, ← hbb]; omega
    · by_cases hr : M % 2 ^ n = 0
      · have : bb = false := by rw [hbb]; simp [hr]
        rw [← hbb, this]
        have := Nat.div_le_self M (2 ^ n)
        simp only [Bool.toNat_false]; omega
      · have h7 := Nat.mod_lt M (show 0 < 2 ^ n by positivity)
        have : M / 2 ^ n < M := by
          have : 1 * (M / 2 ^ n) ≤ 2 ^ n * (M / 2 ^ n) :=
            Nat.mul_le_mul_right _ Nat.one_le_two_pow
          omega
        rw [← hbb]; omega

end Ibig
