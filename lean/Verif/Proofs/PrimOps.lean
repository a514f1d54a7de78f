import Verif.Model.PrimOps
import Verif.Proofs.Convert
import Verif.Proofs.IDivOps
import Verif.Proofs.IBits
/-! Operators mixing big numbers with primitive integers. -/
namespace Ibig

theorem UBig.WF.fits_le {cfg : Cfg} (hv : cfg.Valid) {a : UBig} (ha : a.WF cfg) {n : Nat}
    (h : n ≤ a.value cfg) : Fits cfg n := (ha.fits hv).mono h

theorem ofIBigPanic_yields {cfg : Cfg} {x : R IBig} {z : Int} (h : IYields cfg x z) :
    SYields cfg (do let y ← x; UBig.ofIBigPanic y) z := by
  refine ⟨fun h0 => ⟨fun hf => ?_, fun hf => ?_⟩, fun h0 hf => ?_, fun h0 hf => ?_⟩
  · obtain ⟨c, h1, h2, h3⟩ := h.1 (by rwa [show z.natAbs = z.toNat by omega])
    obtain ⟨u, g1, g2, g3⟩ := (UBig.ofIBigPanic_spec h2).1 (by omega)
    exact ⟨u, by rw [h1]; exact g1, g2, by omega⟩
  · rw [h.2 (by rwa [show z.natAbs = z.toNat by omega])]; rfl
  · obtain ⟨c, h1, h2, h3⟩ := h.1 hf
    rw [h1]; exact (UBig.ofIBigPanic_spec h2).2 (by omega)
  · rw [h.2 hf]; rfl

theorem UBig.viaIBig_spec {cfg : Cfg} (hv : cfg.Valid) (o : Own) {op : IBig → IBig → R IBig}
    {a : UBig} (ha : a.WF cfg) {b : Nat} (hb : PBits b) {z w : Int} (hz : (PTy.i b).InRange z)
    (h : ∀ l r : IBig, l.WF cfg → r.WF cfg → l.value cfg = a.value cfg → r.value cfg = z →
      IYields cfg (op l r) w) : SYields cfg (UBig.viaIBig cfg o op a b z) w := by
  obtain ⟨l, h1, h2, h3⟩ := IBig.ofUBigOwn_spec hv o ha
  obtain ⟨r, g1, g2, g3⟩ := IBig.fromSigned_spec hv hb hz
  unfold UBig.viaIBig
  rw [h1, g1]
  exact ofIBigPanic_yields (h l r h2 g2 h3 g3)

/-- the form of the division operators -/
theorem UBig.viaIBig_div {cfg : Cfg} (hv : cfg.Valid) (o : Own) {op : IBig → IBig → R IBig}
    {a : UBig} (ha : a.WF cfg) {b : Nat} (hb : PBits b) {z w : Int} (hz : (PTy.i b).InRange z)
    (h : ∀ l r : IBig, l.WF cfg → r.WF cfg → l.value cfg = a.value cfg → r.value cfg = z →
      IDivYields cfg (op l r) z w) :
    (z ≠ 0 → SYields cfg (UBig.viaIBig cfg o op a b z) w) ∧
    (z = 0 → UBig.viaIBig cfg o op a b z = .error .divideByZero) := by
  constructor
  · intro h0
    refine UBig.viaIBig_spec hv o ha hb hz fun l r hl hr e1 e2 => ?_
    obtain ⟨c, h1, h2, h3⟩ := (h l r hl hr e1 e2).1 h0
    rw [← h3]
    exact iyields_of_ok (h2.fits hv) ⟨c, h1, h2, rfl⟩
  · intro h0
    obtain ⟨l, h1, h2, h3⟩ := IBig.ofUBigOwn_spec hv o ha
    obtain ⟨r, g1, g2, g3⟩ := IBig.fromSigned_spec hv hb hz
    unfold UBig.viaIBig
    rw [h1, g1]
    show (do let x ← op l r; _) = _
    rw [(h l r h2 g2 h3 g3).2 h0]; rfl

theorem IBig.viaPrim_spec {cfg : Cfg} (hv : cfg.Valid) {α : Type} {op : IBig → IBig → R α}
    {a : IBig} {t : PTy} (ht : t.Valid) {z : Int} (hz : t.InRange z) {P : R α → Prop}
    (h : ∀ r : IBig, r.WF cfg → r.value cfg = z → P (op a r)) : P (IBig.viaPrim cfg op a t z) := by
  obtain ⟨r, g1, g2, g3⟩ := IBig.fromPrim_spec hv ht hz
  unfold IBig.viaPrim
  rw [g1]
  exact h r g2 g3

theorem UBig.tryToUnsigned_unwrap {cfg : Cfg} (hv : cfg.Valid) {b : Nat} (hb : PBits b) {a : UBig}
    (ha : a.WF cfg) (h : a.value cfg < 2 ^ b) :
    (do let t ← a.tryToUnsigned cfg b; unwrapR t) = .ok (a.value cfg) := by
  rw [UBig.tryToUnsigned_spec hv hb ha, if_pos h]; rfl

theorem IBig.tryToSigned_unwrap {cfg : Cfg} (hv : cfg.Valid) {b : Nat} (hb : PBits b) {a : IBig}
    (ha : a.WF cfg) (h : (PTy.i b).InRange (a.value cfg)) :
    (do let t ← a.tryToSigned cfg b; unwrapR t) = .ok (a.value cfg) := by
  have := (IBig.tryToPrim_spec hv (t := .i b) hb ha).1 h
  unfold IBig.tryToPrim at this
  simp only at this
  rw [this]; rfl

theorem IBig.tryToPrim_unwrap {cfg : Cfg} (hv : cfg.Valid) {t : PTy} (ht : t.Valid) {a : IBig}
    (ha : a.WF cfg) (h : t.InRange (a.value cfg)) :
    (do let r ← a.tryToPrim cfg t; unwrapR r) = .ok (a.value cfg) := by
  rw [(IBig.tryToPrim_spec hv ht ha).1 h]; rfl

/-- a remainder by a value of a signed type is a value of that type -/
theorem tmod_inRange {b : Nat} {a z : Int} (hz : (PTy.i b).InRange z) (h0 : z ≠ 0) :
    (PTy.i b).InRange (a.tmod z) := by
  obtain ⟨h1, h2⟩ := hz
  have h3 : (a.tmod z).natAbs < z.natAbs := by
    rw [Int.natAbs_tmod]; exact Nat.mod_lt _ (by omega)
  have h4 : z.natAbs ≤ 2 ^ (b - 1) := by
    have : ((2 ^ (b - 1) : Nat) : Int) = 2 ^ (b - 1) := by push_cast; rfl
    omega
  have : ((2 ^ (b - 1) : Nat) : Int) = 2 ^ (b - 1) := by push_cast; rfl
  constructor <;> omega

theorem emod_inRange {t : PTy} {a z : Int} (hz : t.InRange z) (h0 : z ≠ 0) :
    t.InRange (a % z) := by
  have h1 := Int.emod_nonneg a h0
  have h2 := Int.emod_lt_abs a h0
  rw [Int.abs_eq_natAbs] at h2
  cases t with
  | u b =>
    obtain ⟨h3, h4⟩ := hz
    exact ⟨h1, by omega⟩
  | i b =>
    obtain ⟨h3, h4⟩ := hz
    have : (0 : Int) < 2 ^ (b - 1) := by positivity
    exact ⟨by omega, by omega⟩

/-- an integer whose bits vanish from position `n` on is a natural number below `2^n` -/
theorem ibit_bound {z : Int} {n : Nat} (h : ∀ i, n ≤ i → ibit z i = false) : 0 ≤ z ∧ z < 2 ^ n := by
  have h0 : 0 ≤ z := by
    by_contra hc
    obtain ⟨m, hm⟩ := Int.eq_ofNat_of_zero_le (show 0 ≤ -z - 1 by omega)
    have := ibit_not z (max n m)
    rw [hm, h _ (le_max_left _ _)] at this
    simp only [Int.ofNat_eq_natCast, ibit_natCast] at this
    rw [Nat.testBit_lt_two_pow (lt_of_lt_of_le Nat.lt_two_pow_self
      (Nat.pow_le_pow_right (by norm_num) (le_max_right n m)))] at this
    simp at this
  refine ⟨h0, ?_⟩
  obtain ⟨k, rfl⟩ := Int.eq_ofNat_of_zero_le h0
  simp only [Int.ofNat_eq_natCast, ibit_natCast] at *
  have := Nat.lt_pow_two_of_testBit k h
  exact_mod_cast this

theorem testBit_ge_false {x b i : Nat} (hx : x < 2 ^ b) (hi : b ≤ i) : x.testBit i = false :=
  Nat.testBit_lt_two_pow (lt_of_lt_of_le hx (Nat.pow_le_pow_right (by norm_num) hi))

theorem inRange_unsigned {b x : Nat} (hx : x < 2 ^ b) : (PTy.u b).InRange (x : Int) := by
  refine ⟨by omega, ?_⟩
  exact_mod_cast hx

theorem fits_two_pow {cfg : Cfg} (hv : cfg.Valid) {b n : Nat} (hb : PBits b) (hn : n < 2 ^ b) :
    Fits cfg n := (UBig.fromUnsigned_spec hv hb.eight hb.le hn).2

theorem returns_syields {cfg : Cfg} (hv : cfg.Valid) {x : R UBig} {c : UBig} (h1 : x = .ok c)
    (h2 : c.WF cfg) : SYields cfg x (c.value cfg : Int) := by
  refine ⟨fun _ => ⟨fun _ => ⟨c, h1, h2, by omega⟩, fun hf => absurd ?_ hf⟩, fun h => by omega,
    fun h => by omega⟩
  have := h2.fits hv
  rwa [Int.toNat_natCast]

end Ibig
