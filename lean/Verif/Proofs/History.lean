import Mathlib.Data.Nat.Digits.Lemmas
import Verif.Spec.History
import Verif.Props.Arith
import Verif.Props.Bits
import Verif.Props.Bytes
import Verif.Props.Gcd
import Verif.Props.Pow
import Verif.Props.Prim
import Verif.Props.Parse
import Verif.Props.Fmt
import Verif.Props.Float
import Verif.Props.NumTraits
/-! Programs refine the mathematical programs. -/
namespace Ibig

/-- `x` gives the number that `y` gives, or the same panic. -/
def RefU (cfg : Cfg) (x : R UBig) (y : R Nat) : Prop :=
  match y with
  | .ok n => ∃ c, x = .ok c ∧ c.WF cfg ∧ c.value cfg = n
  | .error p => x = .error p

/-- The same for integers. -/
def RefI (cfg : Cfg) (x : R IBig) (y : R Int) : Prop :=
  match y with
  | .ok n => ∃ c, x = .ok c ∧ c.WF cfg ∧ c.value cfg = n
  | .error p => x = .error p

/-- The same for a step of a program. -/
def RefS (cfg : Cfg) (x : R (Store UBig IBig × List Obs)) (y : R (Store Nat Int × List Obs)) : Prop :=
  match y with
  | .ok (v, o) => ∃ s, x = .ok (s, o) ∧ s.WF cfg ∧ s.values cfg = v
  | .error p => x = .error p

/-- The number of bits a number may have. -/
abbrev Cfg.bits (cfg : Cfg) : Nat := cfg.maxLen * cfg.W

theorem RefU.of_yields {cfg : Cfg} {x : R UBig} {n : Nat} (h : Yields cfg x n) : RefU cfg x (lim cfg.bits n) := by
  unfold lim
  by_cases hf : n < 2 ^ cfg.bits
  · rw [if_pos hf]; exact h.1 hf
  · rw [if_neg hf]; exact h.2 hf

theorem RefI.of_yields {cfg : Cfg} {x : R IBig} {z : Int} (h : IYields cfg x z) :
    RefI cfg x (limI cfg.bits z) := by
  unfold limI
  by_cases hf : z.natAbs < 2 ^ cfg.bits
  · rw [if_pos hf]; exact h.1 hf
  · rw [if_neg hf]; exact h.2 hf

theorem RefU.div {cfg : Cfg} {x : R UBig} {b n : Nat} (h : DivYields1 cfg x b n) :
    RefU cfg x (unlessZero b n) := by
  unfold unlessZero
  by_cases hb : b = 0
  · rw [if_pos hb]; exact h.2 hb
  · rw [if_neg hb]; exact h.1 hb

theorem RefI.div {cfg : Cfg} {x : R IBig} {b z : Int} (h : IDivYields cfg x b z) :
    RefI cfg x (unlessZero b z) := by
  unfold unlessZero
  by_cases hb : b = 0
  · rw [if_pos hb]; exact h.2 hb
  · rw [if_neg hb]; exact h.1 hb

theorem RefU.bits {cfg : Cfg} {x : R UBig} {p : Nat → Bool} {n : Nat} (h : BitYields cfg x p)
    (hn : ∀ i, n.testBit i = p i) : RefU cfg x (.ok n) := by
  obtain ⟨c, h1, h2, h3⟩ := h
  exact ⟨c, h1, h2, Nat.eq_of_testBit_eq fun i => by rw [h3, hn]⟩

theorem ibit_eq_testBit (z : Int) (i : Nat) : ibit z i = z.testBit i := by
  unfold ibit
  cases z with
  | ofNat m =>
    simp only [Int.testBit, Nat.testBit_eq_decide_div_mod_eq]
    rw [decide_eq_decide]
    simp only [Int.ofNat_eq_natCast]
    norm_cast
  | negSucc m =>
    simp only [Int.testBit, Nat.testBit_eq_decide_div_mod_eq]
    have h : Int.negSucc m / 2 ^ i = -(((m / 2 ^ i : Nat) : Int) + 1) := by
      have := Int.negSucc_ediv m (b := (2 : Int) ^ i) (by positivity)
      rw [this]
      simp only [Int.natCast_ediv, Int.natCast_pow, Int.cast_ofNat_Int, Int.div_def]
    rw [h, ← decide_not, decide_eq_decide]
    omega

theorem RefI.bits {cfg : Cfg} {x : R IBig} {p : Nat → Bool} {z : Int} (h : IBitYields cfg x p)
    (hn : ∀ i, z.testBit i = p i) : RefI cfg x (limI cfg.bits z) := by
  obtain ⟨y, h1, h2⟩ := h
  have : y = z := ibit_ext fun i => by rw [h1, ibit_eq_testBit, hn]
  subst this
  exact .of_yields h2

theorem RefU.of_syields {cfg : Cfg} {x : R UBig} {z : Int} (h : SYields cfg x z) :
    RefU cfg x (limS cfg.bits z) := by
  unfold limS
  by_cases hf : 2 ^ cfg.bits ≤ z.natAbs
  · rw [if_pos hf]
    by_cases hz : z < 0
    · exact h.2.2 hz (by unfold Fits; exact Nat.not_lt.mpr hf)
    · exact (h.1 (by omega)).2 (by unfold Fits; have : z.natAbs = z.toNat := by omega
                                   rw [← this]; exact Nat.not_lt.mpr hf)
  · rw [if_neg hf]
    by_cases hz : z < 0
    · rw [if_pos hz]; exact h.2.1 hz (Nat.not_le.mp hf)
    · rw [if_neg hz]
      exact (h.1 (by omega)).1 (by unfold Fits; have : z.natAbs = z.toNat := by omega
                                   rw [← this]; exact Nat.not_le.mp hf)

theorem RefU.sdiv {cfg : Cfg} {x : R UBig} {b z : Int} (h : b ≠ 0 → SYields cfg x z)
    (h0 : b = 0 → x = .error .divideByZero) :
    RefU cfg x (if b = 0 then .error .divideByZero else limS cfg.bits z) := by
  by_cases hb : b = 0
  · rw [if_pos hb]; exact h0 hb
  · rw [if_neg hb]; exact .of_syields (h hb)

theorem RefU.sbits {cfg : Cfg} {x : R UBig} {p : Nat → Bool} {z : Int}
    (h : ∃ w, (∀ i, ibit w i = p i) ∧ SYields cfg x w) (hn : ∀ i, z.testBit i = p i) :
    RefU cfg x (limS cfg.bits z) := by
  obtain ⟨y, h1, h2⟩ := h
  have : y = z := ibit_ext fun i => by rw [h1, ibit_eq_testBit, hn]
  subst this
  exact .of_syields h2

theorem RefU.of_returns {cfg : Cfg} {x : R UBig} {n : Nat} (h : Returns x fun c => c.WF cfg ∧ c.value cfg = n) :
    RefU cfg x (.ok n) := h

theorem RefI.of_returns {cfg : Cfg} {x : R IBig} {n : Int} (h : Returns x fun c => c.WF cfg ∧ c.value cfg = n) :
    RefI cfg x (.ok n) := h

theorem UBin.ref {cfg : Cfg} (hv : cfg.Valid) (op : UBin) (o1 o2 : Own) {a b : UBig} (ha : a.WF cfg)
    (hb : b.WF cfg) :
    RefU cfg (op.exec cfg o1 o2 a b) (op.math cfg.bits (a.value cfg) (b.value cfg)) := by
  cases op
  case add => exact .of_yields (UBig.add_spec hv o1 o2 ha hb)
  case sub =>
    obtain ⟨h1, h2⟩ := UBig.sub_spec hv o1 o2 ha hb
    simp only [UBin.math, UBin.exec]
    by_cases h : b.value cfg ≤ a.value cfg
    · rw [if_pos h]; exact (h1 h).1 ((ha.fits hv).mono (Nat.sub_le _ _))
    · rw [if_neg h]; exact h2 (by omega)
  case mul => exact .of_yields (UBig.mul_spec hv o1 o2 ha hb)
  case div => exact .div (UBig.div_spec hv o1 o2 ha hb)
  case rem => exact .div (UBig.rem_spec hv o1 o2 ha hb)
  case divEuclid => exact .div (UBig.div_spec hv o1 o2 ha hb)
  case remEuclid => exact .div (UBig.rem_spec hv o1 o2 ha hb)
  case and => exact .bits (UBig.bitand_spec hv o1 o2 ha hb) fun i => Nat.testBit_and ..
  case or => exact .bits (UBig.bitor_spec hv o1 o2 ha hb) fun i => Nat.testBit_or ..
  case xor => exact .bits (UBig.bitxor_spec hv o1 o2 ha hb) fun i => Nat.testBit_xor ..
  case andNot => exact .bits (UBig.andNot_spec hv o1 o2 ha hb) fun i => Nat.testBit_ldiff ..
  case gcd =>
    obtain ⟨h1, h2⟩ := UBig.gcd_spec hv ha hb
    simp only [UBin.math, UBin.exec]
    by_cases h : a.value cfg = 0 ∧ b.value cfg = 0
    · rw [if_pos h]; exact h2 h.1 h.2
    · rw [if_neg h]; exact h1 (by omega)

theorem IBin.ref {cfg : Cfg} (hv : cfg.Valid) (op : IBin) (o1 o2 : Own) {a b : IBig} (ha : a.WF cfg)
    (hb : b.WF cfg) :
    RefI cfg (op.exec cfg o1 o2 a b) (op.math cfg.bits (a.value cfg) (b.value cfg)) := by
  cases op
  case add => exact .of_yields (IBig.add_spec hv o1 o2 ha hb)
  case sub => exact .of_yields (IBig.sub_spec hv o1 o2 ha hb)
  case mul => exact .of_yields (IBig.mul_spec hv o1 o2 ha hb)
  case div => exact .div (IBig.div_spec hv o1 o2 ha hb)
  case rem => exact .div (IBig.rem_spec hv o1 o2 ha hb)
  case divEuclid => exact .div (IBig.divEuclid_spec hv o1 o2 ha hb)
  case remEuclid => exact .div (IBig.remEuclid_spec hv o1 o2 ha hb)
  case and =>
    exact .bits (IBig.bitand_spec hv o1 o2 ha hb) fun i => by
      rw [Int.testBit_land, ibit_eq_testBit, ibit_eq_testBit]
  case or =>
    exact .bits (IBig.bitor_spec hv o1 o2 ha hb) fun i => by
      rw [Int.testBit_lor, ibit_eq_testBit, ibit_eq_testBit]
  case xor =>
    exact .bits (IBig.bitxor_spec hv o1 o2 ha hb) fun i => by
      rw [Int.testBit_lxor, ibit_eq_testBit, ibit_eq_testBit]
  case andNot =>
    exact .bits (IBig.andNot_spec hv o1 o2 ha hb) fun i => by
      rw [Int.testBit_ldiff, ibit_eq_testBit, ibit_eq_testBit]
  case gcd =>
    obtain ⟨h1, h2⟩ := C24_ibig_gcd hv ha hb
    simp only [IBin.math, IBin.exec]
    by_cases h : a.value cfg = 0 ∧ b.value cfg = 0
    · rw [if_pos h]; exact h2 h.1 h.2
    · rw [if_neg h]; exact h1 h

theorem IUn.ref {cfg : Cfg} (hv : cfg.Valid) (op : IUn) (o : Own) {a : IBig} (ha : a.WF cfg) :
    RefI cfg (op.exec cfg o a) (op.math cfg.bits (a.value cfg)) := by
  cases op
  case neg => exact .of_returns (IBig.negOwn_spec hv o ha)
  case abs => exact .of_returns (IBig.abs_spec hv o ha)
  case signum => exact ⟨_, rfl, IBig.signum_spec hv ha⟩
  case not => exact .of_yields (IBig.not_spec hv o ha)
  case clone => exact .of_returns ((IBig.clone_spec ha).mono fun c h => ⟨h.1, h.2.1⟩)

theorem UPrim.ref {cfg : Cfg} (hv : cfg.Valid) (op : UPrim) (o : Own) {a : UBig} (ha : a.WF cfg) {b x : Nat}
    (hb : (PTy.u b).Valid) (hx : x < 2 ^ b) :
    RefU cfg (op.exec cfg o a b x) (op.math cfg.bits (a.value cfg) x) := by
  obtain ⟨h1, h2, h3, h4, h5, -, h6, h7, h8, h9⟩ := C36_ubig_unsigned hv o ha hb hx
  cases op
  case add => exact .of_yields h1
  case sub =>
    simp only [UPrim.math, UPrim.exec]
    by_cases h : x ≤ a.value cfg
    · rw [if_pos h]
      obtain ⟨c, c1, c2, c3⟩ := (h2.1 (by omega)).1 ((ha.fits hv).mono (by omega))
      exact ⟨c, c1, c2, by omega⟩
    · rw [if_neg h]
      have hxf : Fits cfg x := by
        obtain ⟨r, -, r2, r3⟩ := UBig.fromUnsigned_ok hv hb hx
        rw [← r3]; exact r2.fits hv
      exact h2.2.1 (by omega) (hxf.mono (by omega))
  case mul => exact .of_yields h3
  case div => exact .div ⟨fun h => (h4 h).1, fun h => (h5 h).1⟩
  case rem => exact .div ⟨fun h => (h4 h).2.2.1, fun h => (h5 h).2.2.1⟩
  case and => exact .bits h6 fun i => Nat.testBit_and ..
  case or => exact .bits h7 fun i => Nat.testBit_or ..
  case xor => exact .bits h8 fun i => Nat.testBit_xor ..
  case andNot => exact .bits h9 fun i => Nat.testBit_ldiff ..

theorem SPrim.ref {cfg : Cfg} (hv : cfg.Valid) (op : SPrim) (o : Own) {a : UBig} (ha : a.WF cfg) {b : Nat} {z : Int}
    (hb : (PTy.i b).Valid) (hz : (PTy.i b).InRange z) :
    RefU cfg (op.exec cfg o a b z) (op.math cfg.bits (a.value cfg) z) := by
  obtain ⟨h1, h2, h3, h4, h5, h6, h7, h8, h9⟩ := C36_ubig_signed hv o ha hb hz
  cases op
  case add => exact .of_syields h1
  case sub => exact .of_syields h2
  case mul => exact .of_syields h3
  case div => exact .sdiv (fun h => (h4 h).1) fun h => (h5 h).1
  case rem => exact .sdiv (fun h => (h4 h).2.2.1) fun h => (h5 h).2.2.1
  case divEuclid => exact .sdiv (fun h => (h4 h).2.2.2.2.2.1) fun h => (h5 h).2.2.2.2.1
  case and =>
    exact .sbits h6 fun i => by rw [Int.testBit_land, ibit_eq_testBit, ibit_eq_testBit]
  case or =>
    exact .sbits h7 fun i => by rw [Int.testBit_lor, ibit_eq_testBit, ibit_eq_testBit]
  case xor =>
    exact .sbits h8 fun i => by rw [Int.testBit_lxor, ibit_eq_testBit, ibit_eq_testBit]
  case andNot =>
    exact .sbits h9 fun i => by rw [Int.testBit_ldiff, ibit_eq_testBit, ibit_eq_testBit]

theorem IPrim.ref {cfg : Cfg} (hv : cfg.Valid) (op : IPrim) (o : Own) {a : IBig} (ha : a.WF cfg) {t : PTy}
    {z : Int} (ht : t.Valid) (hz : t.InRange z) :
    RefI cfg (op.exec cfg o a t z) (op.math cfg.bits (a.value cfg) z) := by
  obtain ⟨h1, h2, h3, h4, h5, h6, -, h7, h8, h9, h10⟩ := C36_ibig_primitive hv o ha ht hz
  cases op
  case add => exact .of_yields h1
  case sub => exact .of_yields h2
  case subFrom => exact .of_yields h3
  case mul => exact .of_yields h4
  case div => exact .div ⟨fun h => (h5 h).1, fun h => (h6 h).1⟩
  case rem => exact .div ⟨fun h => (h5 h).2.1, fun h => (h6 h).2.1⟩
  case divEuclid => exact .div ⟨fun h => (h5 h).2.2.2.2.2.1, fun h => (h6 h).2.2.2.2.2.1⟩
  case and => exact .bits h7 fun i => by rw [Int.testBit_land, ibit_eq_testBit, ibit_eq_testBit]
  case or => exact .bits h8 fun i => by rw [Int.testBit_lor, ibit_eq_testBit, ibit_eq_testBit]
  case xor => exact .bits h9 fun i => by rw [Int.testBit_lxor, ibit_eq_testBit, ibit_eq_testBit]
  case andNot => exact .bits h10 fun i => by rw [Int.testBit_ldiff, ibit_eq_testBit, ibit_eq_testBit]

/-- A refinement of a result that is not a number. -/
theorem RefS.putU {cfg : Cfg} {s : Store UBig IBig} (hs : s.WF cfg) (d : Nat) {x : R UBig} {y : R Nat}
    (h : RefU cfg x y) : RefS cfg (s.putU d x) ((s.values cfg).putU d y) := by
  unfold Store.putU
  cases y with
  | error p =>
    have h : x = .error p := h
    rw [h]; rfl
  | ok n =>
    obtain ⟨c, rfl, h1, h2⟩ := h
    refine ⟨s.setU d c, rfl, ⟨fun k => ?_, hs.2⟩, ?_⟩
    · simp only [Store.setU]; split
      · exact h1
      · exact hs.1 k
    · simp only [Store.setU, Store.values, Store.mk.injEq, and_true]
      funext k
      split
      · exact h2
      · rfl

theorem RefS.putI {cfg : Cfg} {s : Store UBig IBig} (hs : s.WF cfg) (d : Nat) {x : R IBig} {y : R Int}
    (h : RefI cfg x y) : RefS cfg (s.putI d x) ((s.values cfg).putI d y) := by
  unfold Store.putI
  cases y with
  | error p =>
    have h : x = .error p := h
    rw [h]; rfl
  | ok n =>
    obtain ⟨c, rfl, h1, h2⟩ := h
    refine ⟨s.setI d c, rfl, ⟨hs.1, fun k => ?_⟩, ?_⟩
    · simp only [Store.setI]; split
      · exact h1
      · exact hs.2 k
    · simp only [Store.setI, Store.values, Store.mk.injEq, true_and]
      funext k
      split
      · exact h2
      · rfl

theorem Store.WF.setU {cfg : Cfg} {s : Store UBig IBig} (hs : s.WF cfg) (d : Nat) {c : UBig} (hc : c.WF cfg) :
    (s.setU d c).WF cfg ∧ (s.setU d c).values cfg = (s.values cfg).setU d (c.value cfg) := by
  obtain ⟨t, e, h1, h2⟩ := RefS.putU hs d (x := .ok c) (y := .ok (c.value cfg)) ⟨c, rfl, hc, rfl⟩
  cases e
  exact ⟨h1, h2⟩

theorem Store.WF.setI {cfg : Cfg} {s : Store UBig IBig} (hs : s.WF cfg) (d : Nat) {c : IBig} (hc : c.WF cfg) :
    (s.setI d c).WF cfg ∧ (s.setI d c).values cfg = (s.values cfg).setI d (c.value cfg) := by
  obtain ⟨t, e, h1, h2⟩ := RefS.putI hs d (x := .ok c) (y := .ok (c.value cfg)) ⟨c, rfl, hc, rfl⟩
  cases e
  exact ⟨h1, h2⟩

theorem RefS.putUU {cfg : Cfg} {s : Store UBig IBig} (hs : s.WF cfg) (d e : Nat) {x : R (UBig × UBig)}
    {a b : Nat} (h : DivYields cfg x a b) :
    RefS cfg (s.putUU d e x) ((s.values cfg).putUU d e (unlessZero b (a / b, a % b))) := by
  unfold Store.putUU unlessZero
  by_cases hb : b = 0
  · rw [if_pos hb, h.2 hb]; rfl
  · rw [if_neg hb]
    obtain ⟨⟨q, r⟩, rfl, h1, h2, h3, h4⟩ := h.1 hb
    simp only at h1 h2 h3 h4
    obtain ⟨g1, g2⟩ := hs.setU d h1
    obtain ⟨k1, k2⟩ := g1.setU e h2
    exact ⟨_, rfl, k1, by rw [k2, g2, h3, h4]⟩

theorem RefS.putII {cfg : Cfg} {s : Store UBig IBig} (hs : s.WF cfg) (d e : Nat) {x : R (IBig × IBig)}
    {b z w : Int} (h : IDivRemYields cfg x b z w) :
    RefS cfg (s.putII d e x) ((s.values cfg).putII d e (unlessZero b (z, w))) := by
  unfold Store.putII unlessZero
  by_cases hb : b = 0
  · rw [if_pos hb, h.2 hb]; rfl
  · rw [if_neg hb]
    obtain ⟨⟨q, r⟩, rfl, h1, h2, h3, h4⟩ := h.1 hb
    simp only at h1 h2 h3 h4
    obtain ⟨g1, g2⟩ := hs.setI d h1
    obtain ⟨k1, k2⟩ := g1.setI e h2
    exact ⟨_, rfl, k1, by rw [k2, g2, h3, h4]⟩

/-! ### Reading and printing -/

theorem readDigit_iff {radix c d : Nat} (hr : radix ≤ 36) : readDigit radix c = some d ↔ IsDigit radix c d := by
  have one : ∀ d, readDigit radix c = some d → IsDigit radix c d := by
    intro d h
    unfold readDigit at h
    have h1 := List.find?_some h
    have h2 := List.mem_of_find?_eq_some h
    simp only [Bool.or_eq_true, beq_iff_eq] at h1
    exact ⟨List.mem_range.mp h2, h1⟩
  refine ⟨one d, fun h => ?_⟩
  cases he : readDigit radix c with
  | some e =>
    have h1 := (isDigit_iff hr).mp (one e he)
    have h2 := (isDigit_iff hr).mp h
    rw [h1] at h2
    exact h2
  | none =>
    unfold readDigit at he
    rw [List.find?_eq_none] at he
    have := he d (List.mem_range.mpr h.1)
    simp only [Bool.or_eq_true, beq_iff_eq] at this
    exact absurd h.2 this

theorem readDigits_eq {radix : Nat} (hr : radix ≤ 36) (s : List Nat) : readDigits radix s = digitsOf radix s := by
  induction s with
  | nil => rfl
  | cons c s ih =>
    have : readDigit radix c = digitFromByte c radix := by
      apply Option.ext
      intro d
      exact (readDigit_iff hr).trans (isDigit_iff hr)
    simp only [readDigits, digitsOf, this, ih]
    cases digitFromByte c radix <;> cases digitsOf radix s <;> rfl

theorem numeralText_spec {radix : Nat} (h2 : 2 ≤ radix) (h36 : radix ≤ 36) (upper : Bool) (n : Nat) :
    IsNumeralText radix n upper (numeralText radix upper n) := by
  have hdv : ∀ l : List Nat, digitsValue radix l.reverse = Nat.ofDigits radix l := by
    intro l
    induction l with
    | nil => rfl
    | cons d l ih =>
      rw [List.reverse_cons, digitsValue_append, ih, Nat.ofDigits_cons]
      simp [digitsValue]
      ring
  have hlen : ∀ d < 36, ∃ c, (if upper then upperDigits else lowerDigits)[d]? = some c := by
    have tab : ∀ up : Bool, ∀ d < 36, ((if up then upperDigits else lowerDigits)[d]?).isSome = true := by
      decide +kernel
    intro d hd
    exact Option.isSome_iff_exists.mp (tab upper d hd)
  have hp : ∀ l : List Nat, (∀ d ∈ l, d < radix) →
      IsPrinted upper (l.map fun d => (if upper then upperDigits else lowerDigits).getD d 0) l := by
    intro l hl
    unfold IsPrinted
    rw [List.forall₂_map_left_iff]
    refine List.forall₂_same.mpr ?_
    intro d hd
    obtain ⟨c, hc⟩ := hlen d (by have := hl d hd; omega)
    rw [List.getD_eq_getElem?_getD, hc]
    rfl
  unfold numeralText
  by_cases h0 : n = 0
  · subst h0
    rw [if_pos rfl]
    refine ⟨[0], ⟨by simp; omega, by simp [digitsValue], by simp, fun _ => rfl⟩, hp _ (by simp; omega)⟩
  · rw [if_neg h0]
    have hd : ∀ d ∈ (Nat.digits radix n).reverse, d < radix := by
      intro d hd
      rw [List.mem_reverse] at hd
      exact Nat.digits_lt_base (by omega) hd
    have hne : Nat.digits radix n ≠ [] := Nat.digits_ne_nil_iff_ne_zero.mpr h0
    refine ⟨_, ⟨hd, by rw [hdv, Nat.ofDigits_digits], by simpa using hne, ?_⟩, hp _ hd⟩
    intro hh
    rw [List.head?_reverse, List.getLast?_eq_some_getLast hne] at hh
    exact absurd (Option.some.inj hh) (Nat.getLast_digit_ne_zero radix h0)

theorem readNumber_reads {cfg : Cfg} {radix : Nat} (hr : ¬(radix < 2 ∨ 36 < radix)) {s : List Nat}
    {x : R (PRes UBig)} (h : ReadsUBig cfg radix s x) (hok : ShortOrNumeral cfg radix s) :
    match readNumber cfg.bits radix s id with
    | .ok (.ok n) => ∃ c, x = .ok (.ok c) ∧ c.WF cfg ∧ c.value cfg = n
    | .ok (.error e) => x = .ok (.error e)
    | .error p => x = .error p := by
  unfold readNumber
  rw [if_neg hr]
  by_cases hn : s = []
  · rw [if_pos hn]; exact h.empty hn
  rw [if_neg hn, readDigits_eq (by omega)]
  cases hd : digitsOf radix s with
  | some ds =>
    have hnum := (isNumeral_iff (by omega)).mpr hd
    simp only
    by_cases hf : digitsValue radix ds < 2 ^ cfg.bits
    · rw [if_pos hf]; exact h.numeral ds hn hnum hf
    · rw [if_neg hf]; exact h.tooLarge ds hnum hf
  | none =>
    have hbad := (hasBadDigit_iff (by omega)).mpr hd
    simp only
    rcases h.bad hbad with h1 | ⟨-, h2⟩
    · exact h1
    · exfalso
      rcases hok with ⟨ds, hds⟩ | hf
      · rw [(isNumeral_iff (by omega)).mp hds] at hd; cases hd
      · exact h2 (hf.mono (Nat.pow_le_pow_right (by omega) ((List.dropWhile_suffix _).length_le)))

theorem readNumber_readsI {cfg : Cfg} {radix : Nat} (hr : ¬(radix < 2 ∨ 36 < radix)) {s : List Nat} {neg : Bool}
    {x : R (PRes IBig)} (h : ReadsIBig cfg radix neg s x) (hok : ShortOrNumeral cfg radix s) :
    match readNumber cfg.bits radix s (signed neg) with
    | .ok (.ok n) => ∃ c, x = .ok (.ok c) ∧ c.WF cfg ∧ c.value cfg = n
    | .ok (.error e) => x = .ok (.error e)
    | .error p => x = .error p := by
  unfold readNumber
  rw [if_neg hr]
  by_cases hn : s = []
  · rw [if_pos hn]; exact h.empty hn
  rw [if_neg hn, readDigits_eq (by omega)]
  cases hd : digitsOf radix s with
  | some ds =>
    have hnum := (isNumeral_iff (by omega)).mpr hd
    simp only
    by_cases hf : digitsValue radix ds < 2 ^ cfg.bits
    · rw [if_pos hf]; exact h.numeral ds hn hnum hf
    · rw [if_neg hf]; exact h.tooLarge ds hnum hf
  | none =>
    have hbad := (hasBadDigit_iff (by omega)).mpr hd
    simp only
    rcases h.bad hbad with h1 | ⟨-, h2⟩
    · exact h1
    · exfalso
      rcases hok with ⟨ds, hds⟩ | hf
      · rw [(isNumeral_iff (by omega)).mp hds] at hd; cases hd
      · exact h2 (hf.mono (Nat.pow_le_pow_right (by omega) ((List.dropWhile_suffix _).length_le)))

theorem readNumber_ubig {cfg : Cfg} (hv : cfg.Valid) {radix : Nat} {s : List Nat}
    (hs : s.length < 2 ^ (cfg.U - 1)) (hok : ShortOrNumeral cfg radix (splitPlus s)) :
    match readNumber cfg.bits radix (splitPlus s) id with
    | .ok (.ok n) => ∃ c, UBig.fromStrRadix cfg s radix = .ok (.ok c) ∧ c.WF cfg ∧ c.value cfg = n
    | .ok (.error e) => UBig.fromStrRadix cfg s radix = .ok (.error e)
    | .error p => UBig.fromStrRadix cfg s radix = .error p := by
  by_cases hr : radix < 2 ∨ 36 < radix
  · unfold readNumber
    rw [if_pos hr]
    exact (C41_from_str_radix hv radix hs).1.mpr (by omega)
  · exact readNumber_reads hr (C20_ubig_from_str_radix hv (radix := radix) (by omega) (by omega) hs) hok

theorem readNumber_ibig {cfg : Cfg} (hv : cfg.Valid) {radix : Nat} {s : List Nat}
    (hs : s.length < 2 ^ (cfg.U - 1)) (hok : ShortOrNumeral cfg radix (splitSign s).2) :
    match readNumber cfg.bits radix (splitSign s).2 (signed (splitSign s).1) with
    | .ok (.ok n) => ∃ c, IBig.fromStrRadix cfg s radix = .ok (.ok c) ∧ c.WF cfg ∧ c.value cfg = n
    | .ok (.error e) => IBig.fromStrRadix cfg s radix = .ok (.error e)
    | .error p => IBig.fromStrRadix cfg s radix = .error p := by
  by_cases hr : radix < 2 ∨ 36 < radix
  · unfold readNumber
    rw [if_pos hr]
    exact (C41_from_str_radix hv radix hs).2.mpr (by omega)
  · exact readNumber_readsI hr (C20_ibig_from_str_radix hv (radix := radix) (by omega) (by omega) hs) hok

theorem splitRadix_range (s : List Nat) : ¬((splitRadix s).1 < 2 ∨ 36 < (splitRadix s).1) := by
  have := isRadixValid_iff.mp (splitRadix_valid s)
  omega

theorem Padded.eq_padText {f : FmtFlags} {sign pre digits text : List Nat} (h : Padded f sign pre digits text) :
    text = padText f sign pre digits := by
  unfold Padded at h
  unfold padText
  generalize f.width = w at h
  cases w with
  | none => exact h
  | some w =>
    simp only at h ⊢
    obtain ⟨hl, h⟩ := h
    by_cases hz : f.zero
    · rw [if_pos hz] at h ⊢
      obtain ⟨n, rfl⟩ := h
      simp only [List.length_append, List.length_replicate] at hl ⊢
      have : n = w - (sign.length + pre.length + digits.length) := by omega
      rw [← this]
    · rw [if_neg hz] at h ⊢
      obtain ⟨l, r, rfl, ha⟩ := h
      simp only [List.length_append, List.length_replicate] at hl ⊢
      generalize f.align = al at ha
      obtain ⟨n, e, hn⟩ : ∃ n, l + r = n ∧ w - (sign.length + pre.length + digits.length) = n :=
        ⟨_, rfl, by omega⟩
      rw [hn]
      clear hn hl
      match al, ha with
      | some .left, ha => 
        have ha : l = 0 := ha
        subst ha
        simp only; congr 2; omega
      | some .right, ha => 
        have ha : r = 0 := ha
        subst ha
        simp only; rw [show l = n by omega]; simp
      | none, ha => 
        have ha : r = 0 := ha
        subst ha
        simp only; rw [show l = n by omega]; simp
      | some .center, ha => 
        have ha : l ≤ r ∧ r ≤ l + 1 := ha
        simp only; rw [show l = n / 2 by omega, show r = n - n / 2 by omega]

theorem Prints.eq {f : FmtFlags} {radix : Nat} (h2 : 2 ≤ radix) (h36 : radix ≤ 36) {upper : Bool} {z : Int}
    {pre : List Nat} {x : R (List Nat)} (h : Prints f radix upper (decide (z < 0)) z.natAbs pre x) :
    x = .ok (numberText radix upper pre f z) := by
  obtain ⟨t, d, h3, h4, h5⟩ := h
  rw [h3, h5.eq_padText, C21_unique h2 h4 (numeralText_spec h2 h36 upper _)]
  rfl

/-! ### Observations -/

theorem size_eq_bitLen (n : Nat) : n.size = bitLen n := by
  unfold bitLen
  split
  · next h => rw [h, Nat.size_zero]
  · next h =>
    apply le_antisymm
    · rw [Nat.size_le]; exact Nat.lt_log2_self
    · rw [Nat.succ_le_iff, Nat.lt_size]; exact Nat.log2_self_le h

theorem clog_eq_bitLen (n : Nat) : 2 ^ Nat.clog 2 n = 2 ^ bitLen (n - 1) := by
  congr 1
  rw [← size_eq_bitLen]
  apply le_antisymm
  · apply Nat.clog_le_of_le_pow
    have := Nat.lt_size_self (n - 1)
    omega
  · rw [Nat.size_le]
    have := Nat.le_pow_clog (b := 2) (by norm_num) n
    have := Nat.one_le_two_pow (n := Nat.clog 2 n)
    omega

theorem trailing_eq {r : Option Nat} {m : Nat}
    (h2 : match r with | none => m = 0 | some k => m ≠ 0 ∧ 2 ^ k ∣ m ∧ ¬2 ^ (k + 1) ∣ m) : r = trailing m := by
  unfold trailing
  cases r with
  | none =>
    have h2 : m = 0 := h2
    rw [if_pos h2]
  | some k =>
    obtain ⟨g1, g2, g3⟩ := h2
    rw [if_neg g1, padicValNat_def' (p := 2) (by norm_num) g1]
    rw [multiplicity_eq_of_dvd_of_not_dvd g2 g3]

theorem FloatFmt.Nearest.eq_round {f : FloatFmt} {n b : Nat} (h : f.Nearest n b) : b = f.round n :=
  C19_unique h (Classical.epsilon_spec ⟨b, h⟩)

theorem Look.ref {cfg : Cfg} (hv : cfg.Valid) (be : Bool) {s : Store UBig IBig} (hs : s.WF cfg) (l : Look)
    (hl : l.OK) : l.exec cfg be s = l.math (s.values cfg) := by
  cases l
  case ucmp a b => simp only [Look.exec, Look.math, Store.values, UBig.cmp_spec hv (hs.1 a) (hs.1 b)]; rfl
  case icmp a b => simp only [Look.exec, Look.math, Store.values, IBig.cmp_spec hv (hs.2 a) (hs.2 b)]; rfl
  case ueq a b =>
    simp only [Look.exec, Look.math, Except.ok.injEq, Obs.bool.injEq]
    rw [Bool.eq_iff_iff, decide_eq_true_iff]
    exact UBig.beq_iff hv (hs.1 a) (hs.1 b)
  case ieq a b =>
    simp only [Look.exec, Look.math, Except.ok.injEq, Obs.bool.injEq]
    rw [Bool.eq_iff_iff, decide_eq_true_iff]
    exact IBig.beq_iff hv (hs.2 a) (hs.2 b)
  case ubit a n => simp only [Look.exec, Look.math, Store.values, UBig.bit_spec hv (hs.1 a) n]; rfl
  case ubitLen a =>
    simp only [Look.exec, Look.math, Store.values, UBig.bitLen_spec hv (hs.1 a), size_eq_bitLen]; rfl
  case utrailingZeros a =>
    obtain ⟨r, h1, h2⟩ := UBig.trailingZeros_spec hv (hs.1 a)
    simp only [Look.exec, Look.math, h1]
    rw [trailing_eq h2]; rfl
  case uisPowerOfTwo a =>
    obtain ⟨r, h1, h2⟩ := UBig.isPowerOfTwo_spec hv (hs.1 a)
    simp only [Look.exec, Look.math, h1]
    have e : r = decide ((s.values cfg).u a = 2 ^ Nat.log 2 ((s.values cfg).u a)) := by
      have h2 : r = true ↔ ∃ k, (s.values cfg).u a = 2 ^ k := h2
      rw [Bool.eq_iff_iff, decide_eq_true_iff, h2]
      constructor
      · rintro ⟨k, hk⟩; rw [hk, Nat.log_pow (by norm_num)]
      · exact fun h => ⟨_, h⟩
    rw [e]; rfl
  case ubytes a =>
    obtain ⟨l, h1, h2, h3, h4, -⟩ := UBig.toLeBytes_spec hv (hs.1 a)
    simp only [Look.exec, Look.math, Store.values, h1]
    have e : Nat.digits 256 ((s.u a).value cfg) = l := by
      rw [← h3, leBytesVal_eq_ofDigits]
      refine Nat.digits_ofDigits 256 (by norm_num) l h2 ?_
      intro hne e
      exact h4 (by rw [List.getLast?_eq_some_getLast hne, e])
    rw [e]; rfl
  case ubytesBe a =>
    obtain ⟨l, h1, h2, h3, h4, -⟩ := UBig.toLeBytes_spec hv (hs.1 a)
    obtain ⟨r, g1, g2⟩ := UBig.toBe_eq hv (hs.1 a)
    rw [h1] at g2
    cases g2
    simp only [Look.exec, Look.math, Store.values, g1]
    have e : Nat.digits 256 ((s.u a).value cfg) = r.reverse := by
      rw [← h3, leBytesVal_eq_ofDigits]
      refine Nat.digits_ofDigits 256 (by norm_num) _ h2 ?_
      intro hne e
      exact h4 (by rw [List.getLast?_eq_some_getLast hne, e])
    rw [e, List.reverse_reverse]; rfl
  case itrailingZeros a =>
    obtain ⟨r, h1, h2⟩ := UBig.trailingZeros_spec hv (hs.2 a).mag
    simp only [Look.exec, Look.math, IBig.trailingZeros, h1]
    rw [trailing_eq h2]
    have e : ((s.values cfg).i a).natAbs = (s.i a).mag.value cfg := IBig.natAbs_value _
    rw [e]; rfl
  case uisZero a => simp only [Look.exec, Look.math, (C37_num_traits hv).1 _ (hs.1 a)]; rfl
  case iisZero a => simp only [Look.exec, Look.math, ((C37_num_traits hv).2.1 _ (hs.2 a)).1]; rfl
  case iisPositive a => simp only [Look.exec, Look.math, ((C37_num_traits hv).2.1 _ (hs.2 a)).2.1]; rfl
  case iisNegative a => simp only [Look.exec, Look.math, ((C37_num_traits hv).2.1 _ (hs.2 a)).2.2]; rfl
  case utoPrim t a =>
    obtain ⟨h1, h2⟩ := UBig.tryToPrim_spec hv hl (hs.1 a)
    simp only [Look.exec, Look.math, inPrim]
    by_cases h : t.InRange ((s.u a).value cfg)
    · rw [h1 h, if_pos (show t.InRange ((s.values cfg).u a) from h)]; rfl
    · rw [h2 h, if_neg (show ¬t.InRange ((s.values cfg).u a) from h)]; rfl
  case itoPrim t a =>
    obtain ⟨h1, h2⟩ := IBig.tryToPrim_spec hv hl (hs.2 a)
    simp only [Look.exec, Look.math, inPrim]
    by_cases h : t.InRange ((s.i a).value cfg)
    · rw [h1 h, if_pos (show t.InRange ((s.values cfg).i a) from h)]; rfl
    · rw [h2 h, if_neg (show ¬t.InRange ((s.values cfg).i a) from h)]; rfl
  case uremU o a b x =>
    obtain ⟨-, -, -, h1, h2, -⟩ := C36_ubig_unsigned hv o (hs.1 a) hl.1 hl.2
    simp only [Look.exec, Look.math, unlessZero]
    by_cases h : x = 0
    · rw [if_pos h, (h2 h).2.1]; rfl
    · rw [if_neg h, (h1 h).2.1]; rfl
  case uremS o a b z =>
    obtain ⟨-, -, -, h1, h2, -⟩ := C36_ubig_signed hv o (hs.1 a) hl.1 hl.2
    simp only [Look.exec, Look.math, unlessZero]
    by_cases h : z = 0
    · rw [if_pos h, (h2 h).2.1]; rfl
    · rw [if_neg h, (h1 h).2.1]; rfl
  case uandU o a b x =>
    obtain ⟨-, -, -, -, -, ⟨m, h1, h2⟩, -⟩ := C36_ubig_unsigned hv o (hs.1 a) hl.1 hl.2
    simp only [Look.exec, Look.math, h1]
    have e : m = (s.values cfg).u a &&& x :=
      Nat.eq_of_testBit_eq fun i => by rw [h2, Nat.testBit_and]; rfl
    rw [e]; rfl
  case iremS o a b z =>
    obtain ⟨-, -, -, -, h1, h2, -⟩ := C36_ibig_primitive hv o (hs.2 a) hl.1 hl.2
    simp only [Look.exec, Look.math, unlessZero]
    by_cases h : z = 0
    · rw [if_pos h, (h2 h).2.2.1 b rfl]; rfl
    · rw [if_neg h, (h1 h).2.2.1 b rfl]; rfl
  case iremEuclid o a t z =>
    obtain ⟨-, -, -, -, h1, h2, -⟩ := C36_ibig_primitive hv o (hs.2 a) hl.1 hl.2
    simp only [Look.exec, Look.math, unlessZero]
    by_cases h : z = 0
    · rw [if_pos h, (h2 h).2.2.2.2.2.2.1]; rfl
    · rw [if_neg h, (h1 h).2.2.2.2.2.2.1]; rfl
  case iandU o a b x =>
    have hr : (PTy.u b).InRange (x : Int) := by
      have := hl.2
      refine ⟨by omega, ?_⟩
      exact_mod_cast this
    obtain ⟨-, -, -, -, -, -, h1, -⟩ := C36_ibig_primitive hv o (hs.2 a) hl.1 hr
    obtain ⟨m, h1, h2⟩ := h1 b rfl
    rw [Int.toNat_natCast] at h1
    simp only [Look.exec, Look.math, h1]
    have e : ((s.values cfg).i a).land x = (m : Int) :=
      ibit_ext fun i => by
        rw [ibit_eq_testBit, Int.testBit_land, ibit_natCast, h2, ibit_eq_testBit, ibit_eq_testBit]; rfl
    rw [e]; rfl
  case uF32 a =>
    obtain ⟨⟨b, h1, h2⟩, -⟩ := C19_ubig_to_float hv (hs.1 a)
    simp only [Look.exec, Look.math, h1, h2.eq_round]; rfl
  case uF64 a =>
    obtain ⟨-, b, h1, h2⟩ := C19_ubig_to_float hv (hs.1 a)
    simp only [Look.exec, Look.math, h1, h2.eq_round]; rfl
  case iF32 a =>
    obtain ⟨⟨b, h1, h2⟩, -⟩ := C19_ibig_to_float hv (hs.2 a)
    simp only [Look.exec, Look.math, h1, h2.eq_round]
    have : f32.signBit = 2 ^ 31 := by decide +kernel
    unfold FloatFmt.roundI
    rw [this]; rfl
  case iF64 a =>
    obtain ⟨-, b, h1, h2⟩ := C19_ibig_to_float hv (hs.2 a)
    simp only [Look.exec, Look.math, h1, h2.eq_round]
    have : f64.signBit = 2 ^ 63 := by decide +kernel
    unfold FloatFmt.roundI
    rw [this]; rfl
  case utext radix f a =>
    simp only [Look.exec, Look.math, radixText]
    by_cases hr : radix < 2 ∨ 36 < radix
    · rw [if_pos hr, (C41_in_radix hv be radix f (hs.1 a) (hs.2 a)).1.mpr (by omega)]; rfl
    · rw [if_neg hr]
      have h := (C23_in_radix hv be (radix := radix) (by omega) (by omega) f (hs.1 a) (hs.2 a)).1
      have hd : decide (((s.u a).value cfg : Int) < 0) = false := decide_eq_false (by omega)
      rw [← hd] at h
      rw [Prints.eq (z := (s.u a).value cfg) (by omega) (by omega) h]; rfl
  case itext radix f a =>
    simp only [Look.exec, Look.math, radixText]
    by_cases hr : radix < 2 ∨ 36 < radix
    · rw [if_pos hr, (C41_in_radix hv be radix f (hs.1 a) (hs.2 a)).2.mpr (by omega)]; rfl
    · rw [if_neg hr]
      have h := (C23_in_radix hv be (radix := radix) (by omega) (by omega) f (hs.1 a) (hs.2 a)).2
      rw [Prints.eq (by omega) (by omega) h]; rfl
  case ufmt t f a =>
    have h := (C23_traits hv be t f (hs.1 a) (hs.2 a)).1
    have hd : decide (((s.u a).value cfg : Int) < 0) = false := decide_eq_false (by omega)
    rw [← hd] at h
    simp only [Look.exec]
    rw [Prints.eq (z := (s.u a).value cfg) (radix := traitRadix t) (by cases t <;> decide) (by cases t <;> decide)
      h]; rfl
  case ifmt t f a =>
    have h := (C23_traits hv be t f (hs.1 a) (hs.2 a)).2
    simp only [Look.exec]
    rw [Prints.eq (radix := traitRadix t) (by cases t <;> decide) (by cases t <;> decide) h]; rfl

/-! ### The mathematical programs -/

/-- The panics of `y` are documented ones. -/
def Docs {α : Type} (y : R α) : Prop := ∀ p, y = .error p → Documented p

theorem docs_ok {α : Type} (a : α) : Docs (.ok a) := by intro p h; cases h

theorem docs_error {α : Type} {p : Panic} (h : Documented p) : Docs (.error p : R α) := by
  intro q e; cases e; exact h

theorem Docs.bind {α β : Type} {x : R α} {f : α → R β} (hx : Docs x) (hf : ∀ a, Docs (f a)) : Docs (x >>= f) := by
  cases x with
  | error p => intro q e; cases e; exact hx p rfl
  | ok a => exact hf a

theorem docs_lim (N n : Nat) : Docs (lim N n) := by
  unfold lim; split
  · exact docs_ok _
  · exact docs_error (by simp [Documented])

theorem docs_limI (N : Nat) (z : Int) : Docs (limI N z) := by
  unfold limI; split
  · exact docs_ok _
  · exact docs_error (by simp [Documented])

theorem docs_limS (N : Nat) (z : Int) : Docs (limS N z) := by
  unfold limS; split
  · exact docs_error (by simp [Documented])
  · split
    · exact docs_error (by simp [Documented])
    · exact docs_ok _

theorem docs_unlessZero {α β : Type} [Zero α] [DecidableEq α] (b : α) (q : β) : Docs (unlessZero b q) := by
  unfold unlessZero; split
  · exact docs_error (by simp [Documented])
  · exact docs_ok _

theorem docs_readNumber {α : Type} (N radix : Nat) (text : List Nat) (f : Nat → α) :
    Docs (readNumber N radix text f) := by
  unfold readNumber
  split
  · exact docs_error (by simp [Documented])
  · split
    · exact docs_ok _
    · split
      · exact docs_ok _
      · split
        · exact docs_ok _
        · exact docs_error (by simp [Documented])

theorem Instr.docs (N : Nat) (s : Store Nat Int) (c : Instr) : Docs (c.math N s) := by
  have u : ∀ d y, Docs y → Docs (s.putU d y) := fun d y h => h.bind fun a => docs_ok _
  have i : ∀ d y, Docs y → Docs (s.putI d y) := fun d y h => h.bind fun a => docs_ok _
  cases c
  case ubin op o1 o2 d a b =>
    apply u
    cases op <;> simp only [UBin.math] <;> first
      | exact docs_lim _ _
      | exact docs_unlessZero _ _
      | exact docs_ok _
      | (split <;> first | exact docs_ok _ | exact docs_error (by simp [Documented]))
  case ibin op o1 o2 d a b =>
    apply i
    cases op <;> simp only [IBin.math] <;> first
      | exact docs_limI _ _
      | exact docs_unlessZero _ _
      | exact docs_ok _
      | (split <;> first | exact docs_ok _ | exact docs_error (by simp [Documented]))
  case udivrem => exact (docs_unlessZero _ _).bind fun a => docs_ok _
  case idivrem k o1 o2 d e a b => cases k <;> exact (docs_unlessZero _ _).bind fun a => docs_ok _
  case iun op o d a =>
    apply i
    cases op <;> first | exact docs_ok _ | exact docs_limI _ _
  case uprim op o d a b x =>
    apply u
    cases op <;> simp only [UPrim.math] <;> first
      | exact docs_lim _ _
      | exact docs_unlessZero _ _
      | exact docs_ok _
      | (split <;> first | exact docs_ok _ | exact docs_error (by simp [Documented]))
  case sprim op o d a b z =>
    apply u
    cases op <;> simp only [SPrim.math] <;> first
      | exact docs_limS _ _
      | (split <;> first | exact docs_limS _ _ | exact docs_error (by simp [Documented]))
  case udivremU => exact (docs_unlessZero _ _).bind fun a => docs_ok _
  case udivremS k o d a b z =>
    refine Docs.bind ?_ fun a => docs_ok _
    cases k <;> simp only [DRem.mathS] <;>
      (split
       · exact docs_error (by simp [Documented])
       · split
         · exact docs_error (by simp [Documented])
         · exact docs_ok _)
  case idivremU => exact (docs_unlessZero _ _).bind fun a => docs_ok _
  case idivremS => exact (docs_unlessZero _ _).bind fun a => docs_ok _
  case idivremE => exact (docs_unlessZero _ _).bind fun a => docs_ok _
  case utryFromPrim d t z =>
    simp only [Instr.math]
    split <;> exact docs_ok _
  case iprim op o d a t x =>
    apply i
    cases op <;> first | exact docs_limI _ _ | exact docs_unlessZero _ _
  case tryFromIBig o d a =>
    simp only [Instr.math]
    split <;> exact docs_ok _
  case uparse radix d text =>
    refine (docs_readNumber _ _ _ _).bind fun a => ?_
    cases a <;> exact docs_ok _
  case iparse radix d text =>
    refine (docs_readNumber _ _ _ _).bind fun a => ?_
    cases a <;> exact docs_ok _
  case uparsePrefix d text =>
    refine (docs_readNumber _ _ _ _).bind fun a => ?_
    cases a <;> exact docs_ok _
  case iparsePrefix d text =>
    refine (docs_readNumber _ _ _ _).bind fun a => ?_
    cases a <;> exact docs_ok _
  case look l =>
    refine Docs.bind ?_ fun a => docs_ok _
    cases l <;> simp only [Look.math, radixText] <;> first
      | exact docs_ok _
      | exact docs_unlessZero _ _
      | (split <;> first | exact docs_ok _ | exact docs_error (by simp [Documented]))
  all_goals first
    | exact u _ _ (docs_lim _ _)
    | exact u _ _ (docs_ok _)
    | exact i _ _ (docs_limI _ _)
    | exact i _ _ (docs_ok _)

theorem mathProgram_docs (N : Nat) (p : List Instr) (s : Store Nat Int) : Docs (mathProgram N p s) := by
  induction p generalizing s with
  | nil => exact docs_ok _
  | cons c p ih =>
    unfold mathProgram
    refine (Instr.docs N s c).bind ?_
    rintro ⟨t, o⟩
    refine (ih t).bind ?_
    rintro ⟨t, o⟩
    exact docs_ok _

/-- `y` is `z`, unless the limit stopped it. -/
def Stops {α : Type} (y z : R α) : Prop := y = .error .tooLarge ∨ y = z

theorem Stops.bind {α β : Type} {x y : R α} {f g : α → R β} (hx : Stops x y) (hf : ∀ a, Stops (f a) (g a)) :
    Stops (x >>= f) (y >>= g) := by
  rcases hx with rfl | rfl
  · exact Or.inl rfl
  · cases x with
    | error p => exact Or.inr rfl
    | ok a => exact hf a

theorem stops_refl {α : Type} (x : R α) : Stops x x := Or.inr rfl

theorem stops_lim {N M : Nat} (h : N ≤ M) (n : Nat) : Stops (lim N n) (lim M n) := by
  unfold lim
  by_cases hn : n < 2 ^ N
  · have := Nat.pow_le_pow_right (show 0 < 2 by norm_num) h
    rw [if_pos hn, if_pos (by omega)]; exact stops_refl _
  · rw [if_neg hn]; exact Or.inl rfl

theorem stops_limI {N M : Nat} (h : N ≤ M) (z : Int) : Stops (limI N z) (limI M z) := by
  unfold limI
  by_cases hn : z.natAbs < 2 ^ N
  · have := Nat.pow_le_pow_right (show 0 < 2 by norm_num) h
    rw [if_pos hn, if_pos (by omega)]; exact stops_refl _
  · rw [if_neg hn]; exact Or.inl rfl

theorem stops_limS {N M : Nat} (h : N ≤ M) (z : Int) : Stops (limS N z) (limS M z) := by
  unfold limS
  by_cases hn : 2 ^ N ≤ z.natAbs
  · rw [if_pos hn]; exact Or.inl rfl
  · have := Nat.pow_le_pow_right (show 0 < 2 by norm_num) h
    rw [if_neg hn, if_neg (fun h' => hn (le_trans this h'))]; exact stops_refl _

theorem stops_readNumber {α : Type} {N M : Nat} (h : N ≤ M) (radix : Nat) (text : List Nat) (f : Nat → α) :
    Stops (readNumber N radix text f) (readNumber M radix text f) := by
  unfold readNumber
  split
  · exact stops_refl _
  · split
    · exact stops_refl _
    · split
      · exact stops_refl _
      · next ds _ =>
        by_cases hn : digitsValue radix ds < 2 ^ N
        · have := Nat.pow_le_pow_right (show 0 < 2 by norm_num) h
          rw [if_pos hn, if_pos (by omega)]; exact stops_refl _
        · rw [if_neg hn]; exact Or.inl rfl

theorem Instr.stops {N M : Nat} (h : N ≤ M) (s : Store Nat Int) (c : Instr) :
    Stops (c.math N s) (c.math M s) := by
  have u : ∀ d y z, Stops y z → Stops (s.putU d y) (s.putU d z) := fun d y z h => h.bind fun a => stops_refl _
  have i : ∀ d y z, Stops y z → Stops (s.putI d y) (s.putI d z) := fun d y z h => h.bind fun a => stops_refl _
  cases c
  case ubin op o1 o2 d a b =>
    apply u
    cases op <;> first | exact stops_lim h _ | exact stops_refl _
  case ibin op o1 o2 d a b =>
    apply i
    cases op <;> first | exact stops_limI h _ | exact stops_refl _
  case iun op o d a =>
    apply i
    cases op <;> first | exact stops_limI h _ | exact stops_refl _
  case uprim op o d a b x =>
    apply u
    cases op <;> first | exact stops_lim h _ | exact stops_refl _
  case iprim op o d a t x =>
    apply i
    cases op <;> first | exact stops_limI h _ | exact stops_refl _
  case sprim op o d a b z =>
    apply u
    cases op <;> simp only [SPrim.math] <;> first
      | exact stops_limS h _
      | (split
         · exact stops_refl _
         · exact stops_limS h _)
  case uparsePrefix d text => exact (stops_readNumber h _ _ _).bind fun a => stops_refl _
  case iparsePrefix d text => exact (stops_readNumber h _ _ _).bind fun a => stops_refl _
  case uparse radix d text => exact (stops_readNumber h _ _ _).bind fun a => stops_refl _
  case iparse radix d text => exact (stops_readNumber h _ _ _).bind fun a => stops_refl _
  all_goals first
    | exact u _ _ _ (stops_lim h _)
    | exact i _ _ _ (stops_limI h _)
    | exact stops_refl _

theorem mathProgram_stops {N M : Nat} (h : N ≤ M) (p : List Instr) (s : Store Nat Int) :
    Stops (mathProgram N p s) (mathProgram M p s) := by
  induction p generalizing s with
  | nil => exact stops_refl _
  | cons c p ih =>
    unfold mathProgram
    refine (Instr.stops h s c).bind ?_
    rintro ⟨t, o⟩
    refine (ih t).bind ?_
    rintro ⟨t, o⟩
    exact stops_refl _

/-! ### Steps and programs -/

theorem Instr.ref {cfg : Cfg} (hv : cfg.Valid) (be : Bool) {s : Store UBig IBig} (hs : s.WF cfg) {c : Instr}
    (hc : c.OK cfg) : RefS cfg (c.exec cfg be s) (c.math cfg.bits (s.values cfg)) := by
  cases c
  case ubin op o1 o2 d a b => exact .putU hs d (op.ref hv o1 o2 (hs.1 a) (hs.1 b))
  case ibin op o1 o2 d a b => exact .putI hs d (op.ref hv o1 o2 (hs.2 a) (hs.2 b))
  case udivrem k o1 o2 d e a b =>
    cases k
    · exact .putUU hs d e (UBig.divRem_spec hv o1 o2 (hs.1 a) (hs.1 b))
    · exact .putUU hs d e (UBig.divRem_spec hv o1 o2 (hs.1 a) (hs.1 b))
  case idivrem k o1 o2 d e a b =>
    cases k
    · exact .putII hs d e (IBig.divRem_spec hv o1 o2 (hs.2 a) (hs.2 b))
    · exact .putII hs d e (IBig.divRemEuclid_spec hv o1 o2 (hs.2 a) (hs.2 b))
  case iun op o d a => exact .putI hs d (op.ref hv o (hs.2 a))
  case ushl o d a n => exact .putU hs d (.of_yields (UBig.shl_spec hv o (hs.1 a) hc))
  case ushr o d a n => exact .putU hs d (.of_returns (UBig.shr_spec hv o (hs.1 a) n))
  case ishl o d a n => exact .putI hs d (.of_yields (IBig.shl_spec hv o (hs.2 a) hc))
  case ishr o d a n => exact .putI hs d (.of_returns (IBig.shr_spec hv o (hs.2 a) n))
  case upow d a n => exact .putU hs d (.of_yields (UBig.pow_spec hv (hs.1 a) hc))
  case ipow d a n => exact .putI hs d (.of_yields (IBig.pow_spec hv (hs.2 a) hc))
  case setBit d n =>
    obtain ⟨m, h1, h2⟩ := UBig.setBit_spec hv (hs.1 d) n
    refine .putU hs d (y := lim cfg.bits ((s.u d).value cfg ||| 2 ^ n)) ?_
    have e : (s.u d).value cfg ||| 2 ^ n = m :=
      Nat.eq_of_testBit_eq fun i => by rw [h1, testBit_or_two_pow]
    rw [e]
    exact .of_yields h2
  case clearBit d n =>
    obtain ⟨x, h1, h2, h3⟩ := UBig.clearBit_spec hv (hs.1 d) (n := n) (Or.inl hc)
    refine .putU hs d (y := .ok (((s.u d).value cfg).ldiff (2 ^ n))) ⟨x, h1, h2, ?_⟩
    refine Nat.eq_of_testBit_eq fun i => ?_
    rw [h3, Nat.testBit_ldiff, Nat.testBit_two_pow, ← decide_not]
    show (_ && decide (i ≠ n)) = _
    congr 1
    rw [decide_eq_decide]; exact ne_comm
  case nextPow2 o d a =>
    refine .putU hs d (y := lim cfg.bits (2 ^ Nat.clog 2 ((s.u a).value cfg))) ?_
    rw [clog_eq_bitLen]
    exact .of_yields (UBig.nextPowerOfTwo_spec hv o (hs.1 a))
  case uclone d a => exact .putU hs d (.of_returns (UBig.clone_spec (hs.1 a)))
  case ucloneFrom d a => exact .putU hs d (.of_returns (UBig.cloneFrom_spec (hs.1 a)))
  case ufromUnsigned d b x => exact .putU hs d (.of_returns (UBig.fromUnsigned_ok hv hc.1 hc.2))
  case ifromUnsigned d b x => exact .putI hs d (.of_returns (IBig.fromUnsigned_spec hv hc.1 hc.2))
  case ifromSigned d b z => exact .putI hs d (.of_returns (IBig.fromSigned_spec hv hc.1 hc.2))
  case uprim op o d a b x => exact .putU hs d (op.ref hv o (hs.1 a) hc.1 hc.2)
  case iprim op o d a t z => exact .putI hs d (op.ref hv o (hs.2 a) hc.1 hc.2)
  case sprim op o d a b z => exact .putU hs d (op.ref hv o (hs.1 a) hc.1 hc.2)
  case udivremU o d a b x =>
    obtain ⟨-, -, -, h1, h2, -⟩ := C36_ubig_unsigned hv o (hs.1 a) hc.1 hc.2
    simp only [Instr.exec, Instr.math, Store.putUZ, unlessZero]
    by_cases h : x = 0
    · rw [if_pos h, (h2 h).2.2.2]; rfl
    · rw [if_neg h]
      obtain ⟨c, g1, g2, g3⟩ := (h1 h).2.2.2
      rw [g1]
      obtain ⟨k1, k2⟩ := hs.setU d g2
      exact ⟨_, rfl, k1, by rw [k2, g3]; rfl⟩
  case udivremS k o d a b z =>
    obtain ⟨-, -, -, h1, h2, -⟩ := C36_ubig_signed hv o (hs.1 a) hc.1 hc.2
    have e : (s.values cfg).u a = (s.u a).value cfg := rfl
    simp only [Instr.exec, Instr.math, Store.putUZ, e]
    by_cases h : z = 0
    · cases k <;> simp only [DRem.execS, DRem.mathS] <;> rw [if_pos h]
      · rw [(h2 h).2.2.2.1]; rfl
      · rw [(h2 h).2.2.2.2.2]; rfl
    · obtain ⟨-, -, -, a1, a2, -, a3, a4⟩ := h1 h
      have key : ∀ {x : R (UBig × Int)} {q m : Int},
          (0 ≤ q → ∃ c, x = .ok (c, m) ∧ c.WF cfg ∧ (c.value cfg : Int) = q) →
          (q < 0 → x = .error .negativeUBig) →
          RefS cfg (s.putUZ d x) ((s.values cfg).putUZ d
            (if q < 0 then .error .negativeUBig else .ok (q.toNat, m))) := by
        intro x q m h1 h2
        by_cases hq : q < 0
        · rw [if_pos hq, h2 hq]; rfl
        · rw [if_neg hq]
          obtain ⟨c, g1, g2, g3⟩ := h1 (by omega)
          rw [g1]
          obtain ⟨k1, k2⟩ := hs.setU d g2
          exact ⟨_, rfl, k1, by rw [k2, ← g3]; rfl⟩
      cases k <;> simp only [DRem.execS, DRem.mathS] <;> rw [if_neg h]
      · exact key a1 a2
      · exact key a3 a4
  case idivremU o d e a b x =>
    have hr : (PTy.u b).InRange (x : Int) := by
      have := hc.2
      refine ⟨by omega, ?_⟩
      exact_mod_cast this
    obtain ⟨-, -, -, -, h1, h2, -⟩ := C36_ibig_primitive hv o (hs.2 a) hc.1 hr
    refine .putII hs d e (b := x) ⟨fun h => ?_, fun h => ?_⟩
    · obtain ⟨q, r, g⟩ := (h1 h).2.2.2.1 b rfl
      exact ⟨(q, r), g⟩
    · exact (h2 h).2.2.2.1 b rfl
  case idivremS o d a b z =>
    obtain ⟨-, -, -, -, h1, h2, -⟩ := C36_ibig_primitive hv o (hs.2 a) hc.1 hc.2
    simp only [Instr.exec, Instr.math, Store.putIZ, DRem.mathI, unlessZero]
    by_cases h : z = 0
    · rw [if_pos h, (h2 h).2.2.2.2.1 b rfl]; rfl
    · rw [if_neg h]
      obtain ⟨c, g1, g2, g3⟩ := (h1 h).2.2.2.2.1 b rfl
      rw [g1]
      obtain ⟨k1, k2⟩ := hs.setI d g2
      exact ⟨_, rfl, k1, by rw [k2, g3]; rfl⟩
  case idivremE o d a t z =>
    obtain ⟨-, -, -, -, h1, h2, -⟩ := C36_ibig_primitive hv o (hs.2 a) hc.1 hc.2
    simp only [Instr.exec, Instr.math, Store.putIZ, DRem.mathI, unlessZero]
    by_cases h : z = 0
    · rw [if_pos h, (h2 h).2.2.2.2.2.2.2]; rfl
    · rw [if_neg h]
      obtain ⟨c, g1, g2, g3⟩ := (h1 h).2.2.2.2.2.2.2
      rw [g1]
      obtain ⟨k1, k2⟩ := hs.setI d g2
      exact ⟨_, rfl, k1, by rw [k2, g3]; rfl⟩
  case utryFromPrim d t z =>
    obtain ⟨h1, h2⟩ := UBig.tryFromPrim_spec hv hc.1 hc.2
    simp only [Instr.exec, Instr.math]
    by_cases hneg : z < 0
    · rw [h2 hneg, if_pos hneg]
      exact ⟨s, rfl, hs, rfl⟩
    · obtain ⟨c, g1, g2, g3⟩ := h1 (by omega)
      rw [g1, if_neg hneg]
      obtain ⟨k1, k2⟩ := hs.setU d g2
      refine ⟨s.setU d c, rfl, k1, ?_⟩
      rw [k2]
      congr 1
      omega
  case fromBeBytes d l =>
    refine .putU hs d ?_
    rw [← leBytesVal_eq_ofDigits, UBig.fromBe_eq]
    exact .of_yields ((UBig.fromLeBytes_spec hv (fun x hx => hc.1 x (List.mem_reverse.mp hx))).1
      (le_trans (by rw [List.length_reverse]; exact hc.2) (Nat.mul_le_mul_right _ (Nat.le_add_right _ _))))
  case uparsePrefix d text =>
    have h := readNumber_reads (splitRadix_range _) (C42_from_str_with_radix_prefix hv hc.1).1 hc.2
    simp only [Instr.exec, Instr.math, Store.putParsedU]
    generalize readNumber cfg.bits _ _ id = y at h ⊢
    match y, h with
    | .error p, h => rw [h]; rfl
    | .ok (.error e), h => rw [h]; exact ⟨s, rfl, hs, rfl⟩
    | .ok (.ok n), ⟨c, h1, h2, h3⟩ =>
      rw [h1]
      obtain ⟨k1, k2⟩ := hs.setU d h2
      exact ⟨s.setU d c, rfl, k1, by rw [k2, h3]⟩
  case iparsePrefix d text =>
    have h := readNumber_readsI (splitRadix_range _) (C42_from_str_with_radix_prefix hv hc.1).2 hc.2
    simp only [Instr.exec, Instr.math, Store.putParsedI]
    generalize readNumber cfg.bits _ _ _ = y at h ⊢
    match y, h with
    | .error p, h => rw [h]; rfl
    | .ok (.error e), h => rw [h]; exact ⟨s, rfl, hs, rfl⟩
    | .ok (.ok n), ⟨c, h1, h2, h3⟩ =>
      rw [h1]
      obtain ⟨k1, k2⟩ := hs.setI d h2
      exact ⟨s.setI d c, rfl, k1, by rw [k2, h3]⟩
  case ofUBig d a => exact .putI hs d ⟨_, rfl, IBig.ofUBig_spec hv (hs.1 a)⟩
  case unsignedAbs o d a => exact .putU hs d (.of_returns (IBig.unsignedAbs_spec o (hs.2 a)))
  case tryFromIBig o d a =>
    obtain ⟨h1, h2⟩ := UBig.tryFromIBig_spec o (hs.2 a)
    simp only [Instr.exec, Instr.math]
    by_cases hneg : (s.i a).value cfg < 0
    · rw [h2 hneg]
      rw [if_pos (show (s.values cfg).i a < 0 from hneg)]
      exact ⟨s, rfl, hs, rfl⟩
    · obtain ⟨c, g1, g2, g3⟩ := h1 (by omega)
      rw [g1]
      rw [if_neg (show ¬(s.values cfg).i a < 0 from hneg)]
      obtain ⟨k1, k2⟩ := hs.setU d g2
      refine ⟨s.setU d c, rfl, k1, ?_⟩
      rw [k2]
      congr 1
      show _ = ((s.i a).value cfg).toNat
      omega
  case fromLeBytes d l =>
    refine .putU hs d ?_
    rw [← leBytesVal_eq_ofDigits]
    exact .of_yields ((UBig.fromLeBytes_spec hv hc.1).1
      (le_trans hc.2 (Nat.mul_le_mul_right _ (Nat.le_add_right _ _))))
  case uparse radix d text =>
    have h := readNumber_ubig hv hc.1 hc.2
    simp only [Instr.exec, Instr.math, Store.putParsedU]
    generalize readNumber cfg.bits radix (splitPlus text) id = y at h ⊢
    match y, h with
    | .error p, h => rw [h]; rfl
    | .ok (.error e), h => rw [h]; exact ⟨s, rfl, hs, rfl⟩
    | .ok (.ok n), ⟨c, h1, h2, h3⟩ =>
      rw [h1]
      obtain ⟨k1, k2⟩ := hs.setU d h2
      exact ⟨s.setU d c, rfl, k1, by rw [k2, h3]⟩
  case iparse radix d text =>
    have h := readNumber_ibig hv hc.1 hc.2
    simp only [Instr.exec, Instr.math, Store.putParsedI]
    generalize readNumber cfg.bits radix (splitSign text).2 (signed (splitSign text).1) = y at h ⊢
    match y, h with
    | .error p, h => rw [h]; rfl
    | .ok (.error e), h => rw [h]; exact ⟨s, rfl, hs, rfl⟩
    | .ok (.ok n), ⟨c, h1, h2, h3⟩ =>
      rw [h1]
      obtain ⟨k1, k2⟩ := hs.setI d h2
      exact ⟨s.setI d c, rfl, k1, by rw [k2, h3]⟩
  case look l =>
    simp only [Instr.exec, Instr.math, Look.ref hv be hs l hc, Store.see]
    cases l.math (s.values cfg) with
    | error p => rfl
    | ok o => exact ⟨s, rfl, hs, rfl⟩

theorem runProgram_ref {cfg : Cfg} (hv : cfg.Valid) (be : Bool) (p : List Instr) (hp : ∀ c ∈ p, c.OK cfg)
    {s : Store UBig IBig} (hs : s.WF cfg) :
    RefS cfg (runProgram cfg be p s) (mathProgram cfg.bits p (s.values cfg)) := by
  induction p generalizing s with
  | nil => exact ⟨s, rfl, hs, rfl⟩
  | cons c p ih =>
    have h := Instr.ref hv be hs (hp c (List.mem_cons_self ..))
    unfold runProgram mathProgram
    generalize c.math cfg.bits (s.values cfg) = y at h ⊢
    match y, h with
    | .error e, h =>
      have h : c.exec cfg be s = .error e := h
      rw [h]; rfl
    | .ok (v, o), ⟨t, h1, h2, h3⟩ =>
      rw [h1]
      have g := ih (fun c hc => hp c (List.mem_cons_of_mem _ hc)) h2
      rw [h3] at g
      simp only [bind, Except.bind]
      generalize mathProgram cfg.bits p v = z at g ⊢
      match z, g with
      | .error e, g =>
        have g : runProgram cfg be p t = .error e := g
        rw [g]; rfl
      | .ok (w, os), ⟨t', g1, g2, g3⟩ =>
        rw [g1]
        exact ⟨t', rfl, g2, g3⟩

end Ibig
