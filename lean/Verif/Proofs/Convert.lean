import Verif.Model.Convert
import Verif.Proofs.Bytes
/-! Conversions between big numbers and primitive integers. -/
namespace Ibig

/-- a width of a primitive integer type -/
def PBits (b : Nat) : Prop := b = 8 ∨ b = 16 ∨ b = 32 ∨ b = 64 ∨ b = 128

theorem PBits.eight {b : Nat} (h : PBits b) : b = 8 * (b / 8) := by unfold PBits at h; omega
theorem PBits.le {b : Nat} (h : PBits b) : b ≤ 128 := by unfold PBits at h; omega
theorem PBits.pos {b : Nat} (h : PBits b) : 1 ≤ b := by unfold PBits at h; omega

theorem PBits.words {cfg : Cfg} (hv : cfg.Valid) {b : Nat} (h : PBits b) :
    b / 8 / (cfg.W / 8) = b / cfg.W ∧ (2 ≤ b / cfg.W → b % cfg.W = 0) ∧ (b / cfg.W ≤ 1 → b ≤ cfg.W) := by
  rcases hv.word with hW | hW | hW <;> rw [hW] <;> unfold PBits at h <;> omega

theorem unsignedFromWords_spec {cfg : Cfg} (hv : cfg.Valid) {bits : Nat} (hb : PBits bits) {b : Buffer}
    (h : b.WF cfg) : unsignedFromWords cfg bits b.words =
      .ok (if val cfg.W b.words < 2 ^ bits then some (val cfg.W b.words) else none) := by
  have h2 := h.two
  have hge := h.ge
  have hlt := h.lt
  have hgb := h.ge_base
  obtain ⟨e1, e2, e3⟩ := hb.words hv
  unfold unsignedFromWords
  rw [assertR_true h2, e1]
  show (if _ then _ else _) = _
  by_cases hc : bits / cfg.W ≤ 1 ∨ bits / cfg.W < b.words.length
  · rw [if_pos hc, if_neg]
    rw [not_lt]
    rcases hc with hc | hc
    · exact le_trans (Nat.pow_le_pow_right (by norm_num) (e3 hc)) hgb
    · by_cases h1 : bits / cfg.W ≤ 1
      · exact le_trans (Nat.pow_le_pow_right (by norm_num) (e3 h1)) hgb
      · have hm := Nat.div_add_mod bits cfg.W
        rw [e2 (by omega), Nat.add_zero] at hm
        have e : 2 ^ bits = base cfg.W ^ (bits / cfg.W) := by
          unfold base; rw [← pow_mul, hm]
        rw [e]
        exact le_trans (Nat.pow_le_pow_right (base_pos _) (by omega)) hge
  · rw [if_neg hc, assertR_true (e2 (by omega))]
    simp only [not_or, not_le, not_lt] at hc
    have hm := Nat.div_add_mod bits cfg.W
    rw [e2 (by omega), Nat.add_zero] at hm
    have hl : (b.words.flatMap (toLeBytesN (cfg.W / 8))).length ≤ bits / 8 := by
      rw [length_flatMap_bytes]
      have : cfg.W / 8 * b.words.length ≤ cfg.W / 8 * (bits / cfg.W) := Nat.mul_le_mul_left _ hc.2
      refine le_trans this ?_
      have h8 := hv.W8
      have hb8 := hb.eight
      have : 8 * (cfg.W / 8 * (bits / cfg.W)) = bits := by
        rw [← Nat.mul_assoc, ← h8, hm]
      omega
    show (if _ then _ else _) = _
    rw [if_pos hl, if_pos, leBytesVal_append, leBytesVal_replicate_zero, leBytesVal_flatMap hv h.words]
    · simp
    · refine lt_of_lt_of_le hlt ?_
      rw [← hm, base, ← pow_mul]
      exact Nat.pow_le_pow_right (by norm_num) (Nat.mul_le_mul_left _ hc.2)

theorem UBig.tryToUnsigned_spec {cfg : Cfg} (hv : cfg.Valid) {bits : Nat} (hb : PBits bits) {a : UBig}
    (ha : a.WF cfg) : a.tryToUnsigned cfg bits =
      .ok (if a.value cfg < 2 ^ bits then some (a.value cfg) else none) := by
  cases a with
  | small w => rfl
  | large b => exact unsignedFromWords_spec hv hb ha

theorem UBig.tryToSigned_spec {cfg : Cfg} (hv : cfg.Valid) {bits : Nat} (hb : PBits bits) {a : UBig}
    (ha : a.WF cfg) : a.tryToSigned cfg bits =
      .ok (if a.value cfg < 2 ^ (bits - 1) then some (a.value cfg : Int) else none) := by
  cases a with
  | small w => rfl
  | large b =>
    rw [show (UBig.large b).value cfg = val cfg.W b.words from rfl]
    simp only [UBig.tryToSigned]
    rw [unsignedFromWords_spec hv hb ha]
    have hle : 2 ^ (bits - 1) ≤ 2 ^ bits := Nat.pow_le_pow_right (by norm_num) (by omega)
    by_cases h : val cfg.W b.words < 2 ^ bits
    · rw [if_pos h]; rfl
    · rw [if_neg h, if_neg (by omega)]; rfl

theorem two_pow_pred {b : Nat} (h : 1 ≤ b) : 2 ^ b = 2 * 2 ^ (b - 1) := by
  rw [← pow_succ']; congr 1; omega

theorem toSignMagnitude_spec {b : Nat} (h : 1 ≤ b) {z : Int} (hz : (PTy.i b).InRange z) :
    (toSignMagnitude b z).1.toInt * ((toSignMagnitude b z).2 : Int) = z ∧
    (toSignMagnitude b z).2 < 2 ^ b := by
  obtain ⟨h1, h2⟩ := hz
  have e := two_pow_pred h
  have e' : (2 : Int) ^ b = 2 * 2 ^ (b - 1) := by exact_mod_cast e
  have c1 : ((2 ^ b : Nat) : Int) = 2 ^ b := by push_cast; rfl
  have hp : (0 : Int) < 2 ^ (b - 1) := by positivity
  unfold toSignMagnitude
  by_cases hn : 0 ≤ z
  · rw [if_pos hn]
    unfold asUnsigned
    rw [Int.emod_eq_of_lt hn (by omega)]
    simp only [Sign.toInt, one_mul]
    omega
  · rw [if_neg hn]
    unfold asUnsigned wrappingNegBits
    have hm : z % 2 ^ b = z + 2 ^ b := by
      rw [← Int.add_emod_right, Int.emod_eq_of_lt (by omega) (by omega)]
    rw [hm]
    have hw : (2 ^ b - (z + 2 ^ b).toNat) % 2 ^ b = (-z).toNat := by
      rw [Nat.mod_eq_of_lt (by omega)]
      omega
    simp only [hw, Sign.toInt]
    omega

theorem tryFromSignMagnitude_spec {b : Nat} (h : 1 ≤ b) (s : Sign) {m : Nat} (hm : m < 2 ^ b) :
    ((PTy.i b).InRange (s.toInt * m) → tryFromSignMagnitude b s m = some (s.toInt * m)) ∧
    (¬(PTy.i b).InRange (s.toInt * m) → tryFromSignMagnitude b s m = none) := by
  have e := two_pow_pred h
  have c1 : ((2 ^ b : Nat) : Int) = 2 ^ b := by push_cast; rfl
  have c2 : ((2 ^ (b - 1) : Nat) : Int) = 2 ^ (b - 1) := by push_cast; rfl
  have hp : 0 < 2 ^ (b - 1) := by positivity
  cases s with
  | pos =>
    simp only [PTy.InRange, Sign.toInt, one_mul, tryFromSignMagnitude]
    constructor
    · rintro ⟨-, h2⟩; rw [if_pos (by omega)]
    · intro h2; rw [if_neg (by omega)]
  | neg =>
    simp only [PTy.InRange, Sign.toInt, tryFromSignMagnitude]
    have hw : wrappingNegBits b m = if m = 0 then 0 else 2 ^ b - m := by
      unfold wrappingNegBits
      by_cases hm0 : m = 0
      · subst hm0; simp
      · rw [if_neg hm0, Nat.mod_eq_of_lt (by omega)]
    rw [hw]
    unfold asSigned
    by_cases hm0 : m = 0
    · subst hm0
      simp
    · rw [if_neg hm0]
      by_cases hle : m ≤ 2 ^ (b - 1)
      · rw [if_neg (show ¬2 ^ b - m < 2 ^ (b - 1) by omega), if_pos (by omega)]
        refine ⟨fun _ => by congr 1; omega, fun hc => absurd ?_ hc⟩
        omega
      · rw [if_pos (show 2 ^ b - m < 2 ^ (b - 1) by omega), if_neg (by omega)]
        exact ⟨fun hc => by omega, fun _ => rfl⟩

theorem UBig.fromUnsigned_ok {cfg : Cfg} (hv : cfg.Valid) {b : Nat} (hb : PBits b) {x : Nat}
    (hx : x < 2 ^ b) : Returns (UBig.fromUnsigned cfg b x) fun c => c.WF cfg ∧ c.value cfg = x := by
  obtain ⟨h1, h2⟩ := UBig.fromUnsigned_spec hv hb.eight hb.le hx
  exact h1.returns h2

theorem IBig.fromUnsigned_spec {cfg : Cfg} (hv : cfg.Valid) {b : Nat} (hb : PBits b) {x : Nat}
    (hx : x < 2 ^ b) : Returns (IBig.fromUnsigned cfg b x) fun c => c.WF cfg ∧ c.value cfg = x := by
  refine Returns.bind (UBig.fromUnsigned_ok hv hb hx) ?_
  rintro c ⟨h1, h2⟩
  rw [← h2]
  exact returns_ok.mpr (IBig.ofUBig_spec hv h1)

theorem IBig.fromSigned_spec {cfg : Cfg} (hv : cfg.Valid) {b : Nat} (hb : PBits b) {z : Int}
    (hz : (PTy.i b).InRange z) :
    Returns (IBig.fromSigned cfg b z) fun c => c.WF cfg ∧ c.value cfg = z := by
  obtain ⟨h1, h2⟩ := toSignMagnitude_spec hb.pos hz
  unfold IBig.fromSigned
  generalize toSignMagnitude b z = p at h1 h2
  obtain ⟨s, m⟩ := p
  simp only at h1 h2 ⊢
  refine Returns.bind (UBig.fromUnsigned_ok hv hb h2) ?_
  rintro c ⟨h3, h4⟩
  have := IBig.fromSignMagnitude_spec hv s h3
  refine returns_ok.mpr ⟨this.1, ?_⟩
  rw [this.2, h4, h1]

theorem IBig.fromPrim_spec {cfg : Cfg} (hv : cfg.Valid) {t : PTy} (ht : t.Valid) {z : Int}
    (hz : t.InRange z) : Returns (IBig.fromPrim cfg t z) fun c => c.WF cfg ∧ c.value cfg = z := by
  cases t with
  | u b =>
    obtain ⟨h1, h2⟩ := hz
    have hx : z.toNat < 2 ^ b := by
      have : ((2 ^ b : Nat) : Int) = 2 ^ b := by push_cast; rfl
      omega
    refine (IBig.fromUnsigned_spec hv ht hx).mono ?_
    rintro c ⟨g1, g2⟩
    exact ⟨g1, by rw [g2]; omega⟩
  | i b => exact IBig.fromSigned_spec hv ht hz

theorem UBig.tryFromPrim_spec {cfg : Cfg} (hv : cfg.Valid) {t : PTy} (ht : t.Valid) {z : Int}
    (hz : t.InRange z) :
    (0 ≤ z → ∃ c, UBig.tryFromPrim cfg t z = .ok (some c) ∧ c.WF cfg ∧ (c.value cfg : Int) = z) ∧
    (z < 0 → UBig.tryFromPrim cfg t z = .ok none) := by
  have key : ∀ b, PBits b → 0 ≤ z → z < 2 ^ b →
      ∃ c, (do let u ← UBig.fromUnsigned cfg b z.toNat; .ok (some u)) = (.ok (some c) : R (Option UBig)) ∧
        c.WF cfg ∧ (c.value cfg : Int) = z := by
    intro b hb h0 h1
    have hx : z.toNat < 2 ^ b := by
      have : ((2 ^ b : Nat) : Int) = 2 ^ b := by push_cast; rfl
      omega
    obtain ⟨c, g1, g2, g3⟩ := UBig.fromUnsigned_ok hv hb hx
    exact ⟨c, by rw [g1]; rfl, g2, by rw [g3]; omega⟩
  cases t with
  | u b =>
    exact ⟨fun h0 => key b ht h0 hz.2, fun h0 => absurd hz.1 (by omega)⟩
  | i b =>
    simp only [UBig.tryFromPrim, UBig.tryFromSigned]
    refine ⟨fun h0 => ?_, fun h0 => by rw [if_neg (by omega)]⟩
    rw [if_pos h0]
    refine key b ht h0 (lt_of_lt_of_le hz.2 ?_)
    exact_mod_cast Nat.pow_le_pow_right (by norm_num) (Nat.sub_le b 1)

theorem UBig.tryToPrim_spec {cfg : Cfg} (hv : cfg.Valid) {t : PTy} (ht : t.Valid) {a : UBig}
    (ha : a.WF cfg) :
    (t.InRange (a.value cfg) → a.tryToPrim cfg t = .ok (some (a.value cfg : Int))) ∧
    (¬t.InRange (a.value cfg) → a.tryToPrim cfg t = .ok none) := by
  cases t with
  | u b =>
    have c1 : ((2 ^ b : Nat) : Int) = 2 ^ b := by push_cast; rfl
    simp only [UBig.tryToPrim, PTy.InRange, UBig.tryToUnsigned_spec hv ht ha]
    constructor
    · rintro ⟨-, h⟩; rw [if_pos (by omega)]; rfl
    · intro h; rw [if_neg (by omega)]; rfl
  | i b =>
    have c1 : ((2 ^ (b - 1) : Nat) : Int) = 2 ^ (b - 1) := by push_cast; rfl
    have hp : 0 < 2 ^ (b - 1) := by positivity
    simp only [UBig.tryToPrim, PTy.InRange, UBig.tryToSigned_spec hv ht ha]
    constructor
    · rintro ⟨-, h⟩; rw [if_pos (by omega)]
    · intro h; rw [if_neg (by omega)]

theorem IBig.tryToPrim_spec {cfg : Cfg} (hv : cfg.Valid) {t : PTy} (ht : t.Valid) {a : IBig}
    (ha : a.WF cfg) :
    (t.InRange (a.value cfg) → a.tryToPrim cfg t = .ok (some (a.value cfg))) ∧
    (¬t.InRange (a.value cfg) → a.tryToPrim cfg t = .ok none) := by
  cases t with
  | u b =>
    have c1 : ((2 ^ b : Nat) : Int) = 2 ^ b := by push_cast; rfl
    simp only [IBig.tryToPrim, PTy.InRange, IBig.tryToUnsigned]
    cases hs : a.sign with
    | pos =>
      have hval : a.value cfg = a.mag.value cfg := by unfold IBig.value; rw [hs]; simp [Sign.toInt]
      simp only [UBig.tryToUnsigned_spec hv ht ha.mag, hval]
      constructor
      · rintro ⟨-, h⟩; rw [if_pos (by omega)]; rfl
      · intro h; rw [if_neg (by omega)]; rfl
    | neg =>
      have hval : a.value cfg = -a.mag.value cfg := by unfold IBig.value; rw [hs]; simp [Sign.toInt]
      have h0 : a.mag.value cfg ≠ 0 := fun h => by have := ha.zero h; rw [hs] at this; cases this
      rw [hval]
      exact ⟨fun h => by omega, fun _ => rfl⟩
  | i b =>
    have hle : 2 ^ (b - 1) ≤ 2 ^ b := Nat.pow_le_pow_right (by norm_num) (by omega)
    have e := two_pow_pred (PBits.pos ht)
    have c2 : ((2 ^ (b - 1) : Nat) : Int) = 2 ^ (b - 1) := by push_cast; rfl
    have hp : 0 < 2 ^ (b - 1) := by positivity
    simp only [IBig.tryToPrim, IBig.tryToSigned, UBig.tryToUnsigned_spec hv ht ha.mag]
    by_cases h : a.mag.value cfg < 2 ^ b
    · rw [if_pos h]
      obtain ⟨g1, g2⟩ := tryFromSignMagnitude_spec (PBits.pos ht) a.sign h
      exact ⟨fun hr => congrArg Except.ok (g1 hr), fun hr => congrArg Except.ok (g2 hr)⟩
    · rw [if_neg h]
      refine ⟨fun hr => ?_, fun _ => rfl⟩
      exfalso
      obtain ⟨r1, r2⟩ := hr
      have hna := IBig.natAbs_value (cfg := cfg) a
      omega

end Ibig
