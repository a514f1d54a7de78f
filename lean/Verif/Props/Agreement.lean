import Verif.Proofs.Agreement
import Verif.Props.Arith
import Verif.Props.Bits
import Verif.Props.Bytes
import Verif.Props.Fmt
import Verif.Props.Gcd
import Verif.Props.Modular
import Verif.Props.NumTraits
import Verif.Props.Number
import Verif.Props.Prim
import Verif.Spec.Examples
/-!
# Property C84: different functions of the crate agree with each other

Every statement here compares results of the crate's functions with each other, without reference to the number that a
`UBig` or `IBig` stands for.
-/
namespace Ibig

theorem Agree.of_yields {cfg : Cfg} (hv : cfg.Valid) {x y : R UBig} {n : Nat} (hx : Yields cfg x n)
    (hy : Yields cfg y n) : Agree x y := by
  by_cases hf : Fits cfg n
  · obtain ⟨c, h1, h2, h3⟩ := hx.1 hf
    obtain ⟨d, h4, h5, h6⟩ := hy.1 hf
    exact Or.inr ⟨c, d, h1, h4, (C09_ubig_eq_hash hv h2 h5).1.mpr (h3.trans h6.symm)⟩
  · exact Or.inl ⟨_, hx.2 hf, hy.2 hf⟩

theorem Agree.of_ok {cfg : Cfg} (hv : cfg.Valid) {x y : R UBig} {c d : UBig} (h1 : x = .ok c) (h2 : c.WF cfg)
    (h3 : y = .ok d) (h4 : d.WF cfg) (h : c.value cfg = d.value cfg) : Agree x y :=
  Or.inr ⟨c, d, h1, h3, (C09_ubig_eq_hash hv h2 h4).1.mpr h⟩

theorem one_wf {cfg : Cfg} (hv : cfg.Valid) : (UBig.small 1).WF cfg := by
  show 1 < 2 ^ cfg.W
  exact Nat.one_lt_two_pow (by have := hv.W16; omega)

/-- C84: `bit_len` is the length of the binary text (for numbers other than 0), one more than the position of the
highest bit, and the number of bits that an unsigned type needs; the number of bytes is an eighth of it, rounded up. -/
theorem C84_bit_len {cfg : Cfg} (hv : cfg.Valid) (be : Bool) {a : UBig} (ha : a.WF cfg) :
    ∃ len, a.bitLen cfg = .ok len ∧
      (a.beq (.small 0) = true → len = 0) ∧
      (a.beq (.small 0) = false →
        (∃ text, a.inRadixFmt cfg be 2 .default = .ok text ∧ text.length = len) ∧ a.bit cfg (len - 1) = .ok true) ∧
      (∀ n, len ≤ n → a.bit cfg n = .ok false) ∧
      (∃ bytes, a.toLeBytes cfg = .ok bytes ∧ a.toBeBytes cfg = .ok bytes.reverse ∧ bytes.length = (len + 7) / 8) ∧
      ∀ bits, (PTy.u bits).Valid → ((∃ z, a.tryToPrim cfg (.u bits) = .ok (some z)) ↔ len ≤ bits) := by
  obtain ⟨-, -, ⟨len, h1, h2, h3⟩, -, -⟩ := C16_bit_counts hv .ref ha
  have hz := (C09_ubig_eq_hash hv ha (b := .small 0) (by show 0 < 2 ^ cfg.W; positivity)).1
  have hz0 : (UBig.small 0).value cfg = 0 := rfl
  rw [hz0] at hz
  have hlen : len ≠ 0 → 2 ^ (len - 1) ≤ a.value cfg := by
    intro h0
    by_contra hc
    have := h3 (len - 1) (by omega)
    omega
  have h0 : a.value cfg ≠ 0 → len ≠ 0 := by
    rintro h rfl
    simp at h2; exact h h2
  refine ⟨len, h1, ?_, ?_, ?_, ?_, ?_⟩
  · intro h
    have := h3 0 (by rw [hz.mp h]; decide)
    omega
  · intro h
    have ha0 : a.value cfg ≠ 0 := by
      intro hc; rw [hz.mpr hc] at h; cases h
    constructor
    · obtain ⟨⟨text, ht, he⟩, -⟩ := C21_in_radix hv be (radix := 2) (by decide) (by decide) (f := .default) rfl rfl ha
        (y := ⟨.pos, .small 0⟩) ⟨by show 0 < 2 ^ cfg.W; positivity, fun _ => rfl⟩
      refine ⟨text, he, ?_⟩
      have hc := ht.count
      have hk : len ≤ text.length := h3 _ hc.lt
      rcases hc.ge with h4 | h4
      · have := h0 ha0; omega
      · by_contra hne
        have h5 : 2 ^ len ≤ 2 ^ (text.length - 1) := Nat.pow_le_pow_right (by decide) (by omega)
        omega
    · rw [(C15_bit_set_bit hv ha (len - 1)).1]
      have h4 := hlen (h0 ha0)
      have h5 : a.value cfg < 2 ^ (len - 1 + 1) := by
        rw [Nat.sub_add_cancel (Nat.one_le_iff_ne_zero.mpr (h0 ha0))]; exact h2
      rw [Nat.testBit_eq_decide_div_mod_eq, Nat.div_eq_of_lt_le (k := 1) (by omega) (by rw [pow_succ] at h5; omega)]
      rfl
  · intro n hn
    rw [(C15_bit_set_bit hv ha n).1, Nat.testBit_lt_two_pow (lt_of_lt_of_le h2 (Nat.pow_le_pow_right (by decide) hn))]
  · obtain ⟨l, e1, e2, e3, e4, e5⟩ := C17_to_bytes hv ha
    obtain ⟨s1, s2, s3⟩ := shortest_count e3 e4 e5
    refine ⟨l, e1, e2, ?_⟩
    rw [show (256 : Nat) = 2 ^ 8 from rfl, ← pow_mul] at s1 s2
    have k1 : len ≤ 8 * l.length := h3 _ s1
    by_cases ha0 : a.value cfg = 0
    · have := h3 0 (by rw [ha0]; decide)
      rw [s3 ha0]; simp; omega
    · have k2 := s2 ha0
      have k3 : 2 ^ (8 * l.length) < 2 ^ (8 + len) := by rw [pow_add]; omega
      have := (Nat.pow_lt_pow_iff_right (by decide)).mp k3
      omega
  · intro bits hb
    obtain ⟨-, -, -, h, -⟩ := C18_primitive_conversions hv hb
    obtain ⟨t1, t2⟩ := h a ha
    constructor
    · rintro ⟨z, hz⟩
      by_contra hc
      rw [t2 ?_] at hz
      · cases hz
      · rintro ⟨-, h⟩
        exact hc (h3 bits (by exact_mod_cast h))
    · intro hl
      refine ⟨_, t1 ⟨by positivity, ?_⟩⟩
      have := lt_of_lt_of_le h2 (Nat.pow_le_pow_right (by decide : 0 < 2) hl)
      exact_mod_cast this

/-- A number of 300 words. -/
example := C84_bit_len cfg64_valid false exLong_wf
example : exB.bitLen cfg64 = .ok 65 ∧ exB.toLeBytes cfg64 = .ok [5, 0, 0, 0, 0, 0, 0, 0, 1] ∧
    exB.bit cfg64 64 = .ok true ∧ exB.tryToPrim cfg64 (.u 64) = .ok none := by decide +kernel

/-- C84: `a.bit(n)` is `(a >> n) & 1 == 1`, and `a.set_bit(n)` is `a |= 1 << n`, even as to panics. -/
theorem C84_single_bits {cfg : Cfg} (hv : cfg.Valid) (o : Own) {a : UBig} (ha : a.WF cfg) {n : Nat}
    (hn : n < 2 ^ cfg.U) :
    (∃ s m, a.shr cfg o n = .ok s ∧ s.bitandUnsigned cfg .val 8 1 = .ok m ∧ a.bit cfg n = .ok (m == 1)) ∧
    Agree (a.setBit cfg n) (do
      let m ← (UBig.small 1).shl cfg .val n
      UBig.bitor cfg o .val a m) := by
  obtain ⟨hb, m, hm, hy⟩ := C15_bit_set_bit hv ha n
  constructor
  · obtain ⟨-, s, e1, e2, e3⟩ := C11_ubig_shift hv o ha hn
    obtain ⟨-, -, -, -, -, ⟨k, e4, e5⟩, -⟩ := C36_ubig_unsigned hv .val e2 (b := 8) (Or.inl rfl) (x := 1) (by decide)
    refine ⟨s, k, e1, e4, ?_⟩
    have hk : k = a.value cfg / 2 ^ n % 2 := by
      apply Nat.eq_of_testBit_eq
      intro i
      rw [e5, e3, ← Nat.testBit_and, Nat.and_one_is_mod]
    rw [hb, hk, Nat.testBit_eq_decide_div_mod_eq]
    rcases Nat.mod_two_eq_zero_or_one (a.value cfg / 2 ^ n) with h | h <;> rw [h] <;> rfl
  · have hm' : m = a.value cfg ||| 2 ^ n := by
      apply Nat.eq_of_testBit_eq
      intro i
      rw [hm, testBit_or_two_pow]
    have h1 := (C11_ubig_shift hv .val (one_wf hv) hn).1
    rw [show (UBig.small 1).value cfg = 1 from rfl, Nat.one_mul] at h1
    by_cases hf : Fits cfg (2 ^ n)
    · obtain ⟨c, e1, e2, e3⟩ := h1.1 hf
      obtain ⟨-, ⟨d, e4, e5, e6⟩, -⟩ := C13_ubig_bitwise hv o .val ha e2
      have hd : d.value cfg = m := by
        apply Nat.eq_of_testBit_eq
        intro i
        rw [e6, hm', Nat.testBit_or, e3]
      obtain ⟨b, e7, e8, e9⟩ := hy.1 (hd ▸ UBig.WF.fits hv e5)
      refine Agree.of_ok hv e7 e8 (d := d) ?_ e5 (e9.trans hd.symm)
      rw [e1]; exact e4
    · refine Or.inl ⟨.tooLarge, hy.2 ?_, ?_⟩
      · rw [hm']
        exact fun h => hf (lt_of_le_of_lt Nat.right_le_or h)
      · rw [h1.2 hf]; rfl

example := C84_single_bits cfg64_valid .ref exLong_wf (n := 2 ^ 50) (by decide)
example : exB.setBit cfg64 (2 ^ 64 - 1) = .error .tooLarge ∧
    (do let m ← (UBig.small 1).shl cfg64 .val (2 ^ 64 - 1); UBig.bitor cfg64 .ref .val exB m) = .error .tooLarge := by
  decide +kernel

/-- C84: `trailing_zeros` is the position of the lowest bit; shifting right by at most that many bits, and back, changes
nothing. -/
theorem C84_trailing_zeros {cfg : Cfg} (hv : cfg.Valid) (o : Own) {a : UBig} (ha : a.WF cfg) :
    (a.trailingZeros cfg = .ok none ↔ a.beq (.small 0) = true) ∧
    ∀ k, a.trailingZeros cfg = .ok (some k) →
      a.bit cfg k = .ok true ∧ (∀ j < k, a.bit cfg j = .ok false) ∧
      ∀ j ≤ k, Agree (do
        let s ← a.shr cfg o j
        s.shl cfg .val j) (.ok a) := by
  obtain ⟨h1, h2, -⟩ := C16_bit_counts hv .ref ha
  have hz := (C09_ubig_eq_hash hv ha (b := .small 0) (by show 0 < 2 ^ cfg.W; positivity)).1
  rw [show (UBig.small 0).value cfg = 0 from rfl] at hz
  constructor
  · rw [hz]
    constructor
    · intro h
      by_contra h0
      obtain ⟨k, e, -⟩ := h2 h0
      rw [h] at e; cases e
    · exact h1
  · intro k hk
    have h0 : a.value cfg ≠ 0 := by
      intro h; rw [h1 h] at hk; cases hk
    obtain ⟨k', e, hd, hmax⟩ := h2 h0
    rw [e] at hk
    obtain rfl : k' = k := by injection hk with h; injection h
    have hlt : a.value cfg < 2 ^ (cfg.maxLen * cfg.W) := UBig.WF.fits hv ha
    have hkU : k' < 2 ^ cfg.U := by
      have h3 : 2 ^ k' < 2 ^ (cfg.maxLen * cfg.W) := lt_of_le_of_lt (Nat.le_of_dvd (by omega) hd) hlt
      have h4 := (Nat.pow_lt_pow_iff_right (by decide)).mp h3
      have := hv.bits
      omega
    obtain ⟨q, hq⟩ := hd
    have hq1 : q % 2 = 1 := by
      by_contra hc
      have h3 : q % 2 = 0 := by omega
      have := hmax (k' + 1) ⟨q / 2, by rw [hq, pow_succ, Nat.mul_assoc, Nat.mul_div_cancel' (Nat.dvd_of_mod_eq_zero h3)]⟩
      omega
    refine ⟨?_, ?_, ?_⟩
    · rw [(C15_bit_set_bit hv ha k').1, Nat.testBit_eq_decide_div_mod_eq, hq, Nat.mul_div_cancel_left _ (by positivity), hq1]
      rfl
    · intro j hj
      rw [(C15_bit_set_bit hv ha j).1, Nat.testBit_eq_decide_div_mod_eq, hq, show k' = j + 1 + (k' - j - 1) by omega,
        pow_add, pow_succ, Nat.mul_assoc, Nat.mul_assoc, Nat.mul_div_cancel_left _ (by positivity), Nat.mul_mod_right]
      rfl
    · intro j hj
      obtain ⟨-, s, e1, e2, e3⟩ := C11_ubig_shift hv o ha (lt_of_le_of_lt hj hkU)
      have e4 := (C11_ubig_shift hv .val e2 (lt_of_le_of_lt hj hkU)).1
      rw [e3, Nat.div_mul_cancel ⟨2 ^ (k' - j) * q, by rw [hq, ← Nat.mul_assoc, ← pow_add]; congr 2; omega⟩] at e4
      obtain ⟨c, e5, e6, e7⟩ := e4.1 hlt
      refine Agree.of_ok hv (c := c) ?_ e6 rfl ha e7
      rw [e1]; exact e5

example := C84_trailing_zeros cfg64_valid .ref exLong_wf
example : (UBig.large ⟨[0, 96], 4⟩).trailingZeros cfg64 = .ok (some 69) := by decide +kernel

/-- C84: a power of two is a number that is its own `next_power_of_two`, and a number with a single bit. -/
theorem C84_power_of_two {cfg : Cfg} (hv : cfg.Valid) (o : Own) {a : UBig} (ha : a.WF cfg) :
    (a.isPowerOfTwo = .ok true ↔ ∃ c, a.nextPowerOfTwo cfg o = .ok c ∧ c.beq a = true) ∧
    (a.isPowerOfTwo = .ok true ↔ ∃ k, a.trailingZeros cfg = .ok (some k) ∧ a.bitLen cfg = .ok (k + 1)) := by
  obtain ⟨h1, h2, ⟨len, l1, l2, l3⟩, ⟨r, e1, e2⟩, ⟨k, e3, e4, e5⟩⟩ := C16_bit_counts hv o ha
  have hr : a.isPowerOfTwo = .ok true ↔ ∃ k, a.value cfg = 2 ^ k := by
    rw [e1, ← e2]; simp
  constructor
  · rw [hr]
    constructor
    · rintro ⟨j, hj⟩
      have : a.value cfg = 2 ^ k := by
        have := Nat.pow_le_pow_right (show 0 < 2 by decide) (e5 j hj.le)
        omega
      obtain ⟨c, e6, e7, e8⟩ := e3.1 (this ▸ UBig.WF.fits hv ha)
      exact ⟨c, e6, (C09_ubig_eq_hash hv e7 ha).1.mpr (e8.trans this.symm)⟩
    · rintro ⟨c, e6, e7⟩
      by_cases hf : Fits cfg (2 ^ k)
      · obtain ⟨d, e8, e9, e10⟩ := e3.1 hf
        rw [e6] at e8
        injection e8 with e8
        subst e8
        exact ⟨k, ((C09_ubig_eq_hash hv e9 ha).1.mp e7).symm.trans e10⟩
      · rw [e3.2 hf] at e6; cases e6
  · rw [hr]
    constructor
    · rintro ⟨j, hj⟩
      obtain ⟨i, f1, f2, f3⟩ := h2 (by rw [hj]; positivity)
      rw [hj] at f2 f3 l2 l3
      have h4 := f3 j dvd_rfl
      have h5 := (Nat.pow_dvd_pow_iff_le_right (by decide)).mp f2
      have h6 := (Nat.pow_lt_pow_iff_right (by decide)).mp l2
      have h7 := l3 (j + 1) (Nat.pow_lt_pow_right (by decide) (by omega))
      obtain rfl : i = j := by omega
      exact ⟨i, f1, by rw [l1]; congr 1; omega⟩
    · rintro ⟨i, f1, f2⟩
      have h0 : a.value cfg ≠ 0 := by
        intro h; rw [h1 h] at f1; cases f1
      obtain ⟨i', f3, ⟨q, hq⟩, -⟩ := h2 h0
      rw [f3] at f1
      obtain rfl : i' = i := by injection f1 with h; injection h
      rw [l1] at f2
      injection f2 with f2
      rw [f2, hq, pow_succ] at l2
      have h3 : q < 2 := Nat.lt_of_mul_lt_mul_left l2
      have h4 : q ≠ 0 := by rintro rfl; rw [Nat.mul_zero] at hq; exact h0 hq
      exact ⟨i', by rw [hq, show q = 1 by omega, Nat.mul_one]⟩

example := C84_power_of_two cfg64_valid .ref exLong_wf
example : (UBig.large ⟨[0, 64], 4⟩).isPowerOfTwo = .ok true ∧ (UBig.large ⟨[0, 64], 4⟩).bitLen cfg64 = .ok 71 ∧
    (UBig.large ⟨[0, 64], 4⟩).trailingZeros cfg64 = .ok (some 70) := by decide +kernel

/-- C84: `==`, `cmp`, hashing, the bytes, the text in any radix and `^` agree about which numbers are equal. -/
theorem C84_equality {cfg : Cfg} (hv : cfg.Valid) (be : Bool) (o1 o2 : Own) {radix : Nat} (h2 : 2 ≤ radix)
    (h36 : radix ≤ 36) {f : FmtFlags} (hw : f.width = none) (hp : f.plus = false) {a b : UBig} (ha : a.WF cfg)
    (hb : b.WF cfg) :
    (a.beq b = true ↔ a.cmp b = .ok .eq) ∧
    (a.beq b = true ↔ a.hashTokens = b.hashTokens) ∧
    (a.beq b = true ↔ a.toLeBytes cfg = b.toLeBytes cfg) ∧
    (a.beq b = true ↔ a.toBeBytes cfg = b.toBeBytes cfg) ∧
    (a.beq b = true ↔ a.inRadixFmt cfg be radix f = b.inRadixFmt cfg be radix f) ∧
    (a.beq b = true ↔ ∃ c, UBig.bitxor cfg o1 o2 a b = .ok c ∧ c.beq (.small 0) = true) := by
  obtain ⟨h, hh⟩ := C09_ubig_eq_hash hv ha hb
  obtain ⟨l, l1, l2, l3, l4, l5⟩ := C17_to_bytes hv ha
  obtain ⟨m, m1, m2, m3, m4, m5⟩ := C17_to_bytes hv hb
  have hlm : a.value cfg = b.value cfg ↔ l = m := by
    constructor
    · intro e
      have e1 : l.length = m.length := le_antisymm (l5 m m3 (m4.trans e.symm)) (m5 l l3 (l4.trans e))
      exact Nat.ofDigits_inj_of_len_eq (by decide) e1 (fun x hx => l3 x hx) (fun x hx => m3 x hx)
        (l4.trans (e.trans m4.symm))
    · rintro rfl; rw [← l4, ← m4]
  obtain ⟨⟨s, s1, s2⟩, -⟩ := C21_in_radix hv be h2 h36 hw hp ha (IBig.ofUBig_spec hv ha).1
  obtain ⟨⟨t, t1, t2⟩, -⟩ := C21_in_radix hv be h2 h36 hw hp hb (IBig.ofUBig_spec hv hb).1
  rw [h]
  refine ⟨?_, hh.symm, ?_, ?_, ?_, ?_⟩
  · rw [(C10_cmp hv).1 ha hb]
    simp only [Except.ok.injEq, compare_eq_iff_eq]
  · rw [l1, m1, hlm]; simp only [Except.ok.injEq]
  · rw [l2, m2, hlm]; simp only [Except.ok.injEq, List.reverse_inj]
  · rw [s2, t2]
    simp only [Except.ok.injEq]
    constructor
    · intro e; rw [e] at s1; exact C21_unique h2 s1 t1
    · rintro rfl
      have h3 := s1.lt_iff h2 h36 t1
      have h4 := t1.lt_iff h2 h36 s1
      have h5 : ¬ Precedes s s := by rintro (h5 | h5)
                                     · omega
                                     · exact lt_irrefl _ h5.2
      rw [iff_false_right h5] at h3 h4
      omega
  · obtain ⟨-, -, ⟨c, c1, c2, c3⟩, -⟩ := C13_ubig_bitwise hv o1 o2 ha hb
    have hz := (C09_ubig_eq_hash hv c2 (b := .small 0) (by show 0 < 2 ^ cfg.W; positivity)).1
    rw [show (UBig.small 0).value cfg = 0 from rfl] at hz
    have h3 : c.value cfg = 0 ↔ a.value cfg = b.value cfg := by
      constructor
      · intro e
        apply Nat.eq_of_testBit_eq
        intro i
        have := c3 i
        rw [e, Nat.zero_testBit] at this
        simpa using this.symm
      · intro e
        apply Nat.eq_of_testBit_eq
        intro i
        rw [c3 i, e]; simp
    rw [← h3, ← hz, c1]
    simp

example := C84_equality cfg64_valid true .ref .val (radix := 36) (by decide) (by decide) (f := .default) rfl rfl exLong_wf
  exB_wf

/-- C84: `cmp` agrees with subtraction (which panics exactly if the result would be negative), with the order of the
texts in any radix, and with the order of the big-endian bytes: shorter ones first, then in lexicographic order. -/
theorem C84_order {cfg : Cfg} (hv : cfg.Valid) (be : Bool) (o1 o2 : Own) {radix : Nat} (h2 : 2 ≤ radix)
    (h36 : radix ≤ 36) {f : FmtFlags} (hw : f.width = none) (hp : f.plus = false) {a b : UBig} (ha : a.WF cfg)
    (hb : b.WF cfg) :
    (a.cmp b = .ok .lt ↔ UBig.sub cfg o1 o2 a b = .error .negativeUBig) ∧
    (a.cmp b ≠ .ok .lt ↔ ∃ c, UBig.sub cfg o1 o2 a b = .ok c) ∧
    (∃ s t, a.inRadixFmt cfg be radix f = .ok s ∧ b.inRadixFmt cfg be radix f = .ok t ∧
      (a.cmp b = .ok .lt ↔ Precedes s t)) ∧
    (∃ l m, a.toBeBytes cfg = .ok l ∧ b.toBeBytes cfg = .ok m ∧ (a.cmp b = .ok .lt ↔ Precedes l m)) := by
  obtain ⟨l, l1, l2, l3, l4, l5⟩ := C17_to_bytes hv ha
  obtain ⟨m, m1, m2, m3, m4, m5⟩ := C17_to_bytes hv hb
  obtain ⟨⟨s, s1, s2⟩, -⟩ := C21_in_radix hv be h2 h36 hw hp ha (IBig.ofUBig_spec hv ha).1
  obtain ⟨⟨t, t1, t2⟩, -⟩ := C21_in_radix hv be h2 h36 hw hp hb (IBig.ofUBig_spec hv hb).1
  have hc : a.cmp b = .ok .lt ↔ a.value cfg < b.value cfg := by
    rw [(C10_cmp hv).1 ha hb]
    simp only [Except.ok.injEq, compare_lt_iff_lt]
  obtain ⟨d1, d2⟩ := C02_ubig_sub hv o1 o2 ha hb
  refine ⟨?_, ?_, ⟨s, t, s2, t2, hc.trans (s1.lt_iff h2 h36 t1)⟩, ⟨_, _, l2, m2, hc.trans ?_⟩⟩
  · rw [hc]
    refine ⟨d2, fun h => ?_⟩
    by_contra hn
    obtain ⟨c, e, -⟩ := d1 (by omega)
    rw [e] at h; cases h
  · rw [ne_eq, hc]
    constructor
    · intro h
      obtain ⟨c, e, -⟩ := d1 (by omega)
      exact ⟨c, e⟩
    · rintro ⟨c, e⟩ h
      rw [d2 h] at e; cases e
  · exact shortest_lt_iff l3 l4 l5 m3 m4 m5

example := C84_order cfg64_valid true .ref .val (radix := 36) (by decide) (by decide) (f := .default) rfl rfl exLong_wf
  exB_wf
example : Precedes ("ff".toList.map (·.toNat)) ("100".toList.map (·.toNat)) ∧
    Precedes ("9z".toList.map (·.toNat)) ("a0".toList.map (·.toNat)) := by
  unfold Precedes; decide

/-- C84: the order of two `IBig` is the sign of their difference, unless it is too large. -/
theorem C84_ibig_order {cfg : Cfg} (hv : cfg.Valid) (o1 o2 : Own) {a b d z : IBig} (ha : a.WF cfg) (hb : b.WF cfg)
    (hd : IBig.sub cfg o1 o2 a b = .ok d) (hz : IBig.zero cfg = .ok z) :
    a.cmp b = d.cmp z ∧ (a.cmp b = .ok .lt ↔ d.isNegative cfg = .ok true) ∧
    (a.cmp b = .ok .gt ↔ d.isPositive cfg = .ok true) ∧ (a.beq b = true ↔ d.isZero cfg = .ok true) := by
  have h1 := (C03_ibig_add_sub hv o1 o2 ha hb).2
  obtain ⟨-, hn, -, -, ⟨z', e1, e2, e3⟩, -⟩ := C37_num_traits hv
  rw [hz] at e1
  injection e1 with e1
  subst e1
  by_cases hf : Fits cfg (a.value cfg - b.value cfg).natAbs
  · obtain ⟨c, h2, h3, h4⟩ := h1.1 hf
    rw [hd] at h2
    injection h2 with h2
    subst h2
    obtain ⟨n1, n2, n3⟩ := hn d h3
    rw [(C10_cmp hv).2 ha hb, (C10_cmp hv).2 h3 e2, e3, n1, n2, n3, (C09_ibig_eq_hash hv ha hb).1, h4]
    refine ⟨?_, ?_, ?_, ?_⟩
    · congr 1
      rcases lt_trichotomy (a.value cfg) (b.value cfg) with h | h | h
      · rw [compare_lt_iff_lt.mpr h, compare_lt_iff_lt.mpr (by omega)]
      · rw [compare_eq_iff_eq.mpr h, compare_eq_iff_eq.mpr (by omega)]
      · rw [compare_gt_iff_gt.mpr h, compare_gt_iff_gt.mpr (by omega)]
    · simp only [Except.ok.injEq, compare_lt_iff_lt, decide_eq_true_eq]; omega
    · simp only [Except.ok.injEq, compare_gt_iff_gt, decide_eq_true_eq]; omega
    · simp only [Except.ok.injEq, decide_eq_true_eq]; omega
  · rw [h1.2 hf] at hd; cases hd

example : ∃ d z, IBig.sub cfg64 .ref .ref exNegA exPosB = .ok d ∧ IBig.zero cfg64 = .ok z :=
  ⟨_, _, rfl, rfl⟩

/-- C84: `b` divides `a` according to `%` exactly if `gcd(a, b)` is `b`; `a / b` and `a % b` are what `div_rem` returns;
`extended_gcd` returns the same `gcd`; `gcd` is symmetric; with 0 as the divisor everything panics (but `gcd(a, 0)` is
`a`). -/
theorem C84_division {cfg : Cfg} (hv : cfg.Valid) (o1 o2 : Own) {a b : UBig} (ha : a.WF cfg) (hb : b.WF cfg) :
    (b.beq (.small 0) = false →
      ((∃ r, UBig.rem cfg o1 o2 a b = .ok r ∧ r.beq (.small 0) = true) ↔ Agree (a.gcd cfg b) (.ok b)) ∧
      Agree (UBig.div cfg o1 o2 a b) (do let (q, _) ← UBig.divRem cfg o1 o2 a b; .ok q) ∧
      Agree (UBig.rem cfg o1 o2 a b) (do let (_, r) ← UBig.divRem cfg o1 o2 a b; .ok r)) ∧
    Agree (a.gcd cfg b) (b.gcd cfg a) ∧
    (∀ g x y, a.extendedGcd cfg b = .ok (g, x, y) → Agree (a.gcd cfg b) (.ok g)) ∧
    (a.beq (.small 0) = false → Agree (a.gcd cfg (.small 0)) (.ok a)) := by
  have h0 : (UBig.small 0).WF cfg := by show 0 < 2 ^ cfg.W; positivity
  have hz : ∀ {x : UBig}, x.WF cfg → (x.beq (.small 0) = true ↔ x.value cfg = 0) := fun hx =>
    (C09_ubig_eq_hash hv hx h0).1
  have hz' : ∀ {x : UBig}, x.WF cfg → x.beq (.small 0) = false → x.value cfg ≠ 0 := by
    intro x hx h e
    rw [(hz hx).mpr e] at h; cases h
  have hg := C24_ubig_gcd hv ha hb
  refine ⟨?_, ?_, ?_, ?_⟩
  · intro hb0
    have hb1 := hz' hb hb0
    obtain ⟨q, r, e1, e2, e3, e4, e5, e6, q', r', e7, e8, e9, e10, e11⟩ := C05_ubig_div hv o1 o2 ha hb hb1
    obtain ⟨g, g1, g2, g3⟩ := hg.1 (fun h => hb1 h.2)
    refine ⟨?_, Agree.of_ok hv e1 e3 (by rw [e7]; rfl) e8 e10.symm, Agree.of_ok hv e2 e4 (by rw [e7]; rfl) e9 e11.symm⟩
    have h1 : (∃ r', UBig.rem cfg o1 o2 a b = .ok r' ∧ r'.beq (.small 0) = true) ↔ r.value cfg = 0 := by
      rw [e2]
      constructor
      · rintro ⟨_, h1, h2⟩
        injection h1 with h1
        subst h1
        exact (hz e4).mp h2
      · exact fun h => ⟨r, rfl, (hz e4).mpr h⟩
    have h2 : Agree (a.gcd cfg b) (.ok b) ↔ g.value cfg = b.value cfg := by
      constructor
      · rintro (⟨p, h1, h2⟩ | ⟨c, d, h1, h2, h3⟩)
        · cases h2
        · rw [g1] at h1
          injection h1 with h1
          injection h2 with h2
          subst h1 h2
          exact (C09_ubig_eq_hash hv g2 hb).1.mp h3
      · exact fun h => Agree.of_ok hv g1 g2 rfl hb h
    rw [h1, h2, g3, Nat.gcd_eq_right_iff_dvd]
    constructor
    · intro h; rw [e5, h, Nat.add_zero]; exact Nat.dvd_mul_left _ _
    · intro h
      have h3 : b.value cfg ∣ r.value cfg := by
        rw [e5] at h
        exact (Nat.dvd_add_right (Nat.dvd_mul_left _ _)).mp h
      exact Nat.eq_zero_of_dvd_of_lt h3 e6
  · have hg' := C24_ubig_gcd hv hb ha
    by_cases h : a.value cfg = 0 ∧ b.value cfg = 0
    · exact Or.inl ⟨_, hg.2 h.1 h.2, hg'.2 h.2 h.1⟩
    · obtain ⟨g, g1, g2, g3⟩ := hg.1 h
      obtain ⟨g', g4, g5, g6⟩ := hg'.1 (fun h' => h h'.symm)
      exact Agree.of_ok hv g1 g2 g4 g5 (by rw [g3, g6, Nat.gcd_comm])
  · intro g x y he
    have hx := C25_ubig_extended_gcd hv ha hb
    by_cases h : a.value cfg = 0 ∧ b.value cfg = 0
    · rw [hx.2 h.1 h.2] at he; cases he
    · obtain ⟨g', g1, g2, g3⟩ := hg.1 h
      rcases hx.1 h with ⟨g4, x4, y4, f1, f2, -, -, f3⟩ | ⟨f1, -⟩
      · rw [he] at f1
        injection f1 with f1
        injection f1 with f1
        subst f1
        exact Agree.of_ok hv g1 g2 rfl f2 (by rw [g3, f3.gcd])
      · rw [he] at f1; cases f1
  · intro ha0
    obtain ⟨g', g1, g2, g3⟩ := (C24_ubig_gcd hv ha h0).1 (fun h => hz' ha ha0 h.1)
    exact Agree.of_ok hv g1 g2 rfl ha (by rw [g3]; exact Nat.gcd_zero_right _)

example := C84_division cfg64_valid .ref .val exLong_wf exB_wf
example : ∃ g x y, exA.extendedGcd cfg64 exB = .ok (g, x, y) := by
  obtain ⟨g, x, y, h, -⟩ := ((C25_ubig_extended_gcd cfg64_valid exA_wf exB_wf).1 (by decide +kernel)).resolve_right
    fun h => h.2 (fitsEx 130 (by decide +kernel) (by decide))
  exact ⟨g, x, y, h⟩

/-- C84: reducing in a ring agrees with `%`, unless the ring rejects the number as too large; an element is invertible
exactly if its `gcd` with the modulus is 1. -/
theorem C84_modular {cfg : Cfg} (hv : cfg.Valid) (addr : Nat) (o o1 o2 : Own) {a n : UBig} (ha : a.WF cfg)
    (hn : n.WF cfg) :
    (Agree (do
        let r ← Ring.new cfg addr n
        let x ← r.fromUBig cfg o a
        x.residue cfg) (UBig.rem cfg o1 o2 a n) ∨
      (do
        let r ← Ring.new cfg addr n
        r.fromUBig cfg o a) = .error .tooLarge) ∧
    ∀ r x i, Ring.new cfg addr n = .ok r → r.fromUBig cfg o a = .ok x → x.inverse cfg = .ok i →
      (i.isSome ↔ Agree (a.gcd cfg n) (.ok (.small 1))) := by
  by_cases h0 : n.value cfg = 0
  · constructor
    · left; left
      refine ⟨.divideByZero, ?_, ((C06_div_by_zero hv o1 o2).1 ha hn h0).2.1⟩
      rw [(C27_new hv addr hn).2 h0]; rfl
    · intro r x i h
      rw [(C27_new hv addr hn).2 h0] at h; cases h
  · obtain ⟨r, h1, -, hr, -⟩ := (C27_new hv addr hn).1 h0
    have hf := C27_from_ubig hv hr o ha
    constructor
    · by_cases hA : Accepts cfg (n.value cfg) (a.value cfg)
      · left
        obtain ⟨x, h2, h3⟩ := hf.1 hA
        obtain ⟨-, c, h4, h5, h6⟩ := C27_residue hv hr h3
        obtain ⟨q, t, -, e2, -, e4, e5, e6, -⟩ := C05_ubig_div hv o1 o2 ha hn h0
        refine Agree.of_ok hv (c := c) ?_ h5 e2 e4 ?_
        · rw [h1]
          show (do let x ← r.fromUBig cfg o a; x.residue cfg) = _
          rw [h2]; exact h4
        · rw [h6, e5, Nat.mul_comm, Nat.mul_add_mod, Nat.mod_eq_of_lt e6]
      · right
        rw [h1]; exact hf.2 hA
    · intro r' x i e1 e2 e3
      rw [h1] at e1
      injection e1 with e1
      subst e1
      have hA : Accepts cfg (n.value cfg) (a.value cfg) := by
        by_contra hA
        rw [hf.2 hA] at e2; cases e2
      obtain ⟨x', h2, h3⟩ := hf.1 hA
      rw [e2] at h2
      injection h2 with h2
      subst h2
      obtain ⟨g, g1, g2, g3⟩ := (C24_ubig_gcd hv ha hn).1 (fun h => h0 h.2)
      have h4 : Agree (a.gcd cfg n) (.ok (.small 1)) ↔ Nat.gcd (a.value cfg % n.value cfg) (n.value cfg) = 1 := by
        rw [← Nat.gcd_rec, Nat.gcd_comm, ← g3]
        constructor
        · rintro (⟨p, h1, h2⟩ | ⟨c, d, h1, h2, h3⟩)
          · cases h2
          · rw [g1] at h1
            injection h1 with h1
            injection h2 with h2
            subst h1 h2
            exact (C09_ubig_eq_hash hv g2 (one_wf hv)).1.mp h3
        · exact fun h => Agree.of_ok hv g1 g2 rfl (one_wf hv) h
      rw [h4]
      rcases C28_inverse hv hr h3 with ⟨k1, m, j, k2, -⟩ | ⟨k1, k2⟩ | ⟨k2, -⟩
      · rw [e3] at k2
        injection k2 with k2
        subst k2
        exact iff_of_true rfl k1
      · rw [e3] at k2
        injection k2 with k2
        subst k2
        exact iff_of_false (by simp) k1
      · rw [e3] at k2; cases k2

example := C84_modular cfg64_valid 0 .ref .val .ref exLong_wf exB_wf

/-- C84: the formatting traits print what `in_radix` prints, and the text of an `IBig` is the text of its
`unsigned_abs`, after a `-` exactly if the number is negative. -/
theorem C84_texts {cfg : Cfg} (hv : cfg.Valid) (be : Bool) (o : Own) {x : UBig} (hx : x.WF cfg) {y : IBig}
    (hy : y.WF cfg) :
    (∀ t, x.fmt cfg be t .default =
      x.inRadixFmt cfg be (traitRadix t) { FmtFlags.default with alternate := decide (t = .upperHex) }) ∧
    (∀ t, y.fmt cfg be t .default =
      y.inRadixFmt cfg be (traitRadix t) { FmtFlags.default with alternate := decide (t = .upperHex) }) ∧
    ∀ radix, 2 ≤ radix → radix ≤ 36 → ∀ f : FmtFlags, f.width = none → f.plus = false →
      ∃ c s, y.unsignedAbs cfg o = .ok c ∧ c.inRadixFmt cfg be radix f = .ok s ∧
        (y.isNegative cfg = .ok true → y.inRadixFmt cfg be radix f = .ok ('-'.toNat :: s)) ∧
        (y.isNegative cfg = .ok false → y.inRadixFmt cfg be radix f = .ok s) := by
  refine ⟨?_, ?_, ?_⟩
  · intro t
    obtain ⟨⟨s, s1, s2⟩, -⟩ := C21_traits hv be t hx hy
    obtain ⟨⟨u, u1, u2⟩, -⟩ := C21_in_radix hv be (radix := traitRadix t) (by cases t <;> decide) (by cases t <;> decide)
      (f := { FmtFlags.default with alternate := decide (t = .upperHex) }) rfl rfl hx hy
    rw [s2, u2, C21_unique (by cases t <;> decide) s1 u1]
  · intro t
    obtain ⟨-, ⟨s, s1, s2⟩⟩ := C21_traits hv be t hx hy
    obtain ⟨-, ⟨u, u1, u2⟩⟩ := C21_in_radix hv be (radix := traitRadix t) (by cases t <;> decide) (by cases t <;> decide)
      (f := { FmtFlags.default with alternate := decide (t = .upperHex) }) rfl rfl hx hy
    rw [s2, u2, C21_unique (by cases t <;> decide) s1 u1]
  · intro radix h2 h36 f hw hp
    obtain ⟨-, -, ⟨c, c1, c2, c3⟩, -⟩ := C37_signs hv o hy
    obtain ⟨⟨s, s1, s2⟩, ⟨u, u1, u2⟩⟩ := C21_in_radix hv be h2 h36 hw hp c2 hy
    rw [c3] at s1
    obtain rfl := C21_unique h2 s1 u1
    rw [((C37_num_traits hv).2.1 y hy).2.2, u2]
    refine ⟨c, s, c1, s2, ?_, ?_⟩
    · intro h
      injection h with h
      rw [if_pos (of_decide_eq_true h)]; rfl
    · intro h
      injection h with h
      rw [if_neg (of_decide_eq_false h)]; rfl

example := C84_texts cfg64_valid true .ref exLong_wf exNegA_wf

end Ibig
