import Verif.Props.Address
import Verif.Proofs.ModularCost
import Verif.Props.AddTime
/-!
# Property C73: how much scratch memory the algorithms ask for

The four places in the crate that allocate scratch memory ask for a number of bytes that is linear in the
length of the operands; only modular powers ask for more, for their table of powers.  `t.size` is the size
of a word in bytes. -/
namespace Ibig

theorem Agrees.size {t : Target} {x : R Layout} {w : Nat} (h : Agrees t x w) {l : Layout} (hl : x = .ok l) :
    l.size = w * t.size := by
  rcases h with ⟨l', e, hw⟩ | ⟨e, _⟩
  · rw [e] at hl; cases hl; exact hw.1
  · rw [e] at hl; cases hl

/-- C73: a multiplication whose shorter factor has `n` words asks for nothing if `n ≤ 24`, for at most
`2 n + 2 log₂ n` words if `n ≤ 192`, and for at most `4 n + 13 log₂ n` words otherwise. -/
theorem C73_mul {t : Target} (ht : t.OK) {n : Nat} (hn : n ≤ t.cfg.maxLen + 4) {l : Layout}
    (hl : mulLayout t n = .ok l) :
    (n ≤ 24 → l.size = 0) ∧ (n ≤ 192 → l.size ≤ (2 * n + 2 * bitLen (n - 1)) * t.size) ∧
    l.size ≤ (4 * n + 13 * bitLen (n - 1)) * t.size := by
  rw [(mulLayout_agrees ht hn).size hl]
  refine ⟨fun h => ?_, fun h => Nat.mul_le_mul_right _ ?_, Nat.mul_le_mul_right _ (mulMemoryRequirement_le n)⟩
  · unfold mulMemoryRequirement
    rw [if_pos (show n ≤ mulMaxLenSimple from h), Nat.zero_mul]
  · unfold mulMemoryRequirement
    split_ifs with h1 h2
    · exact Nat.zero_le _
    · exact le_refl _
    · exact absurd (show n ≤ mulMaxLenKaratsuba from h) h2

/-- Numbers of 1000 words on a 64-bit build: `4 * 1000 + 13 * 10` words. -/
example : mulLayout target64 1000 = .ok ⟨33040, 8⟩ := by decide +kernel
example {l : Layout} (hl : mulLayout target64 1000 = .ok l) := C73_mul target64_ok (by decide) hl

theorem divMemoryRequirement_le {l r w : Nat} (h : divMemoryRequirement l r = .ok w) :
    w ≤ 4 * min (r / 2) (l - r) + 13 * bitLen (r / 2) := by
  unfold divMemoryRequirement assertR at h
  split_ifs at h with h1 h2 h2
  · cases h; exact Nat.zero_le _
  · cases h
    refine le_trans (mulMemoryRequirement_le _) ?_
    have : bitLen (min (r / 2) (l - r) - 1) ≤ bitLen (r / 2) :=
      bitLen_le_iff.mpr (lt_of_le_of_lt (by omega) (lt_two_pow_bitLen (r / 2)))
    omega
  · cases h
  · cases h

/-- C73: a division by a number of `r` words asks for at most `2 r + 13 log₂ r` words, and for at most four
times the length of the quotient and a logarithm. -/
theorem C73_div {t : Target} (ht : t.OK) {lhsLen rhsLen : Nat} (hr : rhsLen ≤ t.cfg.maxLen + 4) {l : Layout}
    (hl : divLayout t lhsLen rhsLen = .ok l) :
    l.size ≤ (2 * rhsLen + 13 * bitLen (rhsLen / 2)) * t.size ∧
    l.size ≤ (4 * (lhsLen - rhsLen) + 13 * bitLen (rhsLen / 2)) * t.size := by
  rcases divLayout_agrees ht hr (l := lhsLen) with ⟨w, e1, e2⟩ | ⟨p, _, e2⟩
  · have := divMemoryRequirement_le e1
    rw [e2.size hl]
    exact ⟨Nat.mul_le_mul_right _ (by omega), Nat.mul_le_mul_right _ (by omega)⟩
  · rw [e2] at hl; cases hl

/-- 1000 words by 300 words on a 64-bit build -/
example : divLayout target64 1000 300 = .ok ⟨2528, 8⟩ := by decide +kernel
example {l : Layout} (hl : divLayout target64 1000 300 = .ok l) := C73_div target64_ok (by decide) hl

theorem RingLarge.mulMemory_le {cfg : Cfg} {r : RingLarge} {w : Nat} (h : r.mulMemory cfg = .ok w) :
    w ≤ 6 * r.modulus.length + 13 * bitLen r.modulus.length := by
  unfold RingLarge.mulMemory ckMul at h
  simp only [bind, Except.bind] at h
  split_ifs at h with h1
  · simp only at h
    cases hd : divMemoryRequirement (2 * r.modulus.length) r.modulus.length with
    | error e => rw [hd] at h; cases h
    | ok d =>
      rw [hd] at h
      cases h
      have h2 := divMemoryRequirement_le hd
      have h3 := mulMemoryRequirement_le r.modulus.length
      have m1 : bitLen (r.modulus.length / 2) ≤ bitLen r.modulus.length :=
        bitLen_le_iff.mpr (lt_of_le_of_lt (by omega) (lt_two_pow_bitLen r.modulus.length))
      have m2 : bitLen (r.modulus.length - 1) ≤ bitLen r.modulus.length :=
        bitLen_le_iff.mpr (lt_of_le_of_lt (by omega) (lt_two_pow_bitLen r.modulus.length))
      omega

/-- C73: a multiplication in a ring with a modulus of `n` words asks for at most `6 n + 13 log₂ n` words. -/
theorem C73_ring {t : Target} (ht : t.OK) {n : Nat} (h2 : 2 ≤ n) (hn : n ≤ t.cfg.maxLen) {l : Layout}
    (hl : ringMulLayout t n = .ok l) : l.size ≤ (6 * n + 13 * bitLen n) * t.size := by
  obtain ⟨w, h, e⟩ := ringMulLayout_agrees ht h2 hn
  rw [e.size hl]
  have := RingLarge.mulMemory_le (h ⟨List.replicate n 0, 0, ⟨0, 0⟩⟩ (by simp))
  simp only [List.length_replicate] at this
  exact Nat.mul_le_mul_right _ this

/-- A modulus of 300 words on a 64-bit build -/
example : ringMulLayout target64 300 = .ok ⟨15336, 8⟩ := by decide +kernel
example {l : Layout} (hl : ringMulLayout target64 300 = .ok l) := C73_ring target64_ok (by decide) (by decide) hl

/-- The window length chosen for an exponent of `L` bits. -/
theorem choosePowWindowLen_half {cfg : Cfg} (hv : cfg.Valid) {L w : Nat} (hL : L < 2 ^ cfg.U)
    (h : choosePowWindowLen cfg L = .ok w) : 2 ^ (w - 1) - 1 ≤ L / 2 := by
  obtain ⟨k, hk⟩ := Timed.of_result ((Timed.choosePowWindowLen_result cfg L).trans h)
  exact (Timed.takes_choosePowWindowLen hv hL _ _ hk).2

/-- C73: a power with an exponent of `L` bits in a ring with a modulus of `n` words asks for at most
`n L / 2` words for its table and `6 n + 13 log₂ n` words for the multiplications. -/
theorem C73_pow {t : Target} (ht : t.OK) {n L w : Nat} (h2 : 2 ≤ n) (hn : n ≤ t.cfg.maxLen) (hL : L < 2 ^ t.cfg.U)
    (hw : choosePowWindowLen t.cfg L = .ok w) {l : Layout} (hl : powLayout t (2 ^ (w - 1) - 1) n = .ok l) :
    l.size ≤ (L / 2 * n + 6 * n + 13 * bitLen n) * t.size := by
  obtain ⟨m, h, e⟩ := powLayout_agrees ht (e := 2 ^ (w - 1) - 1) h2 hn
  rw [e.size hl]
  have h3 := RingLarge.mulMemory_le (h ⟨List.replicate n 0, 0, ⟨0, 0⟩⟩ (by simp))
  simp only [List.length_replicate] at h3
  have h4 := Nat.mul_le_mul_right n (choosePowWindowLen_half ht.valid hL hw)
  exact Nat.mul_le_mul_right _ (by omega)

/-- An exponent of 1000 bits: windows of 6 bits and a table of 31 powers. -/
example : choosePowWindowLen cfg64 1000 = .ok 6 ∧ powLayout target64 31 300 = .ok ⟨89736, 8⟩ := by decide +kernel
example {l : Layout} (hl : powLayout target64 31 300 = .ok l) :=
  C73_pow target64_ok (L := 1000) (w := 6) (by decide) (by decide) (by decide) (by decide +kernel) hl

end Ibig
