import Verif.Model.MulOps
import Verif.Proofs.Mul
import Verif.Proofs.AddOps
import Verif.Proofs.Bytes
/-! Multiplication of `UBig` and `IBig` (/repo/src/mul_ops.rs) is exact. -/
namespace Ibig

theorem mulMemoryRequirement_le (n : Nat) : mulMemoryRequirement n ≤ 4 * n + 13 * bitLen (n - 1) := by
  unfold mulMemoryRequirement; split_ifs <;> omega

theorem Cfg.Valid.maxLen_lt {cfg : Cfg} (hv : cfg.Valid) : 16 * cfg.maxLen < 2 ^ cfg.U := by
  have := Nat.mul_le_mul_left cfg.maxLen hv.W16
  have := hv.bits
  omega

/-- Scratch memory for multiplying `n` words by at least `n` words always fits the address space when the
product fits in a buffer. -/
theorem allocMemory_mul {cfg : Cfg} (hv : cfg.Valid) {n : Nat} (hn : 2 * n ≤ cfg.maxLen + 4) :
    allocMemory cfg (mulMemoryRequirement n) = .ok (mulMemoryRequirement n) := by
  have h1 := mulMemoryRequirement_le n
  have h2 : bitLen (n - 1) ≤ cfg.U := bitLen_le_iff.mpr (by
    have := hv.maxLen_lt; have := hv.large; omega)
  have hlg := hv.large
  have hbits := hv.bits
  generalize mulMemoryRequirement n = m at *
  generalize bitLen (n - 1) = bl at *
  unfold allocMemory
  rw [if_pos]
  rcases hv.word with hw | hw | hw <;> rcases hv.usize with hu | hu | hu <;>
    rw [hw, hu] at hbits ⊢ <;> rw [hu] at h2 <;> norm_num at hbits ⊢ <;> omega

theorem UBig.mulWord_spec {cfg : Cfg} (hv : cfg.Valid) {a b : Nat} (ha : a < base cfg.W)
    (hb : b < base cfg.W) : Yields cfg (UBig.mulWord cfg a b) (a * b) := by
  have h8 := hv.W8
  have h64 := hv.W64
  refine (UBig.fromUnsigned_spec hv (by omega) (by omega) ?_).1
  rw [two_mul, pow_add]
  exact Nat.mul_lt_mul'' ha hb

theorem UBig.mulLargeWord_spec {cfg : Cfg} (hv : cfg.Valid) {b : Buffer} (h : b.WF cfg) {w : Nat}
    (hw : w < base cfg.W) :
    Yields cfg (UBig.mulLargeWord cfg b w) (val cfg.W b.words * w) := by
  have hl := h.len
  unfold UBig.mulLargeWord
  split
  · rename_i h0; subst h0
    rw [Nat.mul_zero]
    exact yields_small hv (base_pos _)
  split
  · rename_i h0; subst h0
    rw [Nat.mul_one]
    exact yields_ofBuffer hv h.ok rfl
  obtain ⟨h1, h2, h3, h4⟩ := Ibig.mulWord_spec hw h.words
  rcases hh : Ibig.mulWord cfg.W b.words w with ⟨ws, carry⟩
  rw [hh] at h1 h2 h3 h4
  simp only at h1 h2 h3 h4 ⊢
  have hok := h.ok.setWords h2 h1.le
  split
  · refine Yields.of_bind (Buffer.pushMayReallocate_spec hok h3 (by simp only; omega)) ?_
    rintro c ⟨g1, g2⟩
    refine yields_ofBuffer hv g1 ?_
    rw [g2, val_append, ← h4]
    simp only [val_cons, val_nil, h1]
    ring
  · rename_i hc
    have hc0 : carry = 0 := by simpa using hc
    refine yields_ofBuffer hv hok ?_
    simp only
    rw [← h4, hc0]; simp

theorem UBig.mulLarge_spec {cfg : Cfg} (hv : cfg.Valid) {a b : Buffer} (ha : a.WF cfg) (hb : b.WF cfg) :
    Yields cfg (UBig.mulLarge cfg a.words b.words) (val cfg.W a.words * val cfg.W b.words) := by
  have a2 := ha.two
  have b2 := hb.two
  unfold UBig.mulLarge
  refine Yields.of_bind (returns_assertR ⟨a2, b2⟩) ?_
  rintro _ -
  simp only
  by_cases hl : a.words.length + b.words.length ≤ cfg.maxLen + 4
  · rw [Buffer.allocate_ok hl]
    refine Yields.of_bind (P := fun s => s = _) (returns_ok.mpr rfl) ?_
    intro s hs
    refine Yields.of_bind (Buffer.pushZeros_spec (cfg := cfg) (n := a.words.length + b.words.length)
      (b := s) ?_ ?_) ?_
    · rw [hs]; exact ⟨by simp, by simp⟩
    · rw [hs]; simpa using le_allocCap hl
    rintro c ⟨c1, c2, c3⟩
    rw [allocMemory_mul hv (by omega)]
    refine Yields.of_bind (P := fun m => m = _) (returns_ok.mpr rfl) ?_
    intro m hm
    rw [hs] at c2
    simp only [List.nil_append] at c2
    have hz : val cfg.W c.words = 0 := by rw [c2]; exact val_replicate_zero _ _
    refine Yields.of_bind ((addSignedMul_ok hv.W4 hm.ge).zeros c1.words hz ha.words hb.words rfl rfl
      (by rw [c2]; simp)) ?_
    rintro ⟨ws, o⟩ ⟨g1, g2, g3, g4⟩
    simp only at g1 g2 g3 g4 ⊢
    refine Yields.of_bind (returns_assertR g3) ?_
    rintro _ -
    exact yields_ofBuffer hv (c1.setWords g2 g1.le) g4
  · rw [Buffer.allocate_err (by omega)]
    have hbig : ¬Fits cfg (val cfg.W a.words * val cfg.W b.words) := by
      rw [fits_iff, not_lt]
      refine le_trans ?_ (Nat.mul_le_mul ha.ge hb.ge)
      rw [← pow_add]
      exact Nat.pow_le_pow_right (base_pos _) (by omega)
    exact ⟨fun h => absurd h hbig, fun _ => rfl⟩

theorem UBig.mul_spec {cfg : Cfg} (hv : cfg.Valid) (o1 o2 : Own) {a b : UBig} (ha : a.WF cfg)
    (hb : b.WF cfg) : Yields cfg (UBig.mul cfg o1 o2 a b) (a.value cfg * b.value cfg) := by
  have clone_word : ∀ {x : Buffer} {w : Nat}, x.WF cfg → w < base cfg.W →
      Yields cfg (do let x ← x.clone cfg; UBig.mulLargeWord cfg x w) (val cfg.W x.words * w) := by
    intro x w hx hw
    refine Yields.of_bind (Buffer.clone_spec hx) ?_
    rintro c ⟨g1, g2⟩
    rw [← g2]
    exact UBig.mulLargeWord_spec hv g1 hw
  cases a with
  | small v => cases b with
    | small w =>
      cases o1 <;> cases o2
      · exact UBig.mulWord_spec hv ha hb
      · exact UBig.mulWord_spec hv ha hb
      · rw [Nat.mul_comm]; exact UBig.mulWord_spec hv hb ha
      · exact UBig.mulWord_spec hv ha hb
    | large b =>
      rw [Nat.mul_comm]
      cases o1 <;> cases o2
      · exact UBig.mulLargeWord_spec hv hb ha
      · exact clone_word hb ha
      · exact UBig.mulLargeWord_spec hv hb ha
      · exact clone_word hb ha
  | large a => cases b with
    | small w =>
      cases o1 <;> cases o2
      · exact UBig.mulLargeWord_spec hv ha hb
      · exact UBig.mulLargeWord_spec hv ha hb
      · exact clone_word ha hb
      · exact clone_word ha hb
    | large b =>
      cases o1 <;> cases o2
      · exact UBig.mulLarge_spec hv ha hb
      · exact UBig.mulLarge_spec hv ha hb
      · rw [Nat.mul_comm]; exact UBig.mulLarge_spec hv hb ha
      · exact UBig.mulLarge_spec hv ha hb

theorem Sign.mul_toInt (s t : Sign) : (s.mul t).toInt = s.toInt * t.toInt := by
  cases s <;> cases t <;> rfl

theorem IBig.mul_spec {cfg : Cfg} (hv : cfg.Valid) (o1 o2 : Own) {x y : IBig} (hx : x.WF cfg)
    (hy : y.WF cfg) : IYields cfg (IBig.mul cfg o1 o2 x y) (x.value cfg * y.value cfg) := by
  have e : x.value cfg * y.value cfg
      = (x.sign.mul y.sign).toInt * ((x.mag.value cfg * y.mag.value cfg : Nat) : Int) := by
    rw [Sign.mul_toInt, IBig.value_def, IBig.value_def]; push_cast; ring
  have e' : x.value cfg * y.value cfg
      = (y.sign.mul x.sign).toInt * ((y.mag.value cfg * x.mag.value cfg : Nat) : Int) := by
    rw [Sign.mul_toInt, IBig.value_def, IBig.value_def]; push_cast; ring
  cases o1 <;> cases o2
  · rw [e]; exact (UBig.mul_spec hv .val .val hx.mag hy.mag).withSign hv _
  · rw [e]; exact (UBig.mul_spec hv .val .ref hx.mag hy.mag).withSign hv _
  · rw [e']; exact (UBig.mul_spec hv .val .ref hy.mag hx.mag).withSign hv _
  · rw [e]; exact (UBig.mul_spec hv .ref .ref hx.mag hy.mag).withSign hv _

end Ibig
