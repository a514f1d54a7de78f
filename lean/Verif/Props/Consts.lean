import Verif.Model.Consts
import Verif.Proofs.Radix
import Verif.Props.Ntt
import Verif.Props.Arch
/-! # C59: the crate compiles for every target, and the size limit is the documented one -/
namespace Ibig

/-- C59: the size limit in words is the largest even number such that the number of bits fits in `usize` and the
transform of the largest order is long enough. -/
theorem C59_max_len (arch : Arch) {U : Nat} (hU : U ∈ usizeSizes) :
    ∃ n, constMaxLen arch.W U arch.maxOrder = .ok n ∧ (arch.W, U, n) ∈ buildSizes ∧
      (n % 2 = 0 ∧ n * arch.W < 2 ^ U ∧ n ≤ 2 ^ arch.maxOrder) ∧
      (∀ m, m % 2 = 0 → m * arch.W < 2 ^ U → m ≤ 2 ^ arch.maxOrder → m ≤ n) ∧
      16 * n < 2 ^ U := by
  have hW : 0 < arch.W := by cases arch <;> decide
  have h : ∃ n, constMaxLen arch.W U arch.maxOrder = .ok n ∧ (arch.W, U, n) ∈ buildSizes ∧
      n = min ((2 ^ U - 1) / arch.W) (2 ^ arch.maxOrder) / 2 * 2 ∧ n * arch.W < 2 ^ U ∧ 16 * n < 2 ^ U := by
    have all : ∀ a : Arch, ∀ U ∈ usizeSizes, (match constMaxLen a.W U a.maxOrder with
        | .error _ => false
        | .ok n => decide ((a.W, U, n) ∈ buildSizes ∧
          n = min ((2 ^ U - 1) / a.W) (2 ^ a.maxOrder) / 2 * 2 ∧ n * a.W < 2 ^ U ∧ 16 * n < 2 ^ U)) = true := by
      intro a; cases a <;> decide +kernel
    have := all arch U hU
    split at this
    · cases this
    · exact ⟨_, by assumption, of_decide_eq_true this⟩
  obtain ⟨n, h1, h2, h3, h4, h5⟩ := h
  refine ⟨n, h1, h2, ⟨by omega, h4, by omega⟩, ?_, h5⟩
  intro m m1 m2 m3
  have : m ≤ (2 ^ U - 1) / arch.W := (Nat.le_div_iff_mul_le hW).mpr (by omega)
  omega

/-- Every architecture with a 32-bit `usize`. -/
example (arch : Arch) := C59_max_len arch (U := 32) (by decide)

theorem radixTableFrom_ok {W : Nat} (hW : 16 ≤ W) (n : Nat) : ∀ r, 2 ≤ r → r + n ≤ 37 →
    Returns (radixTableFrom W n r) fun t => t.length = n ∧
      ∀ i, i < n → ∃ info, t[i]? = some info ∧ RadixInfo.forRadix W (r + i) = .ok info := by
  induction n with
  | zero => intro r _ _; exact returns_ok.mpr ⟨rfl, fun i hi => by omega⟩
  | succ n ih =>
    intro r h2 h37
    have hr : isRadixValid r = true := by unfold isRadixValid maxRadix; simp; omega
    have hf : Returns (RadixInfo.forRadix W r) fun _ => True := by
      by_cases hp : isRadixPow2 r = true
      · exact (forRadix_pow2 hW hr hp).mono fun _ _ => trivial
      · exact (forRadix_nonPow2 hW hr (by simpa using hp)).mono fun _ _ => trivial
    obtain ⟨info, e, -⟩ := hf
    obtain ⟨t, e', l, g⟩ := ih (r + 1) (by omega) (by omega)
    refine ⟨info :: t, ?_, by simp [l], ?_⟩
    · rw [radixTableFrom, e]
      show (radixTableFrom W n (r + 1) >>= _) = _
      rw [e']; rfl
    · intro i hi
      cases i with
      | zero => exact ⟨info, rfl, e⟩
      | succ i =>
        obtain ⟨k, k1, k2⟩ := g i (by omega)
        exact ⟨k, by simpa using k1, by rw [← k2]; congr 1; omega⟩

/-- C59: on every architecture and size of `usize`, the constants are evaluated without a panic or an overflow and
the static assertions hold; and the constants are the ones that the model uses everywhere else. -/
theorem C59_compiles (forceBits : Option Nat) (target : TargetArch) (pointerWidth : Nat) {U : Nat}
    (hU : U ∈ usizeSizes) (spare : Nat → Nat) :
    ∃ c, Consts.compile (chooseArch forceBits target pointerWidth) U = .ok c ∧
      ∃ cfg ∈ builds spare, cfg.W = (chooseArch forceBits target pointerWidth).W ∧ cfg.U = U ∧
        c.maxLen = cfg.maxLen ∧ c.maxBitLen = cfg.maxLen * cfg.W ∧ c.maxBitLen < 2 ^ U ∧
        c.maxCapacity = cfg.maxCap ∧ c.wordsPerU64 = wordsPerU64 cfg.W ∧ c.allOnes = allOnes cfg.W ∧
        c.digitBufferLen = digitBufferLen cfg.W ∧
        (∀ radix, 2 ≤ radix → radix ≤ 36 → ∃ info, c.radixTable[radix - 2]? = some info ∧
          radixInfo cfg.W radix = .ok info) ∧
        maxWordDigits cfg.W = .ok c.maxWordDigits ∧ nttFields cfg.W = .ok c.fields := by
  generalize chooseArch forceBits target pointerWidth = arch
  obtain ⟨n, h1, h2, ⟨h3, h4, -⟩, -, h5⟩ := C59_max_len arch hU
  have hW : 16 ≤ arch.W := by cases arch <;> decide
  obtain ⟨t, t1, t2, t3⟩ := radixTableFrom_ok hW 35 2 (by omega) (by omega)
  obtain ⟨dg, d1, -⟩ := maxWordDigits_spec hW
  have hwo : (arch.W, arch.maxOrder) ∈ wordSizes := by cases arch <;> decide
  obtain ⟨f, r, i, f1, f2, f3, -⟩ := C47_tables _ hwo
  simp only at f1 f2 f3
  have hbl : ckMul U ((32 - 1) / (arch.W / 8) + 1) (arch.W / 8) = .ok (digitBufferLen arch.W) := by
    have all : ∀ a : Arch, ∀ U ∈ usizeSizes,
      ckMul U ((32 - 1) / (a.W / 8) + 1) (a.W / 8) = .ok (digitBufferLen a.W) := by
      intro a; cases a <;> decide +kernel
    exact all arch U hU
  have hU16 : 16 ≤ U := by
    have : ∀ U ∈ usizeSizes, 16 ≤ U := by decide
    exact this U hU
  have h16 : n + 4 < 2 ^ U := by
    have : 2 ^ 16 ≤ 2 ^ U := Nat.pow_le_pow_right (by omega) hU16
    omega
  have e : Consts.eval arch U = .ok ⟨n, n * arch.W, n + 4, 64 / arch.W, (2 ^ arch.W - 1) / 255,
      digitBufferLen arch.W, t, dg, f, r, i⟩ := by
    unfold Consts.eval
    simp only [h1, t1, d1, hbl, f1, f2, f3, ckMul_ok h4, ckAdd_ok h16, bind, Except.bind]
  refine ⟨⟨n, n * arch.W, n + 4, 64 / arch.W, (2 ^ arch.W - 1) / 255, digitBufferLen arch.W, t, dg, f, r, i⟩, ?_,
    ⟨arch.W, U, n, spare⟩, ?_, rfl, rfl, rfl, rfl, h4, rfl, rfl, rfl, rfl, ?_, d1, f1⟩
  · unfold Consts.compile
    rw [e]
    show (assertR _ >>= _) = _
    rw [assertR_true]
    · rfl
    · have a1 : 64 % arch.W = 0 ∧ 64 / arch.W - 1 ≤ 4 := by cases arch <;> decide
      have a2 : n + 4 - n = 4 := by omega
      simp [Consts.asserts, h3, a1, a2, divMaxLenSimple, mulMaxLenSimple, mulChunkLen, mulMaxLenKaratsuba]
  · exact List.mem_map.mpr ⟨_, h2, rfl⟩
  · intro radix r1 r2
    obtain ⟨info, k1, k2⟩ := t3 (radix - 2) (by omega)
    refine ⟨info, k1, ?_⟩
    unfold radixInfo
    rw [assertR_true (by unfold isRadixValid maxRadix; simp; omega)]
    rw [show 2 + (radix - 2) = radix by omega] at k2
    exact k2

/-- A build for a 64-bit machine with the word size forced to 16 bits. -/
example := C59_compiles (some 16) .x86_64 64 (U := 64) (by decide) fun _ => 0

/-- the limits of the three most common builds -/
example : constMaxLen 64 64 57 = .ok (2 ^ 57) ∧ constMaxLen 32 32 27 = .ok (2 ^ 27 - 2) ∧
    constMaxLen 16 16 12 = .ok 4094 := by decide +kernel

end Ibig
