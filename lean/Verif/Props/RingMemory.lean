import Verif.Proofs.RingMemory
import Verif.Spec.ExamplesModular
import Verif.Props.Modular
/-! # C83 (when arithmetic in a ring exhausts the memory): theorems

The sizes are in Spec/RingMemory.lean. -/
namespace Ibig

/-- C83: whether a multiplication in a ring panics with "out of memory" depends only on the number of words of the
modulus: it does so exactly if the scratch memory for it is more than `isize::MAX` bytes. -/
theorem C83_mul {cfg : Cfg} (hv : cfg.Valid) {r : Ring} {n : Nat} (hr : IsRing cfg r n) (o1 o2 : Own)
    {x y : Modulo} {j k : Nat} (hx : Elem cfg r x j) (hy : Elem cfg r y k) :
    (BeyondMemory cfg (ringScratch (wordCount cfg.W n)) → Modulo.mul cfg o1 o2 x y = .error .outOfMemory) ∧
    (¬BeyondMemory cfg (ringScratch (wordCount cfg.W n)) →
      ∃ m, Modulo.mul cfg o1 o2 x y = .ok m ∧ Elem cfg r m (j * k % n)) :=
  Modulo.mul_exact hv (hr.ok hv) o1 o2 hx hy

/-- `2^64 + 2` times 11 modulo `2^64 + 5` needs four words. -/
example : ∃ m, Modulo.mul cfg64 .ref .val exEl2 exEl2' = .ok m ∧ Elem cfg64 exRing2 m ((2 ^ 64 + 2) * 11 % (2 ^ 64 + 5)) :=
  (C83_mul cfg64_valid exRing2_is .ref .val exEl2_is exEl2'_is).2 (by unfold BeyondMemory; decide +kernel)

/-- On a 16-bit build, where numbers have up to 4094 words, arithmetic works modulo numbers of up to 2704 words. -/
theorem C83_16bit : ∀ l, l ≤ cfg16.maxLen → (BeyondMemory cfg16 (ringScratch l) ↔ 2705 ≤ l) := by
  intro l hl
  have hl : l ≤ 4094 := hl
  show 2 ^ (16 - 1) - 1 < ringScratch l * (16 / 8) ↔ _
  have h1 : bitLen (l - 1) ≤ 12 := bitLen_le_iff.mpr (by omega)
  have h2 : 2705 ≤ l → 12 ≤ bitLen (l - 1) := by
    intro h
    by_contra hc
    have : bitLen (l - 1) ≤ 11 := by omega
    rw [bitLen_le_iff] at this
    omega
  unfold ringScratch
  generalize bitLen (l - 1) = g at *
  norm_num
  split_ifs <;> omega

/-- In a ring modulo the largest number of a 16-bit build every multiplication panics. -/
example (addr : Nat) : ∃ (r : Ring) (n : Nat), IsRing cfg16 r n ∧ wordCount cfg16.W n = 4094 ∧
    BeyondMemory cfg16 (ringScratch (wordCount cfg16.W n)) ∧ ∃ x, Elem cfg16 r x 7 := by
  obtain ⟨r, n, hr, hn, hx, -⟩ := C27_mul_limit cfg16_real (by decide) addr
  have hb : bitLen n = 4094 * 16 := by
    refine le_antisymm (bitLen_le_iff.mpr ?_) ?_
    · rw [show 4094 * 16 = cfg16.maxLen * cfg16.W from rfl, ← hn]; omega
    · by_contra hc
      have h1 : bitLen n ≤ 4094 * 16 - 1 := by omega
      rw [bitLen_le_iff] at h1
      have h2 : (2 : Nat) ^ (cfg16.maxLen * cfg16.W) = 2 * 2 ^ (4094 * 16 - 1) := by
        rw [← Nat.pow_succ']; rfl
      have h3 : (2 : Nat) ≤ 2 ^ (4094 * 16 - 1) := Nat.le_self_pow (by decide) 2
      generalize (2 : Nat) ^ (4094 * 16 - 1) = z at *
      omega
  have hw : wordCount cfg16.W n = 4094 := by unfold wordCount; rw [hb]; rfl
  exact ⟨r, n, hr, hw, by rw [hw]; exact (C83_16bit 4094 (by decide)).mpr (by decide), hx 7 (by norm_num)⟩

/-- C83: division by an invertible element exhausts the memory exactly if multiplication does (unless the size limit
already makes the computation of the inverse panic, which needs numbers of twice the size of the modulus). -/
theorem C83_div {cfg : Cfg} (hv : cfg.Valid) {r : Ring} {n : Nat} (hr : IsRing cfg r n) {x y : Modulo} {j k : Nat}
    (hx : Elem cfg r x j) (hy : Elem cfg r y k) (hg : Nat.gcd k n = 1) (hf : Fits cfg (2 * n)) :
    (BeyondMemory cfg (ringScratch (wordCount cfg.W n)) → Modulo.div cfg x y = .error .outOfMemory) ∧
    (¬BeyondMemory cfg (ringScratch (wordCount cfg.W n)) →
      ∃ m c, Modulo.div cfg x y = .ok m ∧ Elem cfg r m c ∧ c * k % n = j) := by
  obtain ⟨h1, h2⟩ := Modulo.div_exact hv (hr.ok hv) hx hy hg hf
  refine ⟨h1, fun hb => ?_⟩
  obtain ⟨m, e⟩ := h2 hb
  rcases (C28_div hv hr hx hy).1 hg with ⟨m, c, a1, a2, a3, -⟩ | ⟨h, -⟩ | ⟨h, -⟩
  · exact ⟨m, c, a1, a2, a3⟩
  · rw [e] at h; cases h
  · rw [e] at h; cases h

/-- `2^64 + 2` divided by 11 modulo `2^64 + 5`. -/
example := (C83_div cfg64_valid exRing2_is exEl2_is exEl2'_is (by decide +kernel)
  (fitsEx 200 (by decide +kernel) (by decide))).2 (by unfold BeyondMemory; decide +kernel)

/-- C83: there is exactly one length of the windows for an exponent of a given number of bits. -/
theorem C83_window {cfg : Cfg} (hv : cfg.Valid) {bits : Nat} (hb : bits < 2 ^ cfg.U) : ∃! w, IsWindow cfg bits w := by
  obtain ⟨w, -, hw⟩ := choosePowWindowLen_window hv hb
  exact ⟨w, hw, fun _ h => h.unique hw⟩

/-- An exponent of 65 bits has windows of three bits. -/
theorem exWindow : IsWindow cfg64 65 3 := by unfold IsWindow; decide +kernel

/-- C83: raising to a power panics with "out of memory" exactly if the exponent is at least 2, the modulus has
more than one word, and the table of `2^(w-1) - 1` odd powers together with the scratch memory for a multiplication is
more than `isize::MAX` bytes, where `w` is the length of the windows for the number of bits of the exponent. -/
theorem C83_pow {cfg : Cfg} (hv : cfg.Valid) {r : Ring} {n : Nat} (hr : IsRing cfg r n) {x : Modulo} {k : Nat}
    (hx : Elem cfg r x k) {e : UBig} (he : e.WF cfg) {w : Nat} (hw : IsWindow cfg (bitLen (e.value cfg)) w) :
    ((2 ≤ e.value cfg ∧ 2 ^ cfg.W ≤ n ∧
        BeyondMemory cfg ((2 ^ (w - 1) - 1) * wordCount cfg.W n + ringScratch (wordCount cfg.W n))) →
      x.pow cfg e = .error .outOfMemory) ∧
    (¬(2 ≤ e.value cfg ∧ 2 ^ cfg.W ≤ n ∧
        BeyondMemory cfg ((2 ^ (w - 1) - 1) * wordCount cfg.W n + ringScratch (wordCount cfg.W n))) →
      ∃ m, x.pow cfg e = .ok m ∧ Elem cfg r m (k ^ e.value cfg % n)) :=
  Modulo.pow_exact hv (hr.ok hv) hx he hw

/-- `(2^64 + 2)^(2^64 + 5)` modulo `2^64 + 5` needs ten words. -/
example := (C83_pow cfg64_valid exRing2_is exEl2_is exB_wf (w := 3)
  (by rw [show bitLen (exB.value cfg64) = 65 by decide +kernel]; exact exWindow)).2
  (fun h => absurd h.2.2 (by unfold BeyondMemory; decide +kernel))

end Ibig
