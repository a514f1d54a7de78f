import Verif.Proofs.DebugHexExact
import Verif.Props.DebugHex
/-!
# C58: exactly when the text of a ring depends on the build
-/
namespace Ibig

/-- C58: with `{:x?}` or `{:X?}` and no width, the text of a ring is the same on two builds exactly if the modulus fits into
a word on both or on none.  (With `{:?}` it is always the same.) -/
theorem C58_rings_exact {cfg1 cfg2 : Cfg} (hv1 : cfg1.Valid) (hv2 : cfg2.Valid) (be1 be2 : Bool) (h : DebugHex)
    {f : FmtFlags} (hw : f.width = none) {r1 r2 : Ring} {n : Nat} (hr1 : IsRing cfg1 r1 n) (hr2 : IsRing cfg2 r2 n) :
    r1.debugFmt cfg1 be1 h f = r2.debugFmt cfg2 be2 h f ↔ h = .off ∨ (n < 2 ^ cfg1.W ↔ n < 2 ^ cfg2.W) := by
  obtain ⟨t1, e1, p1⟩ := C45_ring hv1 be1 (debugTrait cfg1.W n h) f hr1
  obtain ⟨t2, e2, p2⟩ := C45_ring hv2 be2 (debugTrait cfg2.W n h) f hr2
  rw [ringDebug_eq be1 h f (hr1.ok hv1), ringDebug_eq be2 h f (hr2.ok hv2), e1, e2]
  constructor
  · intro e
    have e3 := List.append_cancel_left (Except.ok.inj e)
    subst e3
    by_contra hc
    rw [not_or] at hc
    obtain ⟨ho, hc⟩ := hc
    have key : ∀ {c1 c2 : Cfg}, c2.Valid → n < 2 ^ c1.W → ¬n < 2 ^ c2.W →
        Prints f (traitRadix (debugTrait c1.W n h)) (decide (debugTrait c1.W n h = .upperHex)) false n
          (if f.alternate then (traitPrefix (debugTrait c1.W n h)).toList.map Char.toNat else []) (.ok t1) →
        Prints f (traitRadix (debugTrait c2.W n h)) (decide (debugTrait c2.W n h = .upperHex)) false n
          (if f.alternate then (traitPrefix (debugTrait c2.W n h)).toList.map Char.toNat else []) (.ok t1) → False := by
      intro c1 c2 hv g1 g2 q1 q2
      have d2 : debugTrait c2.W n h = .display := by unfold debugTrait; rw [if_neg g2]
      have hn : 10 ≤ n := by
        have h4 : 2 ^ 4 ≤ 2 ^ c2.W := Nat.pow_le_pow_right (by norm_num) hv.W4
        have : ¬n < 2 ^ 4 := fun hh => g2 (lt_of_lt_of_le hh h4)
        norm_num at this
        omega
      rw [d2] at q2
      have q2' : Prints f 10 false false n [] (.ok t1) := by
        simpa [traitRadix, traitPrefix] using q2
      unfold debugTrait at q1
      rw [if_pos g1] at q1
      cases h with
      | off => exact ho rfl
      | lower =>
        refine hex_ne_decimal hw hn (pre := if f.alternate then "0x".toList.map Char.toNat else []) ?_ q1 q2'
        split
        · exact Or.inr rfl
        · exact Or.inl rfl
      | upper =>
        refine hex_ne_decimal hw hn (pre := if f.alternate then "0x".toList.map Char.toNat else []) ?_ q1 q2'
        split
        · exact Or.inr rfl
        · exact Or.inl rfl
    by_cases g1 : n < 2 ^ cfg1.W
    · exact key hv2 g1 (fun g2 => hc ⟨fun _ => g2, fun _ => g1⟩) p1 p2
    · by_cases g2 : n < 2 ^ cfg2.W
      · exact key hv1 g2 g1 p2 p1
      · exact hc ⟨fun g => absurd g g1, fun g => absurd g g2⟩
  · intro hh
    have ht : debugTrait cfg2.W n h = debugTrait cfg1.W n h := by
      unfold debugTrait
      rcases hh with rfl | hh
      · simp
      · simp only [hh]
    rw [ht] at p2
    have c : 2 ≤ traitRadix (debugTrait cfg1.W n h) := by generalize debugTrait cfg1.W n h = t; cases t <;> decide
    rw [Except.ok.inj (C23_unique c p1 p2)]

/-- The ring modulo `2^64 + 5` prints the same on 64-bit builds of both byte orders. -/
example := (C58_rings_exact cfg64_valid cfg64_valid false true .lower (f := .default) rfl exRing2_is exRing2_is).mpr
  (Or.inr Iff.rfl)

/-- Every modulus between `2^16` and `2^64` prints differently on 16-bit and 64-bit builds. -/
example {r1 r2 : Ring} {n : Nat} (h1 : IsRing cfg64 r1 n) (h2 : IsRing cfg16 r2 n) (ha : 2 ^ 16 ≤ n) (hb : n < 2 ^ 64) :
    r1.debugFmt cfg64 false .lower .default ≠ r2.debugFmt cfg16 false .lower .default := by
  rw [Ne, C58_rings_exact cfg64_valid cfg16_valid false false .lower rfl h1 h2]
  rintro (h | h)
  · cases h
  · exact absurd (h.mp hb) (Nat.not_lt.mpr ha)

end Ibig
