import Verif.Spec.Number
/-! The configurations of all real builds satisfy the hypotheses of the theorems. -/
namespace Ibig

/-- The sizes of every build (all nine combinations of word size and `usize` size) meet the conditions. The table
is complete: `buildSizes` enumerates all combinations. -/
theorem buildSizes_valid : ∀ p ∈ buildSizes, (p.1 = 16 ∨ p.1 = 32 ∨ p.1 = 64) ∧
    (p.2.1 = 16 ∨ p.2.1 = 32 ∨ p.2.1 = 64) ∧ p.2.2 % 2 = 0 ∧ 512 ≤ p.2.2 ∧ p.2.2 * p.1 < 2 ^ p.2.1 := by
  decide +kernel

/-- Every build is valid. -/
theorem builds_valid {spare : Nat → Nat} : ∀ cfg ∈ builds spare, cfg.Valid := by
  intro cfg h
  obtain ⟨p, hp, rfl⟩ := List.mem_map.mp h
  obtain ⟨a, b, c, d, e⟩ := buildSizes_valid p hp
  exact ⟨a, b, c, d, e⟩

/-- There are nine of them; e.g. the usual 64-bit build has `MAX_LEN = 2^57`. -/
example : buildSizes.length = 9 ∧ (64, 64, 2 ^ 57) ∈ buildSizes := by decide +kernel

end Ibig
