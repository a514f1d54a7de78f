import Verif.Spec.Modular
import Verif.Spec.Examples
/-! Concrete rings and elements used to show that the hypotheses of the property theorems are met. -/
namespace Ibig

/-- The ring modulo `2^64 + 5` (two words), at the address 2000. -/
def exRing2 : Ring :=
  ⟨2000, .large ⟨[2 ^ 63, 2 ^ 63 + 2], 63, ⟨2 ^ 63 + 2, 2 ^ 64 - 8⟩⟩⟩
/-- The ring modulo 10007 (one word), at the address 1000. -/
def exRing1 : Ring :=
  ⟨1000, .small ⟨10007 * 2 ^ 50, 50, ⟨10007 * 2 ^ 50, 11755260013794924618⟩⟩⟩

theorem exRing2_is : IsRing cfg64 exRing2 (2 ^ 64 + 5) := ⟨exB, exB_wf, by decide +kernel, by rfl⟩
theorem exRing1_is : IsRing cfg64 exRing1 10007 :=
  ⟨.small 10007, show 10007 < 2 ^ 64 by decide +kernel, by decide +kernel, by rfl⟩

/-- The element `2^64 + 2` of the ring modulo `2^64 + 5`. -/
def exEl2 : Modulo :=
  .large ⟨2000, ⟨[2 ^ 63, 2 ^ 63 + 2], 63, ⟨2 ^ 63 + 2, 2 ^ 64 - 8⟩⟩, [0, 2 ^ 63 + 1]⟩
/-- The element 11 of the ring modulo `2^64 + 5`. -/
def exEl2' : Modulo :=
  .large ⟨2000, ⟨[2 ^ 63, 2 ^ 63 + 2], 63, ⟨2 ^ 63 + 2, 2 ^ 64 - 8⟩⟩, [2 ^ 63, 5]⟩
/-- The element 5 of the ring modulo 10007. -/
def exEl1 : Modulo :=
  .small ⟨1000, ⟨10007 * 2 ^ 50, 50, ⟨10007 * 2 ^ 50, 11755260013794924618⟩⟩, 5 * 2 ^ 50⟩

theorem exEl2_is : Elem cfg64 exRing2 exEl2 (2 ^ 64 + 2) :=
  ⟨rfl, rfl, by unfold IsWords; decide +kernel, rfl, by decide +kernel, by decide +kernel⟩
theorem exEl2'_is : Elem cfg64 exRing2 exEl2' 11 :=
  ⟨rfl, rfl, by unfold IsWords; decide +kernel, rfl, by decide +kernel, by decide +kernel⟩
theorem exEl1_is : Elem cfg64 exRing1 exEl1 5 := ⟨rfl, rfl, by decide +kernel, by decide +kernel⟩

/-- Every number of at most `2^63` bits fits on the 64-bit build. -/
theorem fitsEx {n : Nat} (k : Nat) (h : n < 2 ^ k) (hk : k ≤ 2 ^ 63) : Fits cfg64 n :=
  Nat.lt_of_lt_of_le h (Nat.pow_le_pow_right (by decide) hk)

end Ibig
