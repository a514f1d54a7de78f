import Verif.Proofs.Bytes
import Verif.Spec.Examples
import Mathlib.Data.Nat.Digits.Defs
/-!
# Property C17: byte conversions

The number a little-endian byte string denotes is `Nat.ofDigits 256` of it.
-/
namespace Ibig

theorem leBytesVal_eq_ofDigits (l : List Nat) : leBytesVal l = Nat.ofDigits 256 l := by
  induction l with
  | nil => rfl
  | cons b l ih => rw [Nat.ofDigits_cons, leBytesVal, ih]

/-- C17: `from_le_bytes` and `from_be_bytes` return the number denoted by the bytes. A byte string longer
than the largest buffer panics with "number too large" (even if it is padded with zeros). -/
theorem C17_from_bytes {cfg : Cfg} (hv : cfg.Valid) {l : List Nat} (hb : ∀ x ∈ l, x < 256) :
    (l.length ≤ (cfg.maxLen + 4) * (cfg.W / 8) →
      Yields cfg (UBig.fromLeBytes cfg l) (Nat.ofDigits 256 l) ∧
      Yields cfg (UBig.fromBeBytes cfg l) (Nat.ofDigits 256 l.reverse)) ∧
    ((cfg.maxLen + 4) * (cfg.W / 8) < l.length →
      UBig.fromLeBytes cfg l = .error .tooLarge ∧ UBig.fromBeBytes cfg l = .error .tooLarge) := by
  have h1 := UBig.fromLeBytes_spec hv (l := l) hb
  have h2 := UBig.fromLeBytes_spec hv (l := l.reverse) (fun x hx => hb x (List.mem_reverse.mp hx))
  rw [List.length_reverse] at h2
  rw [UBig.fromBe_eq, ← leBytesVal_eq_ofDigits, ← leBytesVal_eq_ofDigits]
  exact ⟨fun h => ⟨h1.1 h, h2.1 h⟩, fun h => ⟨h1.2 h, h2.2 h⟩⟩

/-- 256 bytes. -/
example := (C17_from_bytes cfg64_valid (l := List.range 256) (by decide +kernel)).1 (by decide +kernel)

example : UBig.fromLeBytes cfg64 [1, 2, 3, 4, 5, 6, 7, 8, 9] =
    .ok (.large ⟨[0x0807060504030201, 9], 4⟩) ∧
    UBig.fromBeBytes cfg64 [0, 0, 9, 8, 7, 6, 5, 4, 3, 2, 1] = 
    .ok (.large ⟨[0x0807060504030201, 9], 4⟩) := by decide +kernel

/-- C17: `to_le_bytes` and `to_be_bytes` return the shortest byte strings denoting the number. -/
theorem C17_to_bytes {cfg : Cfg} (hv : cfg.Valid) {a : UBig} (ha : a.WF cfg) :
    ∃ l : List Nat, a.toLeBytes cfg = .ok l ∧ a.toBeBytes cfg = .ok l.reverse ∧
      (∀ x ∈ l, x < 256) ∧ Nat.ofDigits 256 l = a.value cfg ∧
      ∀ l' : List Nat, (∀ x ∈ l', x < 256) → Nat.ofDigits 256 l' = a.value cfg →
        l.length ≤ l'.length := by
  obtain ⟨l, h1, h2, h3, h4, -⟩ := UBig.toLeBytes_spec hv ha
  obtain ⟨r, g1, g2⟩ := UBig.toBe_eq hv ha
  rw [h1] at g2
  cases g2
  refine ⟨r.reverse, h1, by rw [List.reverse_reverse]; exact g1, h2,
    by rw [← leBytesVal_eq_ofDigits]; exact h3, ?_⟩
  intro l' hl' he
  generalize r.reverse = l at h2 h3 h4
  by_contra hc
  have hne : l ≠ [] := by rintro rfl; simp at hc
  have hlt : Nat.ofDigits 256 l' < 256 ^ l'.length :=
    Nat.ofDigits_lt_base_pow_length (by norm_num) hl'
  have hlast : l.getLast hne ≠ 0 := by
    intro e; apply h4; rw [List.getLast?_eq_some_getLast hne, e]
  have e : leBytesVal l = leBytesVal l.dropLast + 256 ^ (l.length - 1) * l.getLast hne := by
    conv_lhs => rw [← List.dropLast_append_getLast hne]
    rw [leBytesVal_append]
    simp [leBytesVal]
  have hge : 256 ^ (l.length - 1) ≤ leBytesVal l := by
    rw [e]
    calc 256 ^ (l.length - 1) = 256 ^ (l.length - 1) * 1 := by ring
      _ ≤ 256 ^ (l.length - 1) * l.getLast hne := Nat.mul_le_mul_left _ (by omega)
      _ ≤ _ := Nat.le_add_left _ _
  have := Nat.pow_le_pow_right (show 0 < 256 by norm_num) (show l'.length ≤ l.length - 1 by omega)
  omega

/-- A 300-word number. -/
example := C17_to_bytes cfg64_valid exLong_wf

example : exB.toLeBytes cfg64 = .ok [5, 0, 0, 0, 0, 0, 0, 0, 1] ∧
    exB.toBeBytes cfg64 = .ok [1, 0, 0, 0, 0, 0, 0, 0, 5] ∧
    (UBig.small 0).toLeBytes cfg64 = .ok [] := by decide +kernel

/-- C17: converting to bytes and back gives the same number. -/
theorem C17_round_trip {cfg : Cfg} (hv : cfg.Valid) {a : UBig} (ha : a.WF cfg) :
    (∃ l c, a.toLeBytes cfg = .ok l ∧ UBig.fromLeBytes cfg l = .ok c ∧ c.WF cfg ∧
      c.value cfg = a.value cfg) ∧
    (∃ l c, a.toBeBytes cfg = .ok l ∧ UBig.fromBeBytes cfg l = .ok c ∧ c.WF cfg ∧
      c.value cfg = a.value cfg) := by
  obtain ⟨l, h1, h2, h3, -, h5⟩ := UBig.toLeBytes_spec hv ha
  obtain ⟨r, g1, g2⟩ := UBig.toBe_eq hv ha
  rw [h1] at g2
  cases g2
  have hl : r.reverse.length ≤ (cfg.maxLen + 4) * (cfg.W / 8) :=
    le_trans h5 (Nat.mul_le_mul_right _ (by omega))
  obtain ⟨c, k1, k2, k3⟩ := ((UBig.fromLeBytes_spec hv h2).1 hl).1 (by rw [h3]; exact ha.fits hv)
  exact ⟨⟨_, c, h1, k1, k2, k3.trans h3⟩, ⟨r, c, g1, by rw [UBig.fromBe_eq]; exact k1, k2, k3.trans h3⟩⟩

example : ∃ l c, exLong.toLeBytes cfg64 = .ok l ∧ UBig.fromLeBytes cfg64 l = .ok c ∧ c.WF cfg64 ∧
    c.value cfg64 = exLong.value cfg64 := (C17_round_trip cfg64_valid exLong_wf).1

end Ibig
