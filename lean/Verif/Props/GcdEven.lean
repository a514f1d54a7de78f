import Verif.Props.Gcd
/-! C25: for even numbers `extended_gcd` has an answer up to the size limit. -/
namespace Ibig

/-- C25: if both arguments are even (and not both zero), `UBig::extended_gcd` returns, no matter how large they are. -/
theorem C25_ubig_even {cfg : Cfg} (hv : cfg.Valid) {a b : UBig} (ha : a.WF cfg) (hb : b.WF cfg)
    (h0 : ¬(a.value cfg = 0 ∧ b.value cfg = 0)) (hae : 2 ∣ a.value cfg) (hbe : 2 ∣ b.value cfg) :
    ∃ g x y, a.extendedGcd cfg b = .ok (g, x, y) ∧ g.WF cfg ∧ x.WF cfg ∧ y.WF cfg ∧
      Bezout (g.value cfg) (x.value cfg) (y.value cfg) (a.value cfg) (b.value cfg) := by
  rcases (UBig.extendedGcd_parity hv ha hb).1 (by omega) with ⟨⟨g, x, y⟩, e, w1, w2, w3, w4⟩ | ⟨-, -, h⟩
  · exact ⟨g, x, y, e, w1, w2, w3, w4⟩
  · exact absurd ⟨hae, hbe⟩ h

/-- The largest even number: twice that number exceeds the size limit. -/
theorem exists_large_even {cfg : Cfg} (hv : cfg.Valid) :
    ∃ a : UBig, a.WF cfg ∧ a.value cfg ≠ 0 ∧ 2 ∣ a.value cfg ∧ ¬Fits cfg (2 * a.value cfg) := by
  obtain ⟨h1, h2⟩ := UBig.max_spec hv
  have hb1 : 1 < base cfg.W := by rw [base_eq]; exact Nat.one_lt_two_pow (by have := hv.W1; omega)
  have h3 : 3 ≤ cfg.maxLen * cfg.W := by
    have := hv.large
    have := hv.W16
    nlinarith
  obtain ⟨k, hk⟩ := Nat.exists_eq_add_of_le h3
  have h5 : 2 ^ (cfg.maxLen * cfg.W) = 8 * 2 ^ k := by rw [hk, Nat.pow_add]
  have h6 := Nat.two_pow_pos k
  obtain ⟨a, -, ha, va⟩ := ((UBig.sub_spec hv .ref .val h1 (wf_small hb1)).1 (by show 1 ≤ _; omega)).returns
    ((h1.fits hv).mono (Nat.sub_le _ _))
  have va' : a.value cfg = (UBig.max cfg).value cfg - 1 := va
  refine ⟨a, ha, by omega, by omega, ?_⟩
  unfold Fits
  omega

/-- The even number next to the size limit with itself. -/
example : ∃ a g x y, ¬Fits cfg64 (2 * a.value cfg64) ∧ UBig.extendedGcd cfg64 a a = .ok (g, x, y) := by
  obtain ⟨a, ha, h0, h2, hf⟩ := exists_large_even cfg64_valid
  obtain ⟨g, x, y, h, -⟩ := C25_ubig_even cfg64_valid ha ha (fun h => h0 h.1) h2 h2
  exact ⟨a, g, x, y, hf, h⟩

/-- C25: if both arguments are even (and not both zero), `IBig::extended_gcd` returns, no matter how large they are. -/
theorem C25_ibig_even {cfg : Cfg} (hv : cfg.Valid) {a b : IBig} (ha : a.WF cfg) (hb : b.WF cfg)
    (h0 : ¬(a.value cfg = 0 ∧ b.value cfg = 0)) (hae : 2 ∣ a.value cfg) (hbe : 2 ∣ b.value cfg) :
    ∃ g x y, a.extendedGcd cfg b = .ok (g, x, y) ∧ g.WF cfg ∧ x.WF cfg ∧ y.WF cfg ∧
      g.value cfg = (Int.gcd (a.value cfg) (b.value cfg) : Int) ∧
      x.value cfg * a.value cfg + y.value cfg * b.value cfg = g.value cfg ∧
      (x.value cfg).natAbs ≤ max (b.value cfg).natAbs 1 ∧
      (y.value cfg).natAbs ≤ max (a.value cfg).natAbs 1 := by
  rcases (C25_ibig_extended_gcd hv ha hb).1 h0 with h | ⟨h, -⟩
  · exact h
  · exfalso
    have e1 := IBig.natAbs_value (cfg := cfg) a
    have e2 := IBig.natAbs_value (cfg := cfg) b
    obtain ⟨g, x, y, e, -⟩ := C25_ubig_even hv ha.mag hb.mag (by omega)
      (e1 ▸ Int.natCast_dvd.mp (by exact_mod_cast hae)) (e2 ▸ Int.natCast_dvd.mp (by exact_mod_cast hbe))
    unfold IBig.extendedGcd at h
    rw [e] at h
    exact absurd h (by intro h; cases h)

/-- -12 and 18. -/
example := C25_ibig_even cfg64_valid (a := ⟨.neg, .small 12⟩) (b := ⟨.pos, .small 18⟩)
  ⟨wf_small (by decide +kernel), fun h => absurd h (by decide +kernel)⟩ ⟨wf_small (by decide +kernel), fun _ => rfl⟩
  (by decide +kernel) (by decide +kernel) (by decide +kernel)

end Ibig
