import Verif.Proofs.GcdPortable
import Verif.Props.Gcd
/-! # C40: `extended_gcd` does not depend on the word size

Bézout coefficients are not unique, so this does not follow from C25. -/
namespace Ibig

/-- C40: on two builds, `UBig::extended_gcd` of the same numbers gives the same greatest common divisor and the
same coefficients, or the same panic, unless one of the builds stops with "number too large". -/
theorem C40_ubig_extended_gcd {cfg cfg' : Cfg} (hv : cfg.Valid) (hv' : cfg'.Valid) {a b a' b' : UBig}
    (ha : a.WF cfg) (hb : b.WF cfg) (ha' : a'.WF cfg') (hb' : b'.WF cfg') (ea : a.value cfg = a'.value cfg')
    (eb : b.value cfg = b'.value cfg') (h : a.extendedGcd cfg b ≠ .error .tooLarge)
    (h' : a'.extendedGcd cfg' b' ≠ .error .tooLarge) :
    (∃ e, a.extendedGcd cfg b = .error e ∧ a'.extendedGcd cfg' b' = .error e) ∨
    ∃ g x y g' x' y', a.extendedGcd cfg b = .ok (g, x, y) ∧ a'.extendedGcd cfg' b' = .ok (g', x', y') ∧
      g.value cfg = g'.value cfg' ∧ x.value cfg = x'.value cfg' ∧ y.value cfg = y'.value cfg' := by
  obtain ⟨h1, h2⟩ := C25_ubig_extended_gcd hv ha hb
  obtain ⟨h1', h2'⟩ := C25_ubig_extended_gcd hv' ha' hb'
  by_cases h0 : a.value cfg = 0 ∧ b.value cfg = 0
  · exact Or.inl ⟨_, h2 h0.1 h0.2, h2' (by rw [← ea]; exact h0.1) (by rw [← eb]; exact h0.2)⟩
  · rcases h1 h0 with ⟨g, x, y, e, -⟩ | e
    · rcases h1' (by rw [← ea, ← eb]; exact h0) with ⟨g', x', y', e', -⟩ | e'
      · obtain ⟨s1, s2, s3⟩ := SameG.extendedGcd hv hv' ⟨ha, ha', ea⟩ ⟨hb, hb', eb⟩ e e'
        exact Or.inr ⟨g, x, y, g', x', y', e, e', s1, s2, s3⟩
      · exact absurd e'.1 h'
    · exact absurd e.1 h

/-- `2^64 + 5` and 7 on the 64-bit build and on the 16-bit build. -/
example := C40_ubig_extended_gcd cfg64_valid cfg16_valid exB_wf (b := .small 7) (show 7 < 2 ^ 64 by decide)
  (a' := bigOf [5, 0, 0, 0, 1]) (bigOf_wf _ (by decide +kernel)) (b' := .small 7) (show 7 < 2 ^ 16 by decide)
  (by decide +kernel) (by decide +kernel) (fun h => absurd (congrArg Except.toBool h) (by decide +kernel))
  (fun h => absurd (congrArg Except.toBool h) (by decide +kernel))

/-- C40: the same for `IBig::extended_gcd`. -/
theorem C40_ibig_extended_gcd {cfg cfg' : Cfg} (hv : cfg.Valid) (hv' : cfg'.Valid) {a b a' b' : IBig}
    (ha : a.WF cfg) (hb : b.WF cfg) (ha' : a'.WF cfg') (hb' : b'.WF cfg') (ea : a.value cfg = a'.value cfg')
    (eb : b.value cfg = b'.value cfg') (h : a.extendedGcd cfg b ≠ .error .tooLarge)
    (h' : a'.extendedGcd cfg' b' ≠ .error .tooLarge) :
    (∃ e, a.extendedGcd cfg b = .error e ∧ a'.extendedGcd cfg' b' = .error e) ∨
    ∃ g x y g' x' y', a.extendedGcd cfg b = .ok (g, x, y) ∧ a'.extendedGcd cfg' b' = .ok (g', x', y') ∧
      g.value cfg = g'.value cfg' ∧ x.value cfg = x'.value cfg' ∧ y.value cfg = y'.value cfg' := by
  have sign : ∀ {i i' : IBig}, i.WF cfg → i'.WF cfg' → i.value cfg = i'.value cfg' → i.sign = i'.sign := by
    intro i i' w w' e
    have k := IBig.value_nonneg_iff w
    have k' := IBig.value_nonneg_iff w'
    rw [e, ← k'] at k
    rcases hs : i.sign <;> rcases ht : i'.sign <;> simp_all
  have mag : ∀ {i i' : IBig}, i.value cfg = i'.value cfg' → i.mag.value cfg = i'.mag.value cfg' := by
    intro i i' e
    rw [← IBig.natAbs_value i, ← IBig.natAbs_value i', e]
  have hm : a.mag.extendedGcd cfg b.mag ≠ .error .tooLarge := fun e => h (by unfold IBig.extendedGcd; rw [e]; rfl)
  have hm' : a'.mag.extendedGcd cfg' b'.mag ≠ .error .tooLarge :=
    fun e => h' (by unfold IBig.extendedGcd; rw [e]; rfl)
  obtain ⟨h1, h2⟩ := C25_ubig_extended_gcd hv ha.mag hb.mag
  obtain ⟨h1', h2'⟩ := C25_ubig_extended_gcd hv' ha'.mag hb'.mag
  by_cases h0 : a.mag.value cfg = 0 ∧ b.mag.value cfg = 0
  · refine Or.inl ⟨.gcdZero, ?_, ?_⟩ <;> unfold IBig.extendedGcd
    · rw [h2 h0.1 h0.2]; rfl
    · rw [h2' (by rw [← mag ea]; exact h0.1) (by rw [← mag eb]; exact h0.2)]; rfl
  · obtain ⟨g, x, y, e, w1, w2, w3, -⟩ := (h1 h0).resolve_right (fun k => hm k.1)
    obtain ⟨g', x', y', e', w1', w2', w3', -⟩ :=
      (h1' (by rw [← mag ea, ← mag eb]; exact h0)).resolve_right (fun k => hm' k.1)
    obtain ⟨s1, s2, s3⟩ := SameG.extendedGcd hv hv' ⟨ha.mag, ha'.mag, mag ea⟩ ⟨hb.mag, hb'.mag, mag eb⟩ e e'
    refine Or.inr ⟨_, _, _, _, _, _, by unfold IBig.extendedGcd; rw [e]; rfl,
      by unfold IBig.extendedGcd; rw [e']; rfl, ?_, ?_, ?_⟩
    · rw [(IBig.ofUBig_spec hv w1).2, (IBig.ofUBig_spec hv' w1').2]; exact_mod_cast s1
    · rw [(IBig.mulSign_spec hv _ w2).2, (IBig.mulSign_spec hv' _ w2').2, sign ha ha' ea]
      exact congrArg _ s2
    · rw [(IBig.mulSign_spec hv _ w3).2, (IBig.mulSign_spec hv' _ w3').2, sign hb hb' eb]
      exact congrArg _ s3

/-- `-(2^64 + 5)` and 7 on the 64-bit build and on the 16-bit build. -/
example := C40_ibig_extended_gcd cfg64_valid cfg16_valid exNegB_wf (b := ⟨.pos, .small 7⟩)
  ⟨show 7 < 2 ^ 64 by decide, fun _ => rfl⟩ (a' := ibigOf .neg [5, 0, 0, 0, 1])
  (ibigOf_wf _ (bigOf_wf _ (by decide +kernel)) (by decide +kernel)) (b' := ⟨.pos, .small 7⟩)
  ⟨show 7 < 2 ^ 16 by decide, fun _ => rfl⟩
  (by decide +kernel) (by decide +kernel) (fun h => absurd (congrArg Except.toBool h) (by decide +kernel))
  (fun h => absurd (congrArg Except.toBool h) (by decide +kernel))

/-- 2^64 + 5 and 7 on 64-bit and 16-bit words. -/
example : (bigOf [5, 1]).WF cfg64 ∧ (bigOf [5, 0, 0, 0, 1]).WF cfg16 ∧
    (bigOf [5, 1]).value cfg64 = (bigOf [5, 0, 0, 0, 1]).value cfg16 ∧
    ((bigOf [5, 1]).extendedGcd cfg64 (.small 7)).map (fun r => (r.1.value cfg64, r.2.1.value cfg64,
      r.2.2.value cfg64)) =
    ((bigOf [5, 0, 0, 0, 1]).extendedGcd cfg16 (.small 7)).map (fun r => (r.1.value cfg16, r.2.1.value cfg16,
      r.2.2.value cfg16)) ∧
    ((bigOf [5, 1]).extendedGcd cfg64 (.small 7)).toBool = true := by
  refine ⟨bigOf_wf _ (by decide +kernel), bigOf_wf _ (by decide +kernel), ?_, ?_, ?_⟩ <;> decide +kernel

end Ibig
