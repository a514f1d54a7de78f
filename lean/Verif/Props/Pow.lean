import Verif.Proofs.Pow
import Verif.Spec.Examples
/-!
# Property C26: exponentiation
-/
namespace Ibig

/-- C26: `UBig::pow` and `IBig::pow` are exact for every `usize` exponent; they panic with "number too
large" exactly if the power is beyond the size limit. -/
theorem C26_pow {cfg : Cfg} (hv : cfg.Valid) {exp : Nat} (he : exp < 2 ^ cfg.U) :
    (∀ a : UBig, a.WF cfg → Yields cfg (a.pow cfg exp) (a.value cfg ^ exp)) ∧
    (∀ a : IBig, a.WF cfg → IYields cfg (a.pow cfg exp) (a.value cfg ^ exp)) :=
  ⟨fun _ ha => UBig.pow_spec hv ha he, fun _ ha => IBig.pow_spec hv ha he⟩

/-- The 1000th power of `2^128 - 1` and of its opposite. -/
example := (C26_pow cfg64_valid (exp := 1000) (by decide +kernel)).1 exA exA_wf
example := (C26_pow cfg64_valid (exp := 1000) (by decide +kernel)).2 exNegA exNegA_wf

example : (UBig.small 3).pow cfg64 40 = .ok (.small (3 ^ 40)) ∧
    (UBig.small 2).pow cfg64 64 = .ok (.large ⟨[0, 1], 4⟩) ∧
    (⟨.neg, .small 7⟩ : IBig).pow cfg16 7 = .ok ⟨.neg, .large ⟨[7 ^ 7 % 2 ^ 16, 7 ^ 7 / 2 ^ 16], 4⟩⟩ := by
  decide +kernel
/-- `2^(2^64-1)` does not fit: -/
example : (UBig.small 2).pow cfg64 (2 ^ 64 - 1) = .error .tooLarge := by decide +kernel

end Ibig
