import Verif.Proofs.Serde
import Verif.Spec.Examples
/-!
# C31: serialisation

`Nat.digits (2^64) n` (Mathlib) is the list of the base-2⁶⁴ digits of `n`, least significant first, without
leading zeros; `Nat.ofDigits (2^64) es` is the number with the digits `es`.
-/
namespace Ibig

/-- C31: the serialised form of a `UBig` is the list of its base-2⁶⁴ digits, announced with its length.  So
it depends only on the number, not on the word size. -/
theorem C31_ubig_serialize {cfg : Cfg} (hv : cfg.Valid) {x : UBig} (hx : x.WF cfg) :
    x.serialize cfg = .ok ((Nat.digits (2 ^ 64) (x.value cfg)).length, Nat.digits (2 ^ 64) (x.value cfg)) :=
  UBig.serialize_spec hv hx

/-- A 300-word number. -/
example := C31_ubig_serialize cfg64_valid exLong_wf

example : exA.serialize cfg64 = .ok (2, [2 ^ 64 - 1, 2 ^ 64 - 1]) := by decide +kernel
example : (bigOf [1, 2, 3, 4, 5]).serialize cfg16 = .ok (2, [1 + 2 * 2 ^ 16 + 3 * 2 ^ 32 + 4 * 2 ^ 48, 5]) := by
  decide +kernel
example : (UBig.small 0).serialize cfg16 = .ok (0, []) := by decide +kernel

/-- C31: a writer's output, read by a reader with any word size, gives the same number (or the reader panics
if the number is beyond its own size limit), whether the length is announced or not. -/
theorem C31_ubig_round_trip {cfg cfg' : Cfg} (hv : cfg.Valid) (hv' : cfg'.Valid) {x : UBig} (hx : x.WF cfg) :
    ∃ len es, x.serialize cfg = .ok (len, es) ∧
      Yields cfg' (UBig.deserialize cfg' (some len) es) (x.value cfg) ∧
      Yields cfg' (UBig.deserialize cfg' none es) (x.value cfg) :=
  ⟨_, _, UBig.serialize_spec hv hx, UBig.deserialize_spec hv' _ (.inr rfl), UBig.deserialize_spec hv' _ (.inl rfl)⟩

/-- A two-word number sent from a 64-bit build to a 16-bit build. -/
example := C31_ubig_round_trip cfg64_valid cfg16_valid exA_wf

/-- C31: in one build, the value read is the value written. -/
theorem C31_ubig_same_build {cfg : Cfg} (hv : cfg.Valid) {x : UBig} (hx : x.WF cfg) :
    ∃ len es, x.serialize cfg = .ok (len, es) ∧ ∀ hint, hint = none ∨ hint = some len →
      ∃ y, UBig.deserialize cfg hint es = .ok y ∧ y.WF cfg ∧ y.value cfg = x.value cfg :=
  ⟨_, _, UBig.serialize_spec hv hx, fun _ hh => (UBig.deserialize_spec hv _ hh).1 (UBig.WF.fits hv hx)⟩

/-- A 300-word number. -/
example := C31_ubig_same_build cfg64_valid exLong_wf

/-- C31: signed numbers. -/
theorem C31_ibig_round_trip {cfg cfg' : Cfg} (hv : cfg.Valid) (hv' : cfg'.Valid) {x : IBig} (hx : x.WF cfg) :
    ∃ s len es, x.serialize cfg = .ok (s, len, es) ∧
      s = (if 0 ≤ x.value cfg then Sign.pos else Sign.neg) ∧ es = Nat.digits (2 ^ 64) (x.value cfg).natAbs ∧
      len = es.length ∧
      IYields cfg' (IBig.deserialize cfg' s (some len) es) (x.value cfg) ∧
      IYields cfg' (IBig.deserialize cfg' s none es) (x.value cfg) := by
  have key : ∀ hint, hint = none ∨ hint = some (Nat.digits (2 ^ 64) (x.mag.value cfg)).length →
      IYields cfg' (IBig.deserialize cfg' x.sign hint (Nat.digits (2 ^ 64) (x.mag.value cfg))) (x.value cfg) := by
    intro hint hh
    obtain ⟨h1, h2⟩ := UBig.deserialize_spec hv' (x.mag.value cfg) hh
    unfold IYields
    rw [IBig.natAbs_value]
    refine ⟨fun hf => ?_, fun hf => ?_⟩
    · obtain ⟨m, e, hm, hmv⟩ := h1 hf
      obtain ⟨g1, g2⟩ := IBig.fromSignMagnitude_spec hv' x.sign hm
      exact ⟨_, by simp only [IBig.deserialize, e, bind, Except.bind], g1, by rw [g2, hmv]; rfl⟩
    · simp only [IBig.deserialize, h2 hf, bind, Except.bind]
  refine ⟨x.sign, _, _, ?_, ?_, ?_, rfl, key _ (.inr rfl), key _ (.inl rfl)⟩
  · simp only [IBig.serialize, UBig.serialize_spec hv hx.mag, bind, Except.bind]
  · have h := IBig.value_nonneg_iff hx
    rcases hs : x.sign
    · rw [if_pos (h.mp hs)]
    · rw [if_neg (fun g => by rw [h.mpr g] at hs; cases hs)]
  · rw [IBig.natAbs_value]

/-- A negative integer sent from a 64-bit build to a 32-bit build. -/
example := C31_ibig_round_trip cfg64_valid cfg32_valid exNegA_wf

example : exNegA.serialize cfg64 = .ok (.neg, 2, [2 ^ 64 - 1, 2 ^ 64 - 1]) := by decide +kernel

/-- C31: any announced-correctly or unannounced sequence of `u64`s, from whatever source, is read as the number
with those digits (leading zeros allowed), except that a sequence longer than the largest buffer is refused as
"number too large" even if its leading elements are zero. -/
theorem C31_any_sequence {cfg : Cfg} (hv : cfg.Valid) {es : List Nat} (hes : ∀ e ∈ es, e < 2 ^ 64)
    {hint : Option Nat} (hh : hint = none ∨ hint = some es.length) :
    (es.length * (64 / cfg.W) ≤ cfg.maxLen + 4 →
      Yields cfg (UBig.deserialize cfg hint es) (Nat.ofDigits (2 ^ 64) es)) ∧
    (cfg.maxLen + 4 < es.length * (64 / cfg.W) → UBig.deserialize cfg hint es = .error .tooLarge) := by
  rcases hh with rfl | rfl
  · exact UBig.deserialize_none hv hes
  · exact UBig.deserialize_some hv hes

/-- Three elements, the last of them zero, on a 32-bit build. -/
example := (C31_any_sequence cfg32_valid (es := [5, 2 ^ 64 - 1, 0]) (by decide +kernel) (Or.inr rfl)).1
  (by decide +kernel)

example : UBig.deserialize cfg32 (some 3) [1 + 2 * 2 ^ 32, 3, 0] = .ok (.large ⟨[1, 2, 3], 10⟩) := by
  decide +kernel
example : UBig.deserialize cfg16 none [1 + 2 * 2 ^ 32, 3] = .ok (.large ⟨[1, 0, 2, 0, 3], 7⟩) := by
  decide +kernel

/-- A sequence whose announced length is wrong is never read as a number: the reader panics. -/
theorem C31_wrong_announcement (cfg : Cfg) {n : Nat} {es : List Nat} (h : n ≠ es.length) :
    ∃ p, UBig.deserialize cfg (some n) es = .error p :=
  UBig.deserialize_lie cfg h

/-- Four elements announced, three sent. -/
example := C31_wrong_announcement cfg64 (n := 4) (es := [5, 2 ^ 64 - 1, 0]) (by decide)

/-- A negative zero in the data is read as zero. -/
theorem C31_negative_zero {cfg : Cfg} (hv : cfg.Valid) {hint : Option Nat} (hh : hint = none ∨ hint = some 0) :
    ∃ y, IBig.deserialize cfg .neg hint [] = .ok y ∧ y.WF cfg ∧ y.value cfg = 0 := by
  obtain ⟨h1, -⟩ := UBig.deserialize_spec hv 0 (hint := hint) (by simpa using hh)
  obtain ⟨m, e, hm, hmv⟩ := h1 (by unfold Fits; positivity)
  obtain ⟨g1, g2⟩ := IBig.fromSignMagnitude_spec hv .neg hm
  simp only [Nat.digits_zero] at e
  exact ⟨_, by simp only [IBig.deserialize, e, bind, Except.bind], g1, by rw [g2, hmv]; simp⟩

/-- On a 64-bit build, with the length announced. -/
example := C31_negative_zero cfg64_valid (Or.inr rfl)

end Ibig
