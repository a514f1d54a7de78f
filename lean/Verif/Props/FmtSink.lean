import Verif.Proofs.FmtSink
import Verif.Props.ModularFmt
import Verif.Spec.ExamplesModular
/-! # C53 (printing into a sink that may fail): theorems -/
namespace Ibig

/-- C53: printing with `Display`, `Debug`, `Binary`, `Octal`, `LowerHex`, `UpperHex` into a sink that may fail at
any call, for every such sink.  The text is that of C23. -/
theorem C53_traits {cfg : Cfg} (hv : cfg.Valid) (be : Bool) (t : FmtTrait) (f : FmtFlags) {x : UBig}
    (hx : x.WF cfg) {y : IBig} (hy : y.WF cfg) :
    let pre := if f.alternate then (traitPrefix t).toList.map Char.toNat else []
    (∃ text, Prints f (traitRadix t) (decide (t = .upperHex)) false (x.value cfg) pre (.ok text) ∧
      ∀ accept, PrintsInto accept text (x.fmtSink accept cfg be t f)) ∧
    (∃ text, Prints f (traitRadix t) (decide (t = .upperHex)) (decide (y.value cfg < 0)) (y.value cfg).natAbs pre
        (.ok text) ∧
      ∀ accept, PrintsInto accept text (y.fmtSink accept cfg be t f)) := by
  obtain ⟨⟨s1, d1, a1, a2⟩, ⟨s2, d2, b1, b2⟩⟩ := C23_traits hv be t f hx hy
  exact ⟨⟨s1, ⟨s1, d1, rfl, a2⟩, fun accept => (fmtFull_delivers a1).prints⟩,
    ⟨s2, ⟨s2, d2, rfl, b2⟩, fun accept => (fmtFull_delivers b1).prints⟩⟩

/-- `{:#x}` with width 24, centred. -/
example := C53_traits cfg64_valid true .lowerHex ⟨some 24, 42, some .center, false, true, false⟩ exA_wf exNegB_wf

/-- C53 for `in_radix`. -/
theorem C53_in_radix {cfg : Cfg} (hv : cfg.Valid) (be : Bool) {radix : Nat} (h2 : 2 ≤ radix) (h36 : radix ≤ 36)
    (f : FmtFlags) {x : UBig} (hx : x.WF cfg) {y : IBig} (hy : y.WF cfg) :
    (∃ text, Prints f radix f.alternate false (x.value cfg) [] (.ok text) ∧
      ∀ accept, PrintsInto accept text (x.inRadixSink accept cfg be radix f)) ∧
    (∃ text, Prints f radix f.alternate (decide (y.value cfg < 0)) (y.value cfg).natAbs [] (.ok text) ∧
      ∀ accept, PrintsInto accept text (y.inRadixSink accept cfg be radix f)) := by
  obtain ⟨⟨s1, d1, a1, a2⟩, ⟨s2, d2, b1, b2⟩⟩ := C23_in_radix hv be h2 h36 f hx hy
  obtain ⟨_, h1, a1⟩ := ok_of_bind a1
  obtain ⟨_, _, b1⟩ := ok_of_bind b1
  exact ⟨⟨s1, ⟨s1, d1, rfl, a2⟩, fun accept => (DeliversText.bindR h1 (fmtFull_delivers a1)).prints⟩,
    ⟨s2, ⟨s2, d2, rfl, b2⟩, fun accept => (DeliversText.bindR h1 (fmtFull_delivers b1)).prints⟩⟩

/-- Radix 7 with width 24, centred. -/
example := C53_in_radix cfg64_valid true (radix := 7) (by decide) (by decide)
  ⟨some 24, 42, some .center, false, false, false⟩ exA_wf exNegB_wf

/-- C53 for rings and their elements: the text is that of C45.  `cut` is the way the standard library cuts the
text of a primitive integer into calls of the sink. -/
theorem C53_modular {cfg : Cfg} (hv : cfg.Valid) (be : Bool) (t : FmtTrait) (f : FmtFlags) {r : Ring} {n : Nat}
    (hr : IsRing cfg r n) {x : Modulo} {k : Nat} (hx : Elem cfg r x k) {cut : List Nat → Calls}
    (hcut : ∀ s, (cut s).flatten = s) :
    ∃ residue modulus,
      (∀ accept, PrintsInto accept ("mod ".toList.map Char.toNat ++ modulus) (r.fmtSink accept cut cfg be t f)) ∧
      (∀ accept, PrintsInto accept
        (residue ++ " (mod ".toList.map Char.toNat ++ modulus ++ ")".toList.map Char.toNat)
        (x.fmtSink accept cut cfg be t f)) ∧
      Prints f (traitRadix t) (decide (t = .upperHex)) false k
        (if f.alternate then (traitPrefix t).toList.map Char.toNat else []) (.ok residue) ∧
      Prints f (traitRadix t) (decide (t = .upperHex)) false n
        (if f.alternate then (traitPrefix t).toList.map Char.toNat else []) (.ok modulus) := by
  obtain ⟨m, em, hm⟩ := C45_ring hv be t f hr
  obtain ⟨res, m', ex, h1, h2⟩ := C45_modulo hv be t f hr hx
  have := C23_unique (by cases t <;> decide) hm h2
  cases this
  exact ⟨res, m, fun accept => (ringFmt_delivers hcut em).prints, fun accept => (moduloFmt_delivers hcut ex).prints,
    h1, h2⟩

/-- The element `2^64 + 2` modulo `2^64 + 5`; literal text is passed on character by character. -/
example := C53_modular cfg64_valid false .lowerHex ⟨none, 32, none, false, true, false⟩ exRing2_is exEl2_is
  (cut := fun s => s.map fun c => [c]) fun s => by induction s <;> simp_all

/-- A sink that takes at most `n` characters. -/
def exShort (n : Nat) : Calls → Bool := fun calls => decide (calls.flatten.length ≤ n)

example : UBig.fmtSink (exShort 35) cfg64 false .display exA .default [] =
    .ok (.error (), [[], [], asciiBytes "34028236692093846346337460743176", asciiBytes "8211455"]) ∧
    UBig.fmtSink (exShort 39) cfg64 false .display exA .default [] =
    .ok (.ok (), [[], [], asciiBytes "34028236692093846346337460743176", asciiBytes "8211455"]) ∧
    IBig.fmtSink (exShort 3) cfg64 true .lowerHex exNegB ⟨some 24, 42, some .center, false, true, false⟩ [] =
    .ok (.error (), [[42], [42], [45], [48, 120]]) := by
  refine ⟨by decide +kernel, by decide +kernel, by decide +kernel⟩

example : (∀ s : List Nat, [s].flatten = s) ∧ exA.WF cfg64 ∧ exNegB.WF cfg64 := by
  refine ⟨fun s => by simp, exA_wf, exNegB_wf⟩

end Ibig
