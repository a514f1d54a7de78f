import Verif.Proofs.ModularFmt
import Verif.Props.Fmt
import Verif.Props.Modular
import Verif.Spec.ExamplesModular
/-! # C45 (formatting of rings and their elements), and uniqueness for C23: theorems -/
namespace Ibig

/-- C23: the flags and the number determine the text: two computations that print the same number with the
same flags have the same result.  (So `Prints` leaves no freedom, and the result does not depend on the word
size or the endianness.) -/
theorem C23_unique {f : FmtFlags} {radix : Nat} (h2 : 2 ≤ radix) {upper neg : Bool} {n : Nat} {pre : List Nat}
    {x y : R (List Nat)} (hx : Prints f radix upper neg n pre x) (hy : Prints f radix upper neg n pre y) :
    x = y := by
  obtain ⟨s, d, rfl, a1, a2⟩ := hx
  obtain ⟨t, e, rfl, b1, b2⟩ := hy
  have := C21_unique h2 a1 b1
  subst this
  rw [a2.unique b2]

/-- The text of `{:#x}` with width 24, centred, is determined. -/
example {y : R (List Nat)} (h : Prints ⟨some 24, 42, some .center, false, true, false⟩ 16 false false
    (exA.value cfg64) ("0x".toList.map Char.toNat) y) :
    exA.fmt cfg64 true .lowerHex ⟨some 24, 42, some .center, false, true, false⟩ = y :=
  C23_unique (by decide)
    (C23_traits cfg64_valid true .lowerHex ⟨some 24, 42, some .center, false, true, false⟩ exA_wf exNegB_wf).1 h

/-- C45: a ring prints as `mod `, followed by the modulus, printed as any number with the same flags and
trait. -/
theorem C45_ring {cfg : Cfg} (hv : cfg.Valid) (be : Bool) (t : FmtTrait) (f : FmtFlags) {r : Ring} {n : Nat}
    (hr : IsRing cfg r n) :
    ∃ text, r.fmt cfg be t f = .ok ("mod ".toList.map Char.toNat ++ text) ∧
      Prints f (traitRadix t) (decide (t = .upperHex)) false n
        (if f.alternate then (traitPrefix t).toList.map Char.toNat else []) (.ok text) := by
  have hok := hr.ok hv
  have hm := Ring.modulus_spec hv hok
  unfold Ring.fmt Ring.modulus at *
  unfold Ring.OK at hok
  rcases hrr : r.repr with s | l
  · rw [hrr] at hok hm
    simp only at hok hm ⊢
    obtain ⟨c, e, h1, h2⟩ := hm
    rcases hg : s.getModulus cfg.W with p | w
    · rw [hg] at e; cases e
    · rw [hg] at e
      cases e
      have hw : w = n := h2
      subst hw
      exact ⟨_, rfl, primFmt_prints t h1 f⟩
  · rw [hrr] at hok hm
    simp only at hok hm ⊢
    obtain ⟨c, e, h1, h2⟩ := hm
    rw [e]
    have hp := (C23_traits hv be t f h1 (y := ⟨.pos, c⟩) ⟨h1, by simp⟩).1
    rw [h2] at hp
    obtain ⟨text, d, e1, e2, e3⟩ := hp
    simp only [bind, Except.bind]
    rw [e1]
    exact ⟨text, rfl, text, d, rfl, e2, e3⟩

/-- `{:#x}` of the ring modulo `2^64 + 5`. -/
example := C45_ring cfg64_valid false .lowerHex ⟨none, 32, none, false, true, false⟩ exRing2_is

/-- C45: an element prints as its residue, followed by the ring in parentheses: `residue (mod modulus)`,
both numbers printed with the same flags and trait. -/
theorem C45_modulo {cfg : Cfg} (hv : cfg.Valid) (be : Bool) (t : FmtTrait) (f : FmtFlags) {r : Ring} {n : Nat}
    (hr : IsRing cfg r n) {x : Modulo} {k : Nat} (hx : Elem cfg r x k) :
    ∃ residue modulus, x.fmt cfg be t f =
        .ok (residue ++ " (mod ".toList.map Char.toNat ++ modulus ++ ")".toList.map Char.toNat) ∧
      Prints f (traitRadix t) (decide (t = .upperHex)) false k
        (if f.alternate then (traitPrefix t).toList.map Char.toNat else []) (.ok residue) ∧
      Prints f (traitRadix t) (decide (t = .upperHex)) false n
        (if f.alternate then (traitPrefix t).toList.map Char.toNat else []) (.ok modulus) := by
  obtain ⟨m, em, hm⟩ := C45_ring hv be t f hr
  obtain ⟨hk, c, e, h1, h2⟩ := C27_residue hv hr hx
  have hel := (elem_cases (hr.ok hv) hx).2
  rcases hel with ⟨s, e1, -, rfl⟩ | ⟨l, v, e1, -, rfl, -⟩
  · have er : (⟨r.addr, .small s⟩ : Ring) = r := by rw [← e1]
    unfold Modulo.residue at e
    unfold Modulo.fmt
    simp only at e ⊢
    rw [er, em]
    rcases hg : s.residue cfg.W (k * 2 ^ s.shift) with p | w
    · rw [hg] at e; cases e
    · rw [hg] at e
      cases e
      have hw : w = k := h2
      subst hw
      refine ⟨_, m, ?_, primFmt_prints t h1 f, hm⟩
      simp [bind, Except.bind]
  · have er : (⟨r.addr, .large l⟩ : Ring) = r := by rw [← e1]
    unfold Modulo.residue at e
    unfold Modulo.fmt
    simp only at e ⊢
    have hp := (C23_traits hv be t f h1 (y := ⟨.pos, c⟩) ⟨h1, by simp⟩).1
    rw [h2] at hp
    obtain ⟨text, d, e1, e2, e3⟩ := hp
    rw [er, e, em]
    simp only [bind, Except.bind]
    rw [e1]
    refine ⟨text, m, ?_, ⟨text, d, rfl, e2, e3⟩, hm⟩
    simp

/-- `{:#x}` of the element `2^64 + 2` modulo `2^64 + 5`, and `{}` of 5 modulo 10007. -/
example := C45_modulo cfg64_valid false .lowerHex ⟨none, 32, none, false, true, false⟩ exRing2_is exEl2_is
example := C45_modulo cfg64_valid false .display .default exRing1_is exEl1_is

/-- A ring modulo 10^20 and the element -1 in it, printed as in the examples of the crate. -/
example : (do
      let r ← Ring.new cfg64 1 (bigOf [10 ^ 20 % 2 ^ 64, 10 ^ 20 / 2 ^ 64])
      let x ← r.fromPrim cfg64 (.i 32) (-1)
      x.fmt cfg64 false .display .default) =
    .ok (asciiBytes "99999999999999999999 (mod 100000000000000000000)") ∧
    (do
      let r ← Ring.new cfg64 1 (.small 1000)
      let x ← r.fromPrim cfg64 (.i 32) (-1)
      x.fmt cfg64 false .upperHex ⟨some 8, 46, some .center, true, true, false⟩) =
    .ok (asciiBytes ".+0x3E7. (mod .+0x3E8.)") := by decide +kernel

end Ibig
