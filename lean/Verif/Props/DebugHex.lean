import Verif.Model.DebugHex
import Verif.Props.ModularFmt
import Verif.Spec.Examples
import Verif.Spec.ExamplesModular
/-! # C58 (`Debug` with the flags of `{:x?}` and `{:X?}`): theorems -/
namespace Ibig

/-- How `Debug` prints a number next to a modulus `n`: hexadecimal only if it is asked for and the modulus fits into a
word. -/
def debugTrait (W n : Nat) (h : DebugHex) : FmtTrait :=
  if n < 2 ^ W then
    match h with
    | .off => .display
    | .lower => .lowerHex
    | .upper => .upperHex
  else .display

theorem primDebug_eq {W n : Nat} (hn : n < 2 ^ W) (h : DebugHex) (k : Nat) (f : FmtFlags) :
    primDebug W h k f = primFmt W (debugTrait W n h) k f := by
  unfold primDebug debugTrait
  rw [if_pos hn]
  cases h <;> rfl

theorem ringDebug_eq {cfg : Cfg} (be : Bool) (h : DebugHex) (f : FmtFlags) {r : Ring} {n : Nat} (hr : r.OK cfg n) :
    r.debugFmt cfg be h f = r.fmt cfg be (debugTrait cfg.W n h) f := by
  unfold Ring.OK at hr
  unfold Ring.debugFmt Ring.fmt
  rcases hrr : r.repr with s | l <;> rw [hrr] at hr <;> simp only at hr ⊢
  · have hn : n < 2 ^ cfg.W := by
      have h1 := hr.lt
      rw [hr.eq, base_eq] at h1
      exact lt_of_le_of_lt (Nat.le_mul_of_pos_right _ (by positivity)) h1
    simp only [primDebug_eq hn]
  · have hn : ¬n < 2 ^ cfg.W := by
      have h1 := hr.ge
      have h2 := hr.two
      have h3 : base cfg.W ^ 1 ≤ base cfg.W ^ (l.modulus.length - 1) :=
        Nat.pow_le_pow_right (base_pos _) (by omega)
      rw [pow_one] at h3
      rw [← base_eq]
      omega
    unfold debugTrait UBig.debugFmt
    rw [if_neg hn]

/-- C58: numbers print in decimal with `Debug`, also with the flags of `{:x?}` and `{:X?}`, on every build. -/
theorem C58_numbers {cfg : Cfg} (hv : cfg.Valid) (be : Bool) (h : DebugHex) (f : FmtFlags) {x : UBig} (hx : x.WF cfg)
    {y : IBig} (hy : y.WF cfg) :
    Prints f 10 false false (x.value cfg) [] (x.debugFmt cfg be h f) ∧
    Prints f 10 false (decide (y.value cfg < 0)) (y.value cfg).natAbs [] (y.debugFmt cfg be h f) := by
  have := C23_traits hv be .display f hx hy
  unfold UBig.debugFmt IBig.debugFmt
  simpa [traitPrefix, traitRadix] using this

/-- `{:#x?}` of `2^128 - 1` and of `-(2^64 + 5)`. -/
example := C58_numbers cfg64_valid false .lower ⟨none, 32, none, false, true, false⟩ exA_wf exNegB_wf

/-- C58, the part that holds: a ring prints as `mod ` and the modulus, and an element as the residue and the ring in
parentheses, where both numbers are printed in the radix that the flag asks for if the modulus fits into a word, and
in decimal otherwise.  (So without these flags, or for moduli below `2^16`, the text is the same on all
builds.) -/
theorem C58_rings_partial {cfg : Cfg} (hv : cfg.Valid) (be : Bool) (h : DebugHex) (f : FmtFlags) {r : Ring} {n : Nat}
    (hr : IsRing cfg r n) {x : Modulo} {k : Nat} (hx : Elem cfg r x k) :
    ∃ residue modulus, r.debugFmt cfg be h f = .ok ("mod ".toList.map Char.toNat ++ modulus) ∧
      x.debugFmt cfg be h f =
        .ok (residue ++ " (mod ".toList.map Char.toNat ++ modulus ++ ")".toList.map Char.toNat) ∧
      (∀ t, t = debugTrait cfg.W n h →
        Prints f (traitRadix t) (decide (t = .upperHex)) false k
          (if f.alternate then (traitPrefix t).toList.map Char.toNat else []) (.ok residue) ∧
        Prints f (traitRadix t) (decide (t = .upperHex)) false n
          (if f.alternate then (traitPrefix t).toList.map Char.toNat else []) (.ok modulus)) := by
  have hok := hr.ok hv
  have hxe : x.debugFmt cfg be h f = x.fmt cfg be (debugTrait cfg.W n h) f := by
    obtain ⟨hk, hel⟩ := elem_cases hok hx
    unfold Modulo.debugFmt Modulo.fmt
    rcases hel with ⟨s, e1, hs, rfl⟩ | ⟨l, v, e1, hl, rfl, -⟩
    · have er : (⟨r.addr, .small s⟩ : Ring) = r := by rw [← e1]
      have hn : n < 2 ^ cfg.W := by
        have h1 := hs.lt
        rw [hs.eq, base_eq] at h1
        exact lt_of_le_of_lt (Nat.le_mul_of_pos_right _ (by positivity)) h1
      simp only [er, primDebug_eq hn, ringDebug_eq be h f hok]
    · have er : (⟨r.addr, .large l⟩ : Ring) = r := by rw [← e1]
      have hn : ¬n < 2 ^ cfg.W := by
        have h1 := hl.ge
        have h2 := hl.two
        have h3 : base cfg.W ^ 1 ≤ base cfg.W ^ (l.modulus.length - 1) :=
          Nat.pow_le_pow_right (base_pos _) (by omega)
        rw [pow_one] at h3
        rw [← base_eq]
        omega
      have hd : debugTrait cfg.W n h = .display := by unfold debugTrait; rw [if_neg hn]
      simp only [er, ringDebug_eq be h f hok, UBig.debugFmt, hd]
  obtain ⟨residue, modulus, e, h1, h2⟩ := C45_modulo hv be (debugTrait cfg.W n h) f hr hx
  obtain ⟨m2, e2, h3⟩ := C45_ring hv be (debugTrait cfg.W n h) f hr
  have hm : (.ok m2 : R (List Nat)) = .ok modulus :=
    C23_unique (by generalize debugTrait cfg.W n h = t; cases t <;> decide) h3 h2
  refine ⟨residue, modulus, ?_, by rw [hxe, e], ?_⟩
  · rw [ringDebug_eq be h f hok, e2, Except.ok.inj hm]
  · rintro t rfl
    exact ⟨h1, h2⟩

/-- `{:x?}` of the element `2^64 + 2` modulo `2^64 + 5`, and of 5 modulo 10007. -/
example := C58_rings_partial cfg64_valid false .lower .default exRing2_is exEl2_is
example := C58_rings_partial cfg64_valid false .lower .default exRing1_is exEl1_is

/-- what the program `println!("{:x?}", ModuloRing::new(&n))` prints -/
def printRing (cfg : Cfg) (n : UBig) : R (List Nat) := do
  let r ← Ring.new cfg 1 n
  r.debugFmt cfg false .lower .default

/-- C58 does not hold: the ring modulo 100000 prints as `mod 186a0` on a build with 64-bit words, and as `mod 100000`
on a build with 16-bit words. -/
theorem C58_rings_violated :
    ¬∀ (cfg1 cfg2 : Cfg) (_ : cfg1.Valid) (_ : cfg2.Valid) (r1 r2 : Ring) (n : Nat) (_ : IsRing cfg1 r1 n)
      (_ : IsRing cfg2 r2 n) (be : Bool) (h : DebugHex) (f : FmtFlags),
      r1.debugFmt cfg1 be h f = r2.debugFmt cfg2 be h f := by
  intro hall
  have w1 : (UBig.small 100000).WF cfg64 := by show 100000 < base cfg64.W; decide +kernel
  have w2 : (bigOf [100000 % 2 ^ 16, 1]).WF cfg16 := bigOf_wf _ (by decide +kernel)
  have v1 : (UBig.small 100000).value cfg64 = 100000 := by decide +kernel
  have v2 : (bigOf [100000 % 2 ^ 16, 1]).value cfg16 = 100000 := by decide +kernel
  have p1 : printRing cfg64 (.small 100000) = .ok (asciiBytes "mod 186a0") := by decide +kernel
  have p2 : printRing cfg16 (bigOf [100000 % 2 ^ 16, 1]) = .ok (asciiBytes "mod 100000") := by decide +kernel
  obtain ⟨r1, e1, -, h1, -⟩ := (C27_new cfg64_valid 1 w1).1 (by rw [v1]; decide)
  obtain ⟨r2, e2, -, h2, -⟩ := (C27_new cfg16_valid 1 w2).1 (by rw [v2]; decide)
  rw [v1] at h1
  rw [v2] at h2
  have := hall cfg64 cfg16 cfg64_valid cfg16_valid r1 r2 100000 h1 h2 false .lower .default
  unfold printRing at p1 p2
  rw [e1] at p1
  rw [e2] at p2
  replace p1 : r1.debugFmt cfg64 false .lower .default = _ := p1
  replace p2 : r2.debugFmt cfg16 false .lower .default = _ := p2
  rw [p1, p2] at this
  revert this
  decide +kernel

/-- C58, the part that holds: without the hexadecimal flags, or if the modulus is on the same side of both word sizes,
the text is the same on both builds. -/
theorem C58_same_text_partial {cfg1 cfg2 : Cfg} (hv1 : cfg1.Valid) (hv2 : cfg2.Valid) (be1 be2 : Bool) (h : DebugHex)
    (f : FmtFlags) {r1 r2 : Ring} {n : Nat} (hr1 : IsRing cfg1 r1 n) (hr2 : IsRing cfg2 r2 n) {x1 x2 : Modulo}
    {k : Nat} (hx1 : Elem cfg1 r1 x1 k) (hx2 : Elem cfg2 r2 x2 k)
    (hh : h = .off ∨ (n < 2 ^ cfg1.W ↔ n < 2 ^ cfg2.W)) :
    r1.debugFmt cfg1 be1 h f = r2.debugFmt cfg2 be2 h f ∧ x1.debugFmt cfg1 be1 h f = x2.debugFmt cfg2 be2 h f := by
  have ht : debugTrait cfg2.W n h = debugTrait cfg1.W n h := by
    unfold debugTrait
    rcases hh with rfl | hh
    · simp
    · simp only [hh]
  obtain ⟨res1, mod1, e1, g1, p1⟩ := C58_rings_partial hv1 be1 h f hr1 hx1
  obtain ⟨res2, mod2, e2, g2, p2⟩ := C58_rings_partial hv2 be2 h f hr2 hx2
  obtain ⟨a1, b1⟩ := p1 _ rfl
  obtain ⟨a2, b2⟩ := p2 _ ht.symm
  have c : 2 ≤ traitRadix (debugTrait cfg1.W n h) := by generalize debugTrait cfg1.W n h = t; cases t <;> decide
  have ea := Except.ok.inj (C23_unique c a1 a2)
  have eb := Except.ok.inj (C23_unique c b1 b2)
  rw [e1, e2, g1, g2, ea, eb]
  exact ⟨rfl, rfl⟩

-- the hypotheses can be met, and an element's text
example :
    (do
      let r ← Ring.new cfg64 1 (.small 100000)
      let x ← r.fromPrim cfg64 (.i 32) 291
      x.debugFmt cfg64 false .upper { FmtFlags.default with alternate := true }) =
      .ok (asciiBytes "0x123 (mod 0x186A0)") ∧
    (do
      let r ← Ring.new cfg16 1 (bigOf [100000 % 2 ^ 16, 1])
      let x ← r.fromPrim cfg16 (.i 32) 291
      x.debugFmt cfg16 false .upper { FmtFlags.default with alternate := true }) =
      .ok (asciiBytes "291 (mod 100000)") := by decide +kernel

/-- `{:?}` does not depend on the byte order. -/
example := C58_same_text_partial cfg64_valid cfg64_valid false true .off .default exRing2_is exRing2_is exEl2_is
  exEl2_is (Or.inl rfl)

example : ∃ r x, IsRing cfg64 r 100000 ∧ Elem cfg64 r x 291 := by
  have w1 : (UBig.small 100000).WF cfg64 := by show 100000 < base cfg64.W; decide +kernel
  have v1 : (UBig.small 100000).value cfg64 = 100000 := by decide +kernel
  obtain ⟨r1, e1, -, h1, -⟩ := (C27_new cfg64_valid 1 w1).1 (by rw [v1]; decide)
  rw [v1] at h1
  obtain ⟨m, k, -, h2, h3⟩ := (C27_from_primitive cfg64_valid h1 (t := .i 32) (by simp [PTy.Valid]) (z := 291)
    (by unfold PTy.InRange; norm_num)).1
  refine ⟨r1, m, h1, ?_⟩
  have : k = 291 := by omega
  rwa [this] at h2

end Ibig
