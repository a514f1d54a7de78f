import Verif.Proofs.PrimOps
import Verif.Spec.Examples
/-!
# Properties C18 and C36: primitive integers

`PTy` ranges over the primitive integer types (`u8` … `u128`, `usize`, `i8` … `i128`, `isize`), and
`t.InRange z` says that `z` is a value of the type `t` (`Model/Convert.lean`).
-/
namespace Ibig

/-- C18: conversions between big numbers and primitive integers are exact, and fail exactly when the
value is out of range. (`UBig.tryFromPrim` is the infallible `From` for unsigned types.) -/
theorem C18_primitive_conversions {cfg : Cfg} (hv : cfg.Valid) {t : PTy} (ht : t.Valid) :
    (∀ z, t.InRange z → ∃ c, IBig.fromPrim cfg t z = .ok c ∧ c.WF cfg ∧ c.value cfg = z) ∧
    (∀ z, t.InRange z → 0 ≤ z →
      ∃ c, UBig.tryFromPrim cfg t z = .ok (some c) ∧ c.WF cfg ∧ (c.value cfg : Int) = z) ∧
    (∀ z, t.InRange z → z < 0 → UBig.tryFromPrim cfg t z = .ok none) ∧
    (∀ a : UBig, a.WF cfg →
      (t.InRange (a.value cfg) → a.tryToPrim cfg t = .ok (some (a.value cfg : Int))) ∧
      (¬t.InRange (a.value cfg) → a.tryToPrim cfg t = .ok none)) ∧
    (∀ a : IBig, a.WF cfg →
      (t.InRange (a.value cfg) → a.tryToPrim cfg t = .ok (some (a.value cfg))) ∧
      (¬t.InRange (a.value cfg) → a.tryToPrim cfg t = .ok none)) ∧
    (∀ b : Bool, (∃ c, UBig.fromBool cfg b = .ok c ∧ c.WF cfg ∧ c.value cfg = if b then 1 else 0) ∧
      ∃ c, IBig.fromBool cfg b = .ok c ∧ c.WF cfg ∧ c.value cfg = if b then 1 else 0) := by
  refine ⟨fun z hz => IBig.fromPrim_spec hv ht hz, fun z hz => (UBig.tryFromPrim_spec hv ht hz).1,
    fun z hz => (UBig.tryFromPrim_spec hv ht hz).2, fun a ha => UBig.tryToPrim_spec hv ht ha,
    fun a ha => IBig.tryToPrim_spec hv ht ha, fun b => ?_⟩
  have hb : PBits 8 := Or.inl rfl
  have hlt : b.toNat < 2 ^ 8 := by cases b <;> simp
  refine ⟨(UBig.fromUnsigned_ok hv hb hlt).mono ?_, (IBig.fromUnsigned_spec hv hb hlt).mono ?_⟩
  · rintro c ⟨h1, h2⟩; exact ⟨h1, by rw [h2]; cases b <;> rfl⟩
  · rintro c ⟨h1, h2⟩; exact ⟨h1, by rw [h2]; cases b <;> rfl⟩

/-- The smallest `i128` and back; it is not a `UBig`. -/
example := (C18_primitive_conversions cfg64_valid (t := .i 128) (by simp [PTy.Valid])).1 (-2 ^ 127)
  (by norm_num [PTy.InRange])

example : IBig.fromPrim cfg32 (.i 64) (-2 ^ 63) = .ok ⟨.neg, .large ⟨[0, 2 ^ 31], 8⟩⟩ ∧
    (⟨.neg, .large ⟨[0, 2 ^ 31], 8⟩⟩ : IBig).tryToPrim cfg32 (.i 64) = .ok (some (-2 ^ 63)) ∧
    (⟨.pos, .large ⟨[0, 2 ^ 31], 8⟩⟩ : IBig).tryToPrim cfg32 (.i 64) = .ok none ∧
    UBig.tryFromPrim cfg32 (.i 8) (-1) = .ok none := by decide +kernel
example : (PTy.i 64).Valid ∧ (PTy.i 64).InRange (-2 ^ 63) ∧ ¬(PTy.i 64).InRange (2 ^ 63) := by
  refine ⟨by simp [PTy.Valid], by norm_num [PTy.InRange], by norm_num [PTy.InRange]⟩

/-- C36: `UBig` with an unsigned primitive `x`: every operator agrees with the mathematical one. The
operators `%`, `&` and the remainder of `div_rem` return the primitive type. -/
theorem C36_ubig_unsigned {cfg : Cfg} (hv : cfg.Valid) (o : Own) {a : UBig} (ha : a.WF cfg) {b : Nat}
    (hb : (PTy.u b).Valid) {x : Nat} (hx : x < 2 ^ b) :
    Yields cfg (a.addUnsigned cfg o b x) (a.value cfg + x) ∧
    SYields cfg (a.subUnsigned cfg o b x) ((a.value cfg : Int) - x) ∧
    Yields cfg (a.mulUnsigned cfg o b x) (a.value cfg * x) ∧
    (x ≠ 0 →
      (∃ c, a.divUnsigned cfg o b x = .ok c ∧ c.WF cfg ∧ c.value cfg = a.value cfg / x) ∧
      a.remUnsigned cfg o b x = .ok (a.value cfg % x) ∧
      (∃ c, a.remAssignUnsigned cfg b x = .ok c ∧ c.WF cfg ∧ c.value cfg = a.value cfg % x) ∧
      (∃ c, a.divRemUnsigned cfg o b x = .ok (c, a.value cfg % x) ∧ c.WF cfg ∧
        c.value cfg = a.value cfg / x)) ∧
    (x = 0 → a.divUnsigned cfg o b x = .error .divideByZero ∧
      a.remUnsigned cfg o b x = .error .divideByZero ∧
      a.remAssignUnsigned cfg b x = .error .divideByZero ∧
      a.divRemUnsigned cfg o b x = .error .divideByZero) ∧
    (∃ m, a.bitandUnsigned cfg o b x = .ok m ∧
      ∀ i, m.testBit i = ((a.value cfg).testBit i && x.testBit i)) ∧
    (∃ c, a.bitandAssignUnsigned cfg b x = .ok c ∧ c.WF cfg ∧
      ∀ i, (c.value cfg).testBit i = ((a.value cfg).testBit i && x.testBit i)) ∧
    (∃ c, a.bitorUnsigned cfg o b x = .ok c ∧ c.WF cfg ∧
      ∀ i, (c.value cfg).testBit i = ((a.value cfg).testBit i || x.testBit i)) ∧
    (∃ c, a.bitxorUnsigned cfg o b x = .ok c ∧ c.WF cfg ∧
      ∀ i, (c.value cfg).testBit i = ((a.value cfg).testBit i ^^ x.testBit i)) ∧
    (∃ c, a.andNotUnsigned cfg o b x = .ok c ∧ c.WF cfg ∧
      ∀ i, (c.value cfg).testBit i = ((a.value cfg).testBit i && !x.testBit i)) := by
  obtain ⟨r, h1, h2, h3⟩ := UBig.fromUnsigned_ok hv hb hx
  simp only [UBig.addUnsigned, UBig.subUnsigned, UBig.mulUnsigned, UBig.divUnsigned, UBig.remUnsigned,
    UBig.remAssignUnsigned, UBig.divRemUnsigned, UBig.bitandUnsigned, UBig.bitandAssignUnsigned,
    UBig.bitorUnsigned, UBig.bitxorUnsigned, UBig.andNotUnsigned, h1]
  rw [← h3]
  have hand := UBig.bitand_spec hv o .val ha h2
  refine ⟨UBig.add_spec hv o .val ha h2, ?_, UBig.mul_spec hv o .val ha h2, fun h0 => ⟨?_, ?_, ?_, ?_⟩,
    fun h0 => ⟨?_, ?_, ?_, ?_⟩, ?_, UBig.bitand_spec hv .val .val ha h2, UBig.bitor_spec hv o .val ha h2,
    UBig.bitxor_spec hv o .val ha h2, UBig.andNot_spec hv o .val ha h2⟩
  · obtain ⟨g1, g2⟩ := UBig.sub_spec hv o .val ha h2
    refine ⟨fun h => ?_, fun h _ => g2 (by omega), fun h hf => absurd ?_ hf⟩
    · have := g1 (by omega)
      rwa [show ((a.value cfg : Int) - r.value cfg).toNat = a.value cfg - r.value cfg by omega]
    · exact (h2.fits hv).mono (by omega)
  · exact (UBig.div_spec hv o .val ha h2).1 h0
  · obtain ⟨m, g1, g2, g3⟩ := (UBig.rem_spec hv o .val ha h2).1 h0
    show (do let m ← UBig.rem cfg o .val a r; let t ← m.tryToUnsigned cfg b; unwrapR t) = _
    rw [g1, ← g3]
    refine UBig.tryToUnsigned_unwrap hv hb g2 ?_
    rw [g3]; exact lt_trans (Nat.mod_lt _ (by omega)) (by omega)
  · exact (UBig.rem_spec hv .val .val ha h2).1 h0
  · obtain ⟨⟨q, m⟩, g1, g2, g3, g4, g5⟩ := (UBig.divRem_spec hv o .val ha h2).1 h0
    simp only at g2 g3 g4 g5
    refine ⟨q, ?_, g2, g4⟩
    show (do let p ← UBig.divRem cfg o .val a r; _) = _
    rw [g1]
    show (do let t ← m.tryToUnsigned cfg b; let t ← unwrapR t; Except.ok (q, t)) = _
    have hlt : m.value cfg < 2 ^ b := by
      rw [g5]; exact lt_trans (Nat.mod_lt _ (by omega)) (by omega)
    rw [UBig.tryToUnsigned_spec hv hb g3, if_pos hlt, ← g5]; rfl
  · exact (UBig.div_spec hv o .val ha h2).2 h0
  · show (do let m ← UBig.rem cfg o .val a r; _) = _
    rw [(UBig.rem_spec hv o .val ha h2).2 h0]; rfl
  · exact (UBig.rem_spec hv .val .val ha h2).2 h0
  · show (do let m ← UBig.divRem cfg o .val a r; _) = _
    rw [(UBig.divRem_spec hv o .val ha h2).2 h0]; rfl
  · obtain ⟨m, g1, g2, g3⟩ := hand
    refine ⟨m.value cfg, ?_, g3⟩
    show (do let m ← UBig.bitand cfg o .val a r; let t ← m.tryToUnsigned cfg b; unwrapR t) = _
    rw [g1]
    refine UBig.tryToUnsigned_unwrap hv hb g2 (Nat.lt_pow_two_of_testBit _ fun i hi => ?_)
    rw [g3 i]
    simp only
    rw [testBit_ge_false (show r.value cfg < 2 ^ b by omega) hi, Bool.and_false]

/-- A 300-word number and a `u128` that needs two words. -/
example := C36_ubig_unsigned cfg64_valid .ref exLong_wf (b := 128) (by simp [PTy.Valid]) (x := 2 ^ 100 + 7)
  (by norm_num)

example : exB.remUnsigned cfg64 .ref 8 7 = .ok 0 ∧ exB.bitandUnsigned cfg64 .val 16 0xffff = .ok 5 ∧
    exB.subUnsigned cfg64 .ref 128 (2 ^ 64 + 6) = .error .negativeUBig := by decide +kernel

/-- C36: `UBig` with a signed primitive `z`. The operators returning `UBig` panic if the result would be
negative; `%` and the remainder of `div_rem` return the primitive type. -/
theorem C36_ubig_signed {cfg : Cfg} (hv : cfg.Valid) (o : Own) {a : UBig} (ha : a.WF cfg) {b : Nat}
    (hb : (PTy.i b).Valid) {z : Int} (hz : (PTy.i b).InRange z) :
    SYields cfg (a.addSigned cfg o b z) (a.value cfg + z) ∧
    SYields cfg (a.subSigned cfg o b z) (a.value cfg - z) ∧
    SYields cfg (a.mulSigned cfg o b z) (a.value cfg * z) ∧
    (z ≠ 0 →
      SYields cfg (a.divSigned cfg o b z) ((a.value cfg : Int).tdiv z) ∧
      a.remSigned cfg o b z = .ok ((a.value cfg : Int).tmod z) ∧
      SYields cfg (a.remAssignSigned cfg b z) ((a.value cfg : Int).tmod z) ∧
      (0 ≤ (a.value cfg : Int).tdiv z → ∃ q, a.divRemSigned cfg o b z = .ok (q, (a.value cfg : Int).tmod z) ∧
        q.WF cfg ∧ (q.value cfg : Int) = (a.value cfg : Int).tdiv z) ∧
      ((a.value cfg : Int).tdiv z < 0 → a.divRemSigned cfg o b z = .error .negativeUBig) ∧
      SYields cfg (a.divEuclidSigned cfg o b z) ((a.value cfg : Int) / z) ∧
      (0 ≤ (a.value cfg : Int) / z → ∃ q, a.divRemEuclidSigned cfg o b z = .ok (q, (a.value cfg : Int) % z) ∧
        q.WF cfg ∧ (q.value cfg : Int) = (a.value cfg : Int) / z) ∧
      ((a.value cfg : Int) / z < 0 → a.divRemEuclidSigned cfg o b z = .error .negativeUBig)) ∧
    (z = 0 → a.divSigned cfg o b z = .error .divideByZero ∧
      a.remSigned cfg o b z = .error .divideByZero ∧
      a.remAssignSigned cfg b z = .error .divideByZero ∧
      a.divRemSigned cfg o b z = .error .divideByZero ∧
      a.divEuclidSigned cfg o b z = .error .divideByZero ∧
      a.divRemEuclidSigned cfg o b z = .error .divideByZero) ∧
    (∃ w, (∀ i, ibit w i = (ibit (a.value cfg) i && ibit z i)) ∧
      SYields cfg (a.bitandSigned cfg o b z) w) ∧
    (∃ w, (∀ i, ibit w i = (ibit (a.value cfg) i || ibit z i)) ∧
      SYields cfg (a.bitorSigned cfg o b z) w) ∧
    (∃ w, (∀ i, ibit w i = (ibit (a.value cfg) i ^^ ibit z i)) ∧
      SYields cfg (a.bitxorSigned cfg o b z) w) ∧
    (∃ w, (∀ i, ibit w i = (ibit (a.value cfg) i && !ibit z i)) ∧
      SYields cfg (a.andNotSigned cfg o b z) w) := by
  obtain ⟨l, l1, l2, l3⟩ := IBig.ofUBigOwn_spec hv o ha
  obtain ⟨r, r1, r2, r3⟩ := IBig.fromSigned_spec hv hb hz
  have hvia : ∀ (o' : Own) (op : IBig → IBig → R IBig) (w : Int), IYields cfg (op l r) w →
      SYields cfg (UBig.viaIBig cfg o op a b z) w := by
    intro o' op w h
    unfold UBig.viaIBig
    rw [l1, r1]
    exact ofIBigPanic_yields h
  have hpair : ∀ (op : IBig → IBig → R (IBig × IBig)) (q m : Int),
      IDivRemYields cfg (op l r) z q m → (z ≠ 0 → (PTy.i b).InRange m) →
      (z ≠ 0 → (0 ≤ q → ∃ c, UBig.pairViaIBig cfg o op a b z = .ok (c, m) ∧ c.WF cfg ∧
        (c.value cfg : Int) = q) ∧ (q < 0 → UBig.pairViaIBig cfg o op a b z = .error .negativeUBig)) ∧
      (z = 0 → UBig.pairViaIBig cfg o op a b z = .error .divideByZero) := by
    intro op q m h hm
    unfold UBig.pairViaIBig
    rw [l1, r1]
    refine ⟨fun h0 => ?_, fun h0 => ?_⟩
    · obtain ⟨⟨c, d⟩, g1, g2, g3, g4, g5⟩ := h.1 h0
      simp only at g2 g3 g4 g5
      obtain ⟨k1, k2⟩ := UBig.ofIBigPanic_spec g2
      have hr : d.tryToSigned cfg b = .ok (some m) := by
        have := (IBig.tryToPrim_spec hv (t := .i b) hb g3).1 (by rw [g5]; exact hm h0)
        rw [g5] at this; exact this
      refine ⟨fun hq => ?_, fun hq => ?_⟩
      · obtain ⟨u, u1, u2, u3⟩ := k1 (by omega)
        refine ⟨u, ?_, u2, by omega⟩
        show (do let p ← op l r; _) = _
        rw [g1]
        show (do let q ← UBig.ofIBigPanic c; let t ← d.tryToSigned cfg b; let t ← unwrapR t; Except.ok (q, t)) = _
        rw [u1, hr]; rfl
      · show (do let p ← op l r; _) = _
        rw [g1]
        show (do let q ← UBig.ofIBigPanic c; _) = _
        rw [k2 (by omega)]; rfl
    · show (do let p ← op l r; _) = _
      rw [h.2 h0]; rfl
  have hdr := hpair _ _ _ (r3 ▸ l3 ▸ IBig.divRem_spec hv .val .val l2 r2)
    (fun h0 => tmod_inRange hz h0)
  have hde := hpair _ _ _ (r3 ▸ l3 ▸ IBig.divRemEuclid_spec hv .val .val l2 r2)
    (fun h0 => emod_inRange (t := .i b) hz h0)
  have dspec := UBig.viaIBig_div hv o ha hb hz (op := IBig.div cfg .val .val)
    (w := (a.value cfg : Int).tdiv z)
    fun l r hl hr e1 e2 => e2 ▸ e1 ▸ IBig.div_spec hv .val .val hl hr
  have espec := UBig.viaIBig_div hv o ha hb hz (op := IBig.divEuclid cfg .val .val)
    (w := (a.value cfg : Int) / z)
    fun l r hl hr e1 e2 => e2 ▸ e1 ▸ IBig.divEuclid_spec hv .val .val hl hr
  have mspec := UBig.viaIBig_div hv .val ha hb hz (op := IBig.rem cfg .val .val)
    (w := (a.value cfg : Int).tmod z)
    fun l r hl hr e1 e2 => e2 ▸ e1 ▸ IBig.rem_spec hv .val .val hl hr
  have hrem : (z ≠ 0 → a.remSigned cfg o b z = .ok ((a.value cfg : Int).tmod z)) ∧
      (z = 0 → a.remSigned cfg o b z = .error .divideByZero) := by
    obtain ⟨s1, s2⟩ := toSignMagnitude_spec (PBits.pos hb) hz
    unfold UBig.remSigned
    generalize toSignMagnitude b z = p at s1 s2
    obtain ⟨s, u⟩ := p
    simp only at s1 s2 ⊢
    have hu : u = z.natAbs := by
      cases s <;> simp only [Sign.toInt] at s1 <;> omega
    have hu1 : z ≠ 0 → u ≠ 0 := by omega
    have hu2 : z = 0 → u = 0 := by omega
    obtain ⟨-, -, -, q1, q2, -⟩ := C36_ubig_unsigned hv o ha (b := b) hb s2
    refine ⟨fun h0 => ?_, fun h0 => ?_⟩
    · have hup := Nat.pos_of_ne_zero (hu1 h0)
      rw [(q1 (hu1 h0)).2.1]
      clear q1 q2
      have e : (a.value cfg : Int).tmod z = ((a.value cfg % u : Nat) : Int) := by
        have h5 := Int.natAbs_tmod (a.value cfg : Int) z
        have h6 := Int.tmod_nonneg (a := (a.value cfg : Int)) z (by omega)
        rw [Int.natAbs_natCast, ← hu] at h5
        omega
      have hin := tmod_inRange (a := (a.value cfg : Int)) hz h0
      have hlt : a.value cfg % u < 2 ^ b := lt_trans (Nat.mod_lt _ hup) s2
      have g := (tryFromSignMagnitude_spec (PBits.pos hb) .pos hlt).1
      simp only [Sign.toInt, one_mul] at g
      rw [e] at hin ⊢
      show unwrapR _ = _
      rw [g hin]; rfl
    · rw [(q2 (hu2 h0)).2.1]; rfl
  have bit : ∀ (op : IBig → IBig → R IBig) (p : Bool → Bool → Bool),
      IBitYields cfg (op l r) (fun i => p (ibit (l.value cfg) i) (ibit (r.value cfg) i)) →
      ∃ w, (∀ i, ibit w i = p (ibit (a.value cfg) i) (ibit z i)) ∧
        SYields cfg (UBig.viaIBig cfg o op a b z) w := by
    rintro op p ⟨w, g1, g2⟩
    rw [l3, r3] at g1
    exact ⟨w, g1, hvia o op w g2⟩
  refine ⟨hvia o _ _ (r3 ▸ l3 ▸ IBig.add_spec hv .val .val l2 r2),
    hvia o _ _ (r3 ▸ l3 ▸ IBig.sub_spec hv .val .val l2 r2),
    hvia o _ _ (r3 ▸ l3 ▸ IBig.mul_spec hv .val .val l2 r2),
    fun h0 => ⟨dspec.1 h0, hrem.1 h0, mspec.1 h0, (hdr.1 h0).1, (hdr.1 h0).2, espec.1 h0, (hde.1 h0).1,
      (hde.1 h0).2⟩,
    fun h0 => ⟨dspec.2 h0, hrem.2 h0, mspec.2 h0, hdr.2 h0, espec.2 h0, hde.2 h0⟩, ?_,
    bit _ (· || ·) (IBig.bitor_spec hv .val .val l2 r2),
    bit _ (· ^^ ·) (IBig.bitxor_spec hv .val .val l2 r2),
    bit _ (fun x y => x && !y) (IBig.andNot_spec hv .val .val l2 r2)⟩
  cases o with
  | val => exact bit _ (· && ·) (IBig.bitand_spec hv .val .val l2 r2)
  | ref =>
    simp only [UBig.bitandSigned, r1]
    show ∃ w, _ ∧ SYields cfg (match r.sign with | .pos => _ | .neg => _) w
    cases hs : r.sign with
    | pos =>
      obtain ⟨u, u1, u2, u3⟩ := IBig.unsignedAbs_spec (cfg := cfg) .val r2
      obtain ⟨c, c1, c2, c3⟩ := UBig.bitand_spec hv .ref .val ha u2
      refine ⟨c.value cfg, fun i => ?_, ?_⟩
      · have : z = (u.value cfg : Int) := by
          rw [u3, ← r3]
          have := IBig.value_of_pos (cfg := cfg) hs
          omega
        rw [this, ibit_natCast, ibit_natCast, ibit_natCast]; exact c3 i
      · simp only [u1]
        exact returns_syields hv c1 c2
    | neg =>
      obtain ⟨w, g1, g2⟩ := IBig.bitand_spec hv .val .val l2 r2
      rw [l3, r3] at g1
      refine ⟨w, g1, ?_⟩
      simp only [l1]
      exact ofIBigPanic_yields g2

/-- A two-word number and a negative `i8`. -/
example := C36_ubig_signed cfg64_valid .ref exA_wf (b := 8) (Or.inl rfl) (z := -7) (by norm_num [PTy.InRange])

example : exB.addSigned cfg64 .ref 8 (-5) = .ok (.large ⟨[0, 1], 4⟩) ∧
    exB.remSigned cfg64 .ref 8 (-128) = .ok 5 ∧
    exB.divSigned cfg64 .val 8 (-5) = .error .negativeUBig ∧
    exB.bitandSigned cfg64 .ref 8 (-4) = .ok (.large ⟨[4, 1], 4⟩) := by decide +kernel
example : (PTy.i 8).Valid ∧ (PTy.i 8).InRange (-128) :=
  ⟨by simp [PTy.Valid], by norm_num [PTy.InRange]⟩

/-- C36: `IBig` with any primitive `z`. The operators that return the primitive type are `%` and the
remainder of `div_rem` for signed types, `rem_euclid` for all types, and `&` for unsigned types. -/
theorem C36_ibig_primitive {cfg : Cfg} (hv : cfg.Valid) (o : Own) {a : IBig} (ha : a.WF cfg) {t : PTy}
    (ht : t.Valid) {z : Int} (hz : t.InRange z) :
    IYields cfg (a.addPrim cfg o t z) (a.value cfg + z) ∧
    IYields cfg (a.subPrim cfg o t z) (a.value cfg - z) ∧
    IYields cfg (a.subFromPrim cfg o t z) (z - a.value cfg) ∧
    IYields cfg (a.mulPrim cfg o t z) (a.value cfg * z) ∧
    (z ≠ 0 →
      (∃ c, a.divPrim cfg o t z = .ok c ∧ c.WF cfg ∧ c.value cfg = (a.value cfg).tdiv z) ∧
      (∃ c, a.remPrimBig cfg o t z = .ok c ∧ c.WF cfg ∧ c.value cfg = (a.value cfg).tmod z) ∧
      (∀ b, t = .i b → a.remSigned cfg o b z = .ok ((a.value cfg).tmod z)) ∧
      (∀ b, t = .u b → ∃ q r, a.divRemUnsigned cfg o b z.toNat = .ok (q, r) ∧ q.WF cfg ∧ r.WF cfg ∧
        q.value cfg = (a.value cfg).tdiv z ∧ r.value cfg = (a.value cfg).tmod z) ∧
      (∀ b, t = .i b → ∃ q, a.divRemSigned cfg o b z = .ok (q, (a.value cfg).tmod z) ∧ q.WF cfg ∧
        q.value cfg = (a.value cfg).tdiv z) ∧
      (∃ c, a.divEuclidPrim cfg o t z = .ok c ∧ c.WF cfg ∧ c.value cfg = a.value cfg / z) ∧
      a.remEuclidPrim cfg o t z = .ok (a.value cfg % z) ∧
      (∃ q, a.divRemEuclidPrim cfg o t z = .ok (q, a.value cfg % z) ∧ q.WF cfg ∧
        q.value cfg = a.value cfg / z)) ∧
    (z = 0 → a.divPrim cfg o t z = .error .divideByZero ∧
      a.remPrimBig cfg o t z = .error .divideByZero ∧
      (∀ b, t = .i b → a.remSigned cfg o b z = .error .divideByZero) ∧
      (∀ b, t = .u b → a.divRemUnsigned cfg o b z.toNat = .error .divideByZero) ∧
      (∀ b, t = .i b → a.divRemSigned cfg o b z = .error .divideByZero) ∧
      a.divEuclidPrim cfg o t z = .error .divideByZero ∧
      a.remEuclidPrim cfg o t z = .error .divideByZero ∧
      a.divRemEuclidPrim cfg o t z = .error .divideByZero) ∧
    (∀ b, t = .u b → ∃ m, a.bitandUnsigned cfg o b z.toNat = .ok m ∧
      ∀ i, m.testBit i = (ibit (a.value cfg) i && ibit z i)) ∧
    (∃ w, (∀ i, ibit w i = (ibit (a.value cfg) i && ibit z i)) ∧
      IYields cfg (a.bitandPrimBig cfg o t z) w) ∧
    (∃ w, (∀ i, ibit w i = (ibit (a.value cfg) i || ibit z i)) ∧
      IYields cfg (a.bitorPrim cfg o t z) w) ∧
    (∃ w, (∀ i, ibit w i = (ibit (a.value cfg) i ^^ ibit z i)) ∧
      IYields cfg (a.bitxorPrim cfg o t z) w) ∧
    (∃ w, (∀ i, ibit w i = (ibit (a.value cfg) i && !ibit z i)) ∧
      IYields cfg (a.andNotPrim cfg o t z) w) := by
  obtain ⟨r, r1, r2, r3⟩ := IBig.fromPrim_spec hv ht hz
  have via : ∀ {α : Type} (op : IBig → IBig → R α), IBig.viaPrim cfg op a t z = op a r := by
    intro α op; unfold IBig.viaPrim; rw [r1]; rfl
  have dS := IBig.div_spec hv o .val ha r2
  have mS := IBig.rem_spec hv o .val ha r2
  have pS := IBig.divRem_spec hv o .val ha r2
  have deS := IBig.divEuclid_spec hv o .val ha r2
  have meS := IBig.remEuclid_spec hv o .val ha r2
  have peS := IBig.divRemEuclid_spec hv o .val ha r2
  rw [r3] at dS mS pS deS meS peS
  have andS := IBig.bitand_spec hv o .val ha r2
  have hzu : ∀ b, t = .u b → (z.toNat : Int) = z := by
    rintro b rfl; have := hz.1; omega
  refine ⟨?_, ?_, ?_, ?_, fun h0 => ⟨?_, ?_, ?_, ?_, ?_, ?_, ?_, ?_⟩,
    fun h0 => ⟨?_, ?_, ?_, ?_, ?_, ?_, ?_, ?_⟩, ?_, ?_, ?_, ?_, ?_⟩
  · unfold IBig.addPrim; rw [via, ← r3]; exact IBig.add_spec hv o .val ha r2
  · unfold IBig.subPrim; rw [via, ← r3]; exact IBig.sub_spec hv o .val ha r2
  · unfold IBig.subFromPrim; rw [via, ← r3]; exact IBig.sub_spec hv .val o r2 ha
  · unfold IBig.mulPrim; rw [via, ← r3]; exact IBig.mul_spec hv o .val ha r2
  · unfold IBig.divPrim; rw [via]; exact dS.1 h0
  · unfold IBig.remPrimBig; rw [via]; exact mS.1 h0
  · rintro b rfl
    obtain ⟨m, g1, g2, g3⟩ := mS.1 h0
    unfold IBig.remSigned
    rw [via, g1, ← g3]
    exact IBig.tryToSigned_unwrap hv ht g2 (by rw [g3]; exact tmod_inRange hz h0)
  · intro b hb
    obtain ⟨⟨q, m⟩, g1, g2, g3, g4, g5⟩ := pS.1 h0
    refine ⟨q, m, ?_, g2, g3, g4, g5⟩
    unfold IBig.divRemUnsigned
    rw [hzu b hb, ← hb, via, g1]
  · rintro b rfl
    obtain ⟨⟨q, m⟩, g1, g2, g3, g4, g5⟩ := pS.1 h0
    simp only at g2 g3 g4 g5
    refine ⟨q, ?_, g2, g4⟩
    unfold IBig.divRemSigned
    rw [via, g1]
    show (do let t ← m.tryToSigned cfg b; let t ← unwrapR t; Except.ok (q, t)) = _
    have := (IBig.tryToPrim_spec hv (t := .i b) ht g3).1 (by rw [g5]; exact tmod_inRange hz h0)
    rw [show m.tryToSigned cfg b = .ok (some (m.value cfg)) from this, g5]; rfl
  · unfold IBig.divEuclidPrim; rw [via]; exact deS.1 h0
  · obtain ⟨m, g1, g2, g3⟩ := meS.1 h0
    unfold IBig.remEuclidPrim
    rw [via, g1, ← g3]
    exact IBig.tryToPrim_unwrap hv ht g2 (by rw [g3]; exact emod_inRange hz h0)
  · obtain ⟨⟨q, m⟩, g1, g2, g3, g4, g5⟩ := peS.1 h0
    simp only at g2 g3 g4 g5
    refine ⟨q, ?_, g2, g4⟩
    unfold IBig.divRemEuclidPrim
    rw [via, g1]
    show (do let r ← m.tryToPrim cfg t; let r ← unwrapR r; Except.ok (q, r)) = _
    rw [(IBig.tryToPrim_spec hv ht g3).1 (by rw [g5]; exact emod_inRange hz h0), g5]; rfl
  · unfold IBig.divPrim; rw [via]; exact dS.2 h0
  · unfold IBig.remPrimBig; rw [via]; exact mS.2 h0
  · rintro b rfl; unfold IBig.remSigned; rw [via, mS.2 h0]; rfl
  · intro b hb; unfold IBig.divRemUnsigned; rw [hzu b hb, ← hb, via, pS.2 h0]
  · rintro b rfl; unfold IBig.divRemSigned; rw [via, pS.2 h0]; rfl
  · unfold IBig.divEuclidPrim; rw [via]; exact deS.2 h0
  · unfold IBig.remEuclidPrim; rw [via, meS.2 h0]; rfl
  · unfold IBig.divRemEuclidPrim; rw [via, peS.2 h0]; rfl
  · intro b hb
    obtain ⟨w, g1, g2⟩ := andS
    rw [r3] at g1
    simp only at g1
    have hz' : z.toNat < 2 ^ b := by
      rw [hb] at hz
      have h5 : z < 2 ^ b := hz.2
      have h6 : (0 : Int) < 2 ^ b := by positivity
      have : ((2 ^ b : Nat) : Int) = 2 ^ b := by push_cast; rfl
      omega
    have hw := ibit_bound (z := w) (n := b) fun i hi => by
      rw [g1 i, ← hzu b hb, ibit_natCast z.toNat, testBit_ge_false hz' hi, Bool.and_false]
    have c1 : ((2 ^ b : Nat) : Int) = 2 ^ b := by push_cast; rfl
    have hbv : PBits b := by rw [hb] at ht; exact ht
    obtain ⟨m, m1, m2, m3⟩ := g2.1 (fits_two_pow hv hbv (by omega))
    refine ⟨w.toNat, ?_, fun i => ?_⟩
    · unfold IBig.bitandUnsigned
      rw [hzu b hb, ← hb, via, m1]
      have := (IBig.tryToPrim_spec hv (t := .u b) (by rw [← hb]; exact ht) m2).1
        (by rw [m3]; exact ⟨hw.1, hw.2⟩)
      unfold IBig.tryToPrim natResult at this
      simp only at this
      show (do let t ← m.tryToUnsigned cfg b; unwrapR t) = _
      rcases hm : m.tryToUnsigned cfg b with e | _ | u
      · rw [hm] at this; cases this
      · rw [hm] at this; cases this
      · rw [hm] at this
        have h6 : Int.ofNat u = m.value cfg := by
          simpa [bind, Except.bind] using this
        show Except.ok u = _
        congr 1
        rw [← m3, ← h6]; rfl
    · rw [← g1 i, ← ibit_natCast]; congr 1; omega
  · obtain ⟨w, g1, g2⟩ := andS
    unfold IBig.bitandPrimBig; rw [via]; exact ⟨w, by rw [r3] at g1; exact g1, g2⟩
  · obtain ⟨w, g1, g2⟩ := IBig.bitor_spec hv o .val ha r2
    unfold IBig.bitorPrim; rw [via]; exact ⟨w, by rw [r3] at g1; exact g1, g2⟩
  · obtain ⟨w, g1, g2⟩ := IBig.bitxor_spec hv o .val ha r2
    unfold IBig.bitxorPrim; rw [via]; exact ⟨w, by rw [r3] at g1; exact g1, g2⟩
  · obtain ⟨w, g1, g2⟩ := IBig.andNot_spec hv o .val ha r2
    unfold IBig.andNotPrim; rw [via]; exact ⟨w, by rw [r3] at g1; exact g1, g2⟩

/-- A negative integer and a negative `i128` that needs two words. -/
example := C36_ibig_primitive cfg64_valid .val exNegA_wf (t := .i 128) (by simp [PTy.Valid]) (z := -2 ^ 100)
  (by norm_num [PTy.InRange])

example : exNegB.remEuclidPrim cfg64 .ref (.u 8) 7 = .ok 0 ∧ exNegB.remSigned cfg64 .val 8 (-128) = .ok (-5) ∧
    exNegB.bitandUnsigned cfg64 .ref 8 255 = .ok 251 ∧
    exNegB.subFromPrim cfg64 .ref (.i 8) (-5) = .ok ⟨.pos, .large ⟨[0, 1], 4⟩⟩ := by decide +kernel

end Ibig
