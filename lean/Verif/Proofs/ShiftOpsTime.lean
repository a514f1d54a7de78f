import Verif.Proofs.AddOpsTime
import Verif.Proofs.FmtTime
import Verif.Model.ShiftOpsTime
import Verif.Model.BitsTime
import Verif.Model.GcdTime
/-!
Counting the steps of shifts, bitwise operators and greatest common divisors does not change the results.
-/
namespace Ibig.Timed

/-! Shifts -/

theorem UBig.shlWordSlow_result (cfg : Cfg) (w r : Nat) :
    (UBig.shlWordSlow cfg w r).result = Ibig.UBig.shlWordSlow cfg w r := by
  unfold UBig.shlWordSlow Ibig.UBig.shlWordSlow
  refine result_bind (result_pass _ _) (fun _ => ?_)
  refine result_bind (result_pass _ _) (fun _ => ?_)
  refine result_bind (result_pass _ _) (fun _ => ?_)
  refine result_bind (result_pass _ _) (fun _ => ?_)
  exact result_bind (result_pass _ _) (fun _ => result_pass _ _)

theorem UBig.shlWord_result (cfg : Cfg) (w r : Nat) :
    (UBig.shlWord cfg w r).result = Ibig.UBig.shlWord cfg w r := by
  unfold UBig.shlWord Ibig.UBig.shlWord
  refine result_bind (result_pass _ _) (fun _ => ?_)
  exact result_ite (fun _ => result_pass _ _) (fun _ => UBig.shlWordSlow_result _ _ _)

theorem UBig.shlRefLarge_result (cfg : Cfg) (l : List Nat) (r : Nat) :
    (UBig.shlRefLarge cfg l r).result = Ibig.UBig.shlRefLarge cfg l r := by
  unfold UBig.shlRefLarge Ibig.UBig.shlRefLarge
  refine result_bind (result_pass _ _) (fun _ => ?_)
  refine result_bind (result_pass _ _) (fun _ => ?_)
  refine result_bind (result_pass _ _) (fun _ => ?_)
  refine result_bind (result_pass _ _) (fun _ => ?_)
  refine result_bind (result_pass _ _) (fun _ => ?_)
  refine result_bind (result_onSlice _ _ _ fun _ => shlInPlace_result _ _ _) ?_
  rintro ⟨ws, o⟩
  exact result_bind (result_pass _ _) (fun _ => result_pass _ _)

theorem UBig.shlLarge_result (cfg : Cfg) (b : Buffer) (r : Nat) :
    (UBig.shlLarge cfg b r).result = Ibig.UBig.shlLarge cfg b r := by
  unfold UBig.shlLarge Ibig.UBig.shlLarge
  refine result_bind (result_pass _ _) (fun _ => ?_)
  refine result_bind (result_pass _ _) (fun _ => ?_)
  refine result_ite (fun _ => UBig.shlRefLarge_result _ _ _) (fun _ => ?_)
  refine result_bind (shlInPlace_result _ _ _) ?_
  rintro ⟨ws, o⟩
  refine result_bind (result_pass _ _) (fun _ => ?_)
  exact result_bind (result_pass _ _) (fun _ => result_pass _ _)

theorem UBig.shl_result (cfg : Cfg) (o : Own) (x : UBig) (r : Nat) :
    (UBig.shl cfg o x r).result = Ibig.UBig.shl cfg o x r := by
  cases x
  · exact result_ite (fun _ => rfl) (fun _ => UBig.shlWord_result _ _ _)
  · cases o
    · exact UBig.shlLarge_result _ _ _
    · exact UBig.shlRefLarge_result _ _ _

theorem UBig.shrLarge_result (cfg : Cfg) (b : Buffer) (r : Nat) :
    (UBig.shrLarge cfg b r).result = Ibig.UBig.shrLarge cfg b r := by
  unfold UBig.shrLarge Ibig.UBig.shrLarge
  refine result_ite (fun _ => rfl) (fun _ => ?_)
  refine result_bind (result_pass _ _) (fun _ => ?_)
  refine result_bind (shrInPlace_result _ _ _) ?_
  rintro ⟨ws, o⟩
  exact result_pass _ _

theorem UBig.shrLargeRef_result (cfg : Cfg) (l : List Nat) (r : Nat) :
    (UBig.shrLargeRef cfg l r).result = Ibig.UBig.shrLargeRef cfg l r := by
  unfold UBig.shrLargeRef Ibig.UBig.shrLargeRef
  refine result_bind (result_pass _ _) (fun s => ?_)
  rcases s with _ | ⟨a, _ | ⟨b, _ | ⟨c, s⟩⟩⟩
  · rfl
  · rfl
  · exact result_pass _ _
  · refine result_bind (result_pass _ _) (fun _ => ?_)
    refine result_bind (result_pass _ _) (fun _ => ?_)
    refine result_bind (shrInPlace_result _ _ _) ?_
    rintro ⟨ws, o⟩
    exact result_pass _ _

theorem UBig.shr_result (cfg : Cfg) (o : Own) (x : UBig) (r : Nat) :
    (UBig.shr cfg o x r).result = Ibig.UBig.shr cfg o x r := by
  cases x
  · rfl
  · cases o
    · exact UBig.shrLarge_result _ _ _
    · exact UBig.shrLargeRef_result _ _ _

theorem IBig.shl_result (cfg : Cfg) (o : Own) (x : IBig) (r : Nat) :
    (IBig.shl cfg o x r).result = Ibig.IBig.shl cfg o x r :=
  result_bind (UBig.shl_result _ _ _ _) (fun _ => rfl)

theorem IBig.shr_result (cfg : Cfg) (o : Own) (x : IBig) (r : Nat) :
    (IBig.shr cfg o x r).result = Ibig.IBig.shr cfg o x r := by
  rcases x with ⟨s, m⟩
  cases s
  · exact ofUBigR_result (UBig.shr_result _ _ _ _)
  · refine result_bind (result_pass _ _) (fun _ => ?_)
    exact result_bind (UBig.shr_result _ _ _ _) (fun _ => IBig.sub_result _ _ _ _ _)

theorem trailingZerosLoop_result (W U : Nat) (l : List Nat) :
    ∀ i, (trailingZerosLoop W U l i).result = Ibig.trailingZerosLoop W U l i := by
  induction l with
  | nil => intro i; rfl
  | cons w ws ih =>
    intro i
    unfold trailingZerosLoop Ibig.trailingZerosLoop
    refine (result_pass_ok _ _ _).trans ?_
    exact result_ite (fun _ => result_bind (result_pass _ _) (fun _ => result_pass _ _)) (fun _ => ih _)

theorem UBig.trailingZeros_result (cfg : Cfg) (x : UBig) :
    (UBig.trailingZeros cfg x).result = Ibig.UBig.trailingZeros cfg x := by
  cases x
  · exact result_ite (fun _ => rfl) (fun _ => rfl)
  · refine result_bind ?_ (fun _ => rfl)
    refine result_bind (result_pass _ _) (fun _ => ?_)
    exact result_bind (result_pass _ _) (fun _ => trailingZerosLoop_result _ _ _ _)

/-! Bitwise operators -/

theorem zipInPlace_result (f : Nat → Nat → Nat) (l : List Nat) :
    ∀ r, (zipInPlace f l r).result = .ok (Ibig.zipInPlace f l r) := by
  induction l with
  | nil => intro r; cases r <;> rfl
  | cons x xs ih =>
    intro r
    cases r with
    | nil => rfl
    | cons y ys =>
      unfold zipInPlace Ibig.zipInPlace
      refine (result_pass_ok _ _ _).trans ?_
      exact result_bind (g := fun r => .ok (f x y :: r)) (ih ys) (fun _ => rfl)

theorem UBig.bitandLarge_result (cfg : Cfg) (b : Buffer) (l : List Nat) :
    (UBig.bitandLarge cfg b l).result = Ibig.UBig.bitandLarge cfg b l := by
  unfold UBig.bitandLarge Ibig.UBig.bitandLarge
  refine result_bind (result_ite (fun _ => result_pass _ _) (fun _ => rfl)) (fun b => ?_)
  exact result_bind (zipInPlace_result _ _ _) (fun _ => result_pass _ _)

theorem UBig.bitandWordLarge_result (w : Nat) (b : Buffer) :
    (UBig.bitandWordLarge w b).result = Ibig.UBig.bitandWordLarge w b :=
  result_bind (result_pass _ _) (fun _ => rfl)

theorem UBig.bitandVR_result (cfg : Cfg) (a b : UBig) :
    (UBig.bitandVR cfg a b).result = Ibig.UBig.bitandVR cfg a b := by
  cases a <;> cases b
  · rfl
  · exact UBig.bitandWordLarge_result _ _
  · exact UBig.bitandWordLarge_result _ _
  · exact UBig.bitandLarge_result _ _ _

theorem UBig.bitand_result (cfg : Cfg) (o o' : Own) (a b : UBig) :
    (UBig.bitand cfg o o' a b).result = Ibig.UBig.bitand cfg o o' a b := by
  cases o <;> cases o'
  · cases a <;> cases b
    · rfl
    · exact UBig.bitandWordLarge_result _ _
    · exact UBig.bitandWordLarge_result _ _
    · exact result_ite (fun _ => UBig.bitandLarge_result _ _ _) (fun _ => UBig.bitandLarge_result _ _ _)
  · exact UBig.bitandVR_result _ _ _
  · exact UBig.bitandVR_result _ _ _
  · cases a <;> cases b
    · rfl
    · exact UBig.bitandWordLarge_result _ _
    · exact UBig.bitandWordLarge_result _ _
    · exact result_ite (fun _ => result_bind (result_pass _ _) fun _ => UBig.bitandLarge_result _ _ _)
        (fun _ => result_bind (result_pass _ _) fun _ => UBig.bitandLarge_result _ _ _)

theorem UBig.bitopLargeWord_result (f : Nat → Nat → Nat) (cfg : Cfg) (b : Buffer) (x : Nat) :
    (UBig.bitopLargeWord f cfg b x).result = Ibig.UBig.bitopLargeWord f cfg b x := by
  unfold UBig.bitopLargeWord Ibig.UBig.bitopLargeWord
  refine result_bind (result_pass _ _) (fun _ => ?_)
  exact result_bind (result_pass _ _) (fun _ => result_pass _ _)

theorem UBig.bitopLarge_result (f : Nat → Nat → Nat) (cfg : Cfg) (b : Buffer) (l : List Nat) :
    (UBig.bitopLarge f cfg b l).result = Ibig.UBig.bitopLarge f cfg b l := by
  unfold UBig.bitopLarge Ibig.UBig.bitopLarge
  refine (result_bind (g := fun ws => (do
    let buffer := { b with words := ws }
    if buffer.len < l.length then
      let buffer ← Ibig.Buffer.ensureCapacity cfg buffer l.length
      let hi ← Ibig.sliceR l buffer.len l.length
      let buffer ← buffer.extend hi
      Ibig.UBig.ofBuffer cfg buffer
    else Ibig.UBig.ofBuffer cfg buffer)) (zipInPlace_result _ _ _) (fun ws => ?_)).trans rfl
  refine result_ite (fun _ => ?_) (fun _ => result_pass _ _)
  refine result_bind (result_pass _ _) (fun _ => ?_)
  refine result_bind (result_pass _ _) (fun _ => ?_)
  exact result_bind (result_pass _ _) (fun _ => result_pass _ _)

theorem UBig.bitop_result (f : Nat → Nat → Nat) (cfg : Cfg) (o o' : Own) (a b : UBig) :
    (UBig.bitop f cfg o o' a b).result = Ibig.UBig.bitop f cfg o o' a b := by
  have hVR : ∀ a b : UBig, (UBig.bitopVR f cfg a b).result = Ibig.UBig.bitopVR f cfg a b := by
    intro a b
    cases a <;> cases b
    · rfl
    · exact result_bind (result_pass _ _) fun _ => UBig.bitopLargeWord_result _ _ _ _
    · exact UBig.bitopLargeWord_result _ _ _ _
    · exact UBig.bitopLarge_result _ _ _ _
  cases o <;> cases o'
  · cases a <;> cases b
    · rfl
    · exact UBig.bitopLargeWord_result _ _ _ _
    · exact UBig.bitopLargeWord_result _ _ _ _
    · exact result_ite (fun _ => UBig.bitopLarge_result _ _ _ _) (fun _ => UBig.bitopLarge_result _ _ _ _)
  · exact hVR _ _
  · exact hVR _ _
  · cases a <;> cases b
    · rfl
    · exact result_bind (result_pass _ _) fun _ => UBig.bitopLargeWord_result _ _ _ _
    · exact result_bind (result_pass _ _) fun _ => UBig.bitopLargeWord_result _ _ _ _
    · exact result_ite (fun _ => result_bind (result_pass _ _) fun _ => UBig.bitopLarge_result _ _ _ _)
        (fun _ => result_bind (result_pass _ _) fun _ => UBig.bitopLarge_result _ _ _ _)

theorem UBig.andNot_result (cfg : Cfg) (o o' : Own) (a b : UBig) :
    (UBig.andNot cfg o o' a b).result = Ibig.UBig.andNot cfg o o' a b := by
  have hL : ∀ (b : Buffer) (l : List Nat), (UBig.andNotLarge cfg b l).result = Ibig.UBig.andNotLarge cfg b l :=
    fun b l => (result_bind (g := fun ws => Ibig.UBig.ofBuffer cfg { b with words := ws })
      (zipInPlace_result _ _ _) (fun _ => result_pass _ _)).trans rfl
  cases o <;> cases a <;> cases b
  · rfl
  · exact result_bind (result_pass _ _) fun _ => rfl
  · exact UBig.bitopLargeWord_result _ _ _ _
  · exact hL _ _
  · rfl
  · exact result_bind (result_pass _ _) fun _ => rfl
  · exact result_bind (result_pass _ _) fun _ => UBig.bitopLargeWord_result _ _ _ _
  · exact result_bind (result_pass _ _) fun _ => hL _ _

theorem IBig.not_result (cfg : Cfg) (o : Own) (x : IBig) : (IBig.not cfg o x).result = Ibig.IBig.not cfg o x :=
  negR_result (IBig.add_result _ _ _ _ _)

theorem IBig.notAbs_result (cfg : Cfg) (o : Own) (x : IBig) :
    (IBig.notAbs cfg o x).result = Ibig.IBig.notAbs cfg o x :=
  result_bind (IBig.not_result _ _ _) (fun _ => result_pass _ _)

theorem notOfUBig_result (cfg : Cfg) {m : Timed UBig} {m' : R UBig} (h : m.result = m') :
    (notOfUBig cfg m).result = Ibig.notOfUBig cfg m' :=
  result_bind h (fun _ => IBig.not_result _ _ _)

theorem IBig.bitandGen_result (cfg : Cfg) (o o' : Own) (x y : IBig) :
    (IBig.bitandGen cfg o o' x y).result = Ibig.IBig.bitandGen cfg o o' x y := by
  rcases x with ⟨s, a⟩
  rcases y with ⟨t, b⟩
  cases s <;> cases t
  · exact ofUBigR_result (UBig.bitand_result _ _ _ _ _)
  · exact result_bind (IBig.notAbs_result _ _ _) fun _ => ofUBigR_result (UBig.andNot_result _ _ _ _ _)
  · exact result_bind (IBig.notAbs_result _ _ _) fun _ => ofUBigR_result (UBig.andNot_result _ _ _ _ _)
  · exact result_bind (IBig.notAbs_result _ _ _) fun _ => result_bind (IBig.notAbs_result _ _ _) fun _ =>
      notOfUBig_result _ (UBig.bitop_result _ _ _ _ _ _)

theorem IBig.bitorGen_result (cfg : Cfg) (o o' : Own) (x y : IBig) :
    (IBig.bitorGen cfg o o' x y).result = Ibig.IBig.bitorGen cfg o o' x y := by
  rcases x with ⟨s, a⟩
  rcases y with ⟨t, b⟩
  cases s <;> cases t
  · exact ofUBigR_result (UBig.bitop_result _ _ _ _ _ _)
  · exact result_bind (IBig.notAbs_result _ _ _) fun _ => notOfUBig_result _ (UBig.andNot_result _ _ _ _ _)
  · exact result_bind (IBig.notAbs_result _ _ _) fun _ => notOfUBig_result _ (UBig.andNot_result _ _ _ _ _)
  · exact result_bind (IBig.notAbs_result _ _ _) fun _ => result_bind (IBig.notAbs_result _ _ _) fun _ =>
      notOfUBig_result _ (UBig.bitand_result _ _ _ _ _)

theorem IBig.bitxorGen_result (cfg : Cfg) (o o' : Own) (x y : IBig) :
    (IBig.bitxorGen cfg o o' x y).result = Ibig.IBig.bitxorGen cfg o o' x y := by
  rcases x with ⟨s, a⟩
  rcases y with ⟨t, b⟩
  cases s <;> cases t
  · exact ofUBigR_result (UBig.bitop_result _ _ _ _ _ _)
  · exact result_bind (IBig.notAbs_result _ _ _) fun _ => notOfUBig_result _ (UBig.bitop_result _ _ _ _ _ _)
  · exact result_bind (IBig.notAbs_result _ _ _) fun _ => notOfUBig_result _ (UBig.bitop_result _ _ _ _ _ _)
  · exact result_bind (IBig.notAbs_result _ _ _) fun _ => result_bind (IBig.notAbs_result _ _ _) fun _ =>
      ofUBigR_result (UBig.bitop_result _ _ _ _ _ _)

theorem IBig.bitand_result (cfg : Cfg) (o o' : Own) (x y : IBig) :
    (IBig.bitand cfg o o' x y).result = Ibig.IBig.bitand cfg o o' x y := by
  cases o <;> cases o' <;> exact IBig.bitandGen_result _ _ _ _ _

theorem IBig.bitor_result (cfg : Cfg) (o o' : Own) (x y : IBig) :
    (IBig.bitor cfg o o' x y).result = Ibig.IBig.bitor cfg o o' x y := by
  cases o <;> cases o' <;> exact IBig.bitorGen_result _ _ _ _ _

theorem IBig.bitxor_result (cfg : Cfg) (o o' : Own) (x y : IBig) :
    (IBig.bitxor cfg o o' x y).result = Ibig.IBig.bitxor cfg o o' x y := by
  cases o <;> cases o' <;> exact IBig.bitxorGen_result _ _ _ _ _

theorem IBig.andNot_result (cfg : Cfg) (o o' : Own) (x y : IBig) :
    (IBig.andNot cfg o o' x y).result = Ibig.IBig.andNot cfg o o' x y := by
  rcases x with ⟨s, a⟩
  rcases y with ⟨t, b⟩
  cases s <;> cases t
  · exact ofUBigR_result (UBig.andNot_result _ _ _ _ _)
  · exact result_bind (IBig.notAbs_result _ _ _) fun _ => ofUBigR_result (UBig.bitand_result _ _ _ _ _)
  · exact result_bind (IBig.notAbs_result _ _ _) fun _ => notOfUBig_result _ (UBig.bitop_result _ _ _ _ _ _)
  · exact result_bind (IBig.notAbs_result _ _ _) fun _ => result_bind (IBig.notAbs_result _ _ _) fun _ =>
      ofUBigR_result (UBig.andNot_result _ _ _ _ _)

/-! Greatest common divisors -/

theorem UBig.gcdLoop_result (cfg : Cfg) (fuel : Nat) : ∀ a b,
    (UBig.gcdLoop cfg fuel a b).result = Ibig.UBig.gcdLoop cfg fuel a b := by
  induction fuel with
  | zero => intro a b; rfl
  | succ n ih =>
    intro a b
    unfold UBig.gcdLoop Ibig.UBig.gcdLoop
    refine (result_pass_ok _ _ _).trans ?_
    refine result_bind (UBig.trailingZeros_result _ _) (fun z => ?_)
    cases z
    · rfl
    · refine result_bind (UBig.shr_result _ _ _ _) (fun _ => ?_)
      refine result_bind (UBig.lt_result _ _) (fun _ => ?_)
      exact result_bind (UBig.sub_result _ _ _ _ _) (fun _ => ih _ _)

theorem UBig.gcd_result (cfg : Cfg) (x y : UBig) : (UBig.gcd cfg x y).result = Ibig.UBig.gcd cfg x y := by
  unfold UBig.gcd Ibig.UBig.gcd
  refine result_bind (result_pass _ _) (fun _ => ?_)
  refine result_bind (result_pass _ _) (fun _ => ?_)
  refine result_bind (UBig.trailingZeros_result _ _) (fun az => ?_)
  refine result_bind (UBig.trailingZeros_result _ _) (fun bz => ?_)
  cases az <;> cases bz
  · rfl
  · rfl
  · rfl
  · unfold UBig.gcdNonzero Ibig.UBig.gcdNonzero
    refine result_bind (UBig.shr_result _ _ _ _) (fun _ => ?_)
    refine result_bind (UBig.shr_result _ _ _ _) (fun _ => ?_)
    refine result_bind (UBig.lt_result _ _) (fun _ => ?_)
    refine result_bind (UBig.rem_result _ _ _ _ _) (fun _ => ?_)
    exact result_bind (UBig.gcdLoop_result _ _ _ _) (fun _ => UBig.shl_result _ _ _ _)

theorem UBig.isEven_result (cfg : Cfg) (a : UBig) : (UBig.isEven cfg a).result = Ibig.UBig.isEven cfg a := by
  refine result_bind ?_ (fun _ => rfl)
  refine result_bind (result_pass _ _) (fun _ => ?_)
  refine result_bind (UBig.bitand_result _ _ _ _ _) (fun _ => ?_)
  exact result_bind (result_pass _ _) (fun _ => result_pass _ _)

theorem GcdTriple.addUV_result (cfg : Cfg) (u v : UBig) (p : GcdTriple) :
    (GcdTriple.addUV cfg u v p).result = Ibig.GcdTriple.addUV cfg u v p := by
  refine result_bind (UBig.add_result _ _ _ _ _) (fun _ => ?_)
  exact result_bind (UBig.add_result _ _ _ _ _) (fun _ => rfl)

theorem GcdTriple.makeEven_result (cfg : Cfg) (u v : UBig) (p : GcdTriple) :
    (GcdTriple.makeEven cfg u v p).result = Ibig.GcdTriple.makeEven cfg u v p := by
  refine result_bind (UBig.isEven_result _ _) (fun _ => ?_)
  refine result_bind (UBig.isEven_result _ _) (fun _ => ?_)
  exact result_ite (fun _ => GcdTriple.addUV_result _ _ _ _) (fun _ => rfl)

theorem GcdTriple.halve_result (cfg : Cfg) (u v : UBig) (fuel : Nat) : ∀ p,
    (GcdTriple.halve cfg u v fuel p).result = Ibig.GcdTriple.halve cfg u v fuel p := by
  induction fuel with
  | zero => intro p; rfl
  | succ n ih =>
    intro p
    unfold GcdTriple.halve Ibig.GcdTriple.halve
    refine (result_pass_ok _ _ _).trans ?_
    refine result_bind (UBig.isEven_result _ _) (fun _ => ?_)
    refine result_ite (fun _ => ?_) (fun _ => rfl)
    refine result_bind (GcdTriple.makeEven_result _ _ _ _) (fun _ => ?_)
    refine result_bind (UBig.shr_result _ _ _ _) (fun _ => ?_)
    refine result_bind (UBig.shr_result _ _ _ _) (fun _ => ?_)
    exact result_bind (UBig.shr_result _ _ _ _) (fun _ => ih _)

theorem GcdTriple.makeGe_result (cfg : Cfg) (u v : UBig) (p q : GcdTriple) :
    (GcdTriple.makeGe cfg u v p q).result = Ibig.GcdTriple.makeGe cfg u v p q := by
  refine result_bind (UBig.lt_result _ _) (fun _ => ?_)
  exact result_ite (fun _ => GcdTriple.addUV_result _ _ _ _) (fun _ => rfl)

theorem extGcdLoop_result (cfg : Cfg) (u v : UBig) (fuel : Nat) : ∀ p q,
    (extGcdLoop cfg u v fuel p q).result = Ibig.extGcdLoop cfg u v fuel p q := by
  induction fuel with
  | zero => intro p q; rfl
  | succ n ih =>
    intro p q
    unfold extGcdLoop Ibig.extGcdLoop
    refine (result_pass_ok _ _ _).trans ?_
    refine result_ite (fun _ => rfl) (fun _ => ?_)
    refine result_bind (GcdTriple.halve_result _ _ _ _ _) (fun _ => ?_)
    refine result_bind (UBig.lt_result _ _) (fun _ => ?_)
    refine result_bind (UBig.sub_result _ _ _ _ _) (fun _ => ?_)
    refine result_bind (GcdTriple.makeGe_result _ _ _ _ _) (fun _ => ?_)
    refine result_bind (UBig.sub_result _ _ _ _ _) (fun _ => ?_)
    exact result_bind (UBig.sub_result _ _ _ _ _) (fun _ => ih _ _)

theorem extGcdStart_result (cfg : Cfg) (u v : UBig) :
    (extGcdStart cfg u v).result = Ibig.extGcdStart cfg u v := by
  refine result_bind (UBig.le_result _ _) (fun _ => ?_)
  refine result_ite (fun _ => ?_) (fun _ => ?_)
  · refine result_bind (UBig.divRem_result _ _ _ _ _) (fun _ => ?_)
    refine result_bind (result_pass _ _) (fun _ => ?_)
    refine result_bind (UBig.sub_result _ _ _ _ _) (fun _ => ?_)
    exact result_bind (UBig.sub_result _ _ _ _ _) (fun _ => rfl)
  · refine result_bind (UBig.divRem_result _ _ _ _ _) (fun _ => ?_)
    refine result_bind (result_pass _ _) (fun _ => ?_)
    refine result_bind (result_pass _ _) (fun _ => ?_)
    exact result_bind (UBig.sub_result _ _ _ _ _) (fun _ => rfl)

theorem UBig.extendedGcd_result (cfg : Cfg) (x y : UBig) :
    (UBig.extendedGcd cfg x y).result = Ibig.UBig.extendedGcd cfg x y := by
  unfold UBig.extendedGcd Ibig.UBig.extendedGcd
  refine result_bind (UBig.trailingZeros_result _ _) (fun az => ?_)
  refine result_bind (UBig.trailingZeros_result _ _) (fun bz => ?_)
  cases az <;> cases bz
  · rfl
  · refine result_bind (result_pass _ _) (fun _ => ?_)
    refine result_bind (result_pass _ _) (fun _ => ?_)
    exact result_bind (result_pass _ _) (fun _ => rfl)
  · refine result_bind (result_pass _ _) (fun _ => ?_)
    refine result_bind (result_pass _ _) (fun _ => ?_)
    exact result_bind (result_pass _ _) (fun _ => rfl)
  · unfold UBig.extendedGcdNonzero Ibig.UBig.extendedGcdNonzero
    refine result_bind (UBig.shr_result _ _ _ _) (fun _ => ?_)
    refine result_bind (UBig.shr_result _ _ _ _) (fun _ => ?_)
    refine result_bind (extGcdStart_result _ _ _) (fun _ => ?_)
    refine result_bind (UBig.isEven_result _ _) (fun _ => ?_)
    refine result_bind (extGcdLoop_result _ _ _ _ _ _) (fun _ => ?_)
    exact result_bind (UBig.shl_result _ _ _ _) (fun _ => rfl)

theorem IBig.gcd_result (cfg : Cfg) (x y : IBig) : (IBig.gcd cfg x y).result = Ibig.IBig.gcd cfg x y :=
  result_bind (UBig.gcd_result _ _ _) (fun _ => rfl)

theorem IBig.extendedGcd_result (cfg : Cfg) (x y : IBig) :
    (IBig.extendedGcd cfg x y).result = Ibig.IBig.extendedGcd cfg x y :=
  result_bind (UBig.extendedGcd_result _ _ _) (fun _ => rfl)

end Ibig.Timed
