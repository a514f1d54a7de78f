import Verif.Proofs.ShiftOpsTime
import Verif.Proofs.EuclidTime
import Verif.Model.ModularTime
/-!
Counting the steps of modular arithmetic does not change the results.
-/
namespace Ibig.Timed

/-- the next operation is a computation of the model -/
local macro "rp" : tactic => `(tactic| refine result_bind (result_pass _ _) (fun _ => ?_))

theorem RingLarge.new_result (W : Nat) (n : List Nat) :
    (RingLarge.new W n).result = Ibig.RingLarge.new W n := by
  unfold RingLarge.new Ibig.RingLarge.new
  rw [result_pass_ok]
  exact result_bind (normalizeLarge_result _ _) (fun _ => rfl)

theorem Ring.new_result (cfg : Cfg) (addr : Nat) (n : UBig) :
    (Ring.new cfg addr n).result = Ibig.Ring.new cfg addr n := by
  unfold Ring.new Ibig.Ring.new
  rcases n with (_ | w) | b
  · rfl
  · exact result_bind (result_pass _ _) (fun _ => rfl)
  · exact result_bind (RingLarge.new_result _ _) (fun _ => rfl)

theorem RingLarge.isValid_result (W : Nat) (r : RingLarge) (v : List Nat) :
    (RingLarge.isValid W r v).result = Ibig.RingLarge.isValid W r v := by
  unfold RingLarge.isValid Ibig.RingLarge.isValid
  refine result_ite (fun _ => ?_) (fun _ => rfl)
  refine result_bind (cmpSameLen_result _ _) (fun _ => ?_)
  refine result_ite (fun _ => ?_) (fun _ => rfl)
  rp
  exact result_bind (result_pass _ _) (fun _ => rfl)

theorem ModLarge.new_result (W addr : Nat) (r : RingLarge) (v : List Nat) :
    (ModLarge.new W addr r v).result = Ibig.ModLarge.new W addr r v := by
  refine result_bind (RingLarge.isValid_result _ _ _) (fun _ => ?_)
  exact result_bind (result_pass _ _) (fun _ => rfl)

theorem unshift_result (cfg : Cfg) (l : List Nat) (s : Nat) : (unshift cfg l s).result = Ibig.unshift cfg l s := by
  unfold unshift Ibig.unshift
  rp
  rp
  refine result_bind (shrInPlace_result _ _ _) (fun _ => ?_)
  rp
  exact result_pass _ _

theorem Ring.modulus_result (cfg : Cfg) (r : Ring) : (Ring.modulus cfg r).result = Ibig.Ring.modulus cfg r := by
  rcases r with ⟨addr, s | l⟩
  · exact result_bind (result_pass _ _) (fun _ => rfl)
  · exact unshift_result _ _ _

theorem Modulo.residue_result (cfg : Cfg) (x : Modulo) :
    (Modulo.residue cfg x).result = Ibig.Modulo.residue cfg x := by
  unfold Modulo.residue Ibig.Modulo.residue
  split
  · exact result_bind (result_pass _ _) (fun _ => rfl)
  · exact unshift_result _ _ _

theorem RingSmall.fromLarge_result (W : Nat) (r : RingSmall) (l : List Nat) :
    (RingSmall.fromLarge W r l).result = Ibig.RingSmall.fromLarge W r l := by
  unfold RingSmall.fromLarge Ibig.RingSmall.fromLarge
  refine result_bind (fastRemByNormalizedWord_result _ _ _) (fun _ => ?_)
  refine result_ite (fun _ => ?_) (fun _ => rfl)
  exact result_bind (result_pass _ _) (fun _ => rfl)

theorem ModSmall.fromUBig_result (cfg : Cfg) (addr : Nat) (r : RingSmall) (x : UBig) :
    (ModSmall.fromUBig cfg addr r x).result = Ibig.ModSmall.fromUBig cfg addr r x := by
  refine result_bind ?_ (fun _ => result_pass _ _)
  cases x
  · exact result_pass _ _
  · exact RingSmall.fromLarge_result _ _ _

theorem RingLarge.reduce_result (cfg : Cfg) (r : RingLarge) (x : UBig) :
    (RingLarge.reduce cfg r x).result = Ibig.RingLarge.reduce cfg r x := by
  unfold RingLarge.reduce Ibig.RingLarge.reduce
  split
  · rfl
  · refine result_ite (fun _ => rfl) (fun _ => ?_)
    rp
    rp
    exact result_bind (divRemInPlace_result _ _ _ _ _) (fun _ => result_pass _ _)

theorem ModLarge.fromUBig_result (cfg : Cfg) (addr : Nat) (r : RingLarge) (x : UBig) :
    (ModLarge.fromUBig cfg addr r x).result = Ibig.ModLarge.fromUBig cfg addr r x := by
  unfold ModLarge.fromUBig Ibig.ModLarge.fromUBig
  refine result_bind (UBig.shl_result _ _ _ _) (fun _ => ?_)
  refine result_bind (RingLarge.reduce_result _ _ _) (fun _ => ?_)
  rp
  rw [result_pass_ok]
  exact ModLarge.new_result _ _ _ _

theorem UBig.own_result (cfg : Cfg) (o : Own) (x : UBig) : (UBig.own cfg o x).result = Ibig.UBig.own cfg o x := by
  cases o
  · rfl
  · exact result_pass _ _

theorem Ring.fromUBig_result (cfg : Cfg) (r : Ring) (o : Own) (x : UBig) :
    (Ring.fromUBig cfg r o x).result = Ibig.Ring.fromUBig cfg r o x := by
  rcases r with ⟨addr, s | l⟩
  · exact result_bind (ModSmall.fromUBig_result _ _ _ _) (fun _ => rfl)
  · refine result_bind (UBig.own_result _ _ _) (fun _ => ?_)
    exact result_bind (ModLarge.fromUBig_result _ _ _ _) (fun _ => rfl)

/-! Addition -/

theorem RingLarge.negate_result (W : Nat) (r : RingLarge) (l : List Nat) :
    (RingLarge.negate W r l).result = Ibig.RingLarge.negate W r l := by
  unfold RingLarge.negate Ibig.RingLarge.negate
  rw [result_pass_ok]
  refine result_ite (fun _ => rfl) (fun _ => ?_)
  refine result_bind (subSameLenSwap_result _ _ _) (fun _ => ?_)
  exact result_bind (result_pass _ _) (fun _ => rfl)

theorem RingLarge.addFix_result (W : Nat) (r : RingLarge) (l : List Nat) (o : Bool) :
    (RingLarge.addFix W r l o).result = Ibig.RingLarge.addFix W r l o := by
  refine result_bind (subSameLen_result _ _ _) (fun _ => ?_)
  exact result_bind (result_pass _ _) (fun _ => rfl)

theorem RingLarge.add_result (W : Nat) (r : RingLarge) (l m : List Nat) :
    (RingLarge.add W r l m).result = Ibig.RingLarge.add W r l m := by
  refine result_bind (addSameLen_result _ _ _) (fun _ => ?_)
  refine result_ite (fun _ => RingLarge.addFix_result _ _ _ _) (fun _ => ?_)
  refine result_bind (cmpSameLen_result _ _) (fun _ => ?_)
  exact result_ite (fun _ => rfl) (fun _ => RingLarge.addFix_result _ _ _ _)

theorem RingLarge.subFix_result (W : Nat) (r : RingLarge) (l : List Nat) (o : Bool) :
    (RingLarge.subFix W r l o).result = Ibig.RingLarge.subFix W r l o := by
  refine result_ite (fun _ => ?_) (fun _ => rfl)
  refine result_bind (addSameLen_result _ _ _) (fun _ => ?_)
  exact result_bind (result_pass _ _) (fun _ => rfl)

theorem RingLarge.sub_result (W : Nat) (r : RingLarge) (l m : List Nat) :
    (RingLarge.sub W r l m).result = Ibig.RingLarge.sub W r l m :=
  result_bind (subSameLen_result _ _ _) (fun _ => RingLarge.subFix_result _ _ _ _)

theorem RingLarge.subSwap_result (W : Nat) (r : RingLarge) (l m : List Nat) :
    (RingLarge.subSwap W r l m).result = Ibig.RingLarge.subSwap W r l m :=
  result_bind (subSameLenSwap_result _ _ _) (fun _ => RingLarge.subFix_result _ _ _ _)

theorem clone_bind_result {β : Type} (x : Modulo) (f : Modulo → Timed β) :
    (Modulo.clone x >>= f).result = (f x).result := by
  cases x
  · exact result_bind_ok rfl f
  · exact result_pass_ok _ _ _

theorem own_bind_result {β : Type} (o : Own) (x : Modulo) (f : Modulo → Timed β) :
    (Modulo.own o x >>= f).result = (f x).result := by
  cases o
  · exact result_bind_ok rfl f
  · exact clone_bind_result x f

theorem Modulo.neg_result (W : Nat) (x : Modulo) : (Modulo.neg W x).result = Ibig.Modulo.neg W x := by
  unfold Modulo.neg
  rw [clone_bind_result]
  cases x
  · rp
    exact result_bind (result_pass _ _) (fun _ => rfl)
  · refine result_bind (RingLarge.negate_result _ _ _) (fun _ => ?_)
    exact result_bind (ModLarge.new_result _ _ _ _) (fun _ => rfl)

theorem Modulo.addAssign_result (W : Nat) (x y : Modulo) :
    (Modulo.addAssign W x y).result = Ibig.Modulo.addAssign W x y := by
  cases x <;> cases y
  · rp
    rp
    exact result_bind (result_pass _ _) (fun _ => rfl)
  · rfl
  · rfl
  · rp
    refine result_bind (RingLarge.add_result _ _ _ _) (fun _ => ?_)
    exact result_bind (ModLarge.new_result _ _ _ _) (fun _ => rfl)

theorem Modulo.add_result (W : Nat) (o1 o2 : Own) (x y : Modulo) :
    (Modulo.add W o1 o2 x y).result = Ibig.Modulo.add W o1 o2 x y := by
  cases o1 <;> cases o2
  · exact (own_bind_result _ _ _).trans (Modulo.addAssign_result _ _ _)
  · exact (own_bind_result _ _ _).trans (Modulo.addAssign_result _ _ _)
  · exact Modulo.addAssign_result _ _ _
  · exact (own_bind_result _ _ _).trans (Modulo.addAssign_result _ _ _)

theorem Modulo.subAssign_result (W : Nat) (x y : Modulo) :
    (Modulo.subAssign W x y).result = Ibig.Modulo.subAssign W x y := by
  cases x <;> cases y
  · rp
    rp
    exact result_bind (result_pass _ _) (fun _ => rfl)
  · rfl
  · rfl
  · rp
    refine result_bind (RingLarge.sub_result _ _ _ _) (fun _ => ?_)
    exact result_bind (ModLarge.new_result _ _ _ _) (fun _ => rfl)

theorem Modulo.subSwap_result (W : Nat) (x y : Modulo) :
    (Modulo.subSwap W x y).result = Ibig.Modulo.subSwap W x y := by
  cases x <;> cases y
  · rp
    rp
    exact result_bind (result_pass _ _) (fun _ => rfl)
  · rfl
  · rfl
  · rp
    refine result_bind (RingLarge.subSwap_result _ _ _ _) (fun _ => ?_)
    exact result_bind (ModLarge.new_result _ _ _ _) (fun _ => rfl)

theorem Modulo.sub_result (W : Nat) (o1 o2 : Own) (x y : Modulo) :
    (Modulo.sub W o1 o2 x y).result = Ibig.Modulo.sub W o1 o2 x y := by
  cases o1 <;> cases o2
  · exact (own_bind_result _ _ _).trans (Modulo.subAssign_result _ _ _)
  · exact (own_bind_result _ _ _).trans (Modulo.subAssign_result _ _ _)
  · exact Modulo.subSwap_result _ _ _
  · exact (own_bind_result _ _ _).trans (Modulo.subAssign_result _ _ _)

theorem Ring.fromIBig_result (cfg : Cfg) (r : Ring) (o : Own) (x : IBig) :
    (Ring.fromIBig cfg r o x).result = Ibig.Ring.fromIBig cfg r o x := by
  refine result_bind (Ring.fromUBig_result _ _ _ _) (fun _ => ?_)
  cases x.sign
  · rfl
  · exact Modulo.neg_result _ _

/-! Multiplication -/

theorem RingLarge.mulNormalized_result (W : Nat) (r : RingLarge) (a b : List Nat) (mem : Nat) :
    (RingLarge.mulNormalized W r a b mem).result = Ibig.RingLarge.mulNormalized W r a b mem := by
  unfold RingLarge.mulNormalized Ibig.RingLarge.mulNormalized
  rp
  rp
  refine result_bind (mulSameLen_erases _ _ _ _ _ _ _) (fun _ => ?_)
  rp
  refine result_bind (shrInPlace_result _ _ _) (fun _ => ?_)
  exact result_bind (divRemInPlace_result _ _ _ _ _) (fun _ => result_pass _ _)

theorem ModLarge.mulBy_result (W : Nat) (x : ModLarge) (v : List Nat) (mem : Nat) :
    (ModLarge.mulBy W x v mem).result = Ibig.ModLarge.mulBy W x v mem := by
  refine result_bind (RingLarge.mulNormalized_result _ _ _ _ _) (fun _ => ?_)
  rw [result_pass_ok]
  exact ModLarge.new_result _ _ _ _

theorem Modulo.mulAssign_result (cfg : Cfg) (x y : Modulo) :
    (Modulo.mulAssign cfg x y).result = Ibig.Modulo.mulAssign cfg x y := by
  cases x <;> cases y
  · rp
    rp
    exact result_bind (result_pass _ _) (fun _ => rfl)
  · rfl
  · rfl
  · rp
    rp
    rp
    exact result_bind (ModLarge.mulBy_result _ _ _ _) (fun _ => rfl)

theorem Modulo.mul_result (cfg : Cfg) (o1 o2 : Own) (x y : Modulo) :
    (Modulo.mul cfg o1 o2 x y).result = Ibig.Modulo.mul cfg o1 o2 x y := by
  cases o1 <;> cases o2
  · exact (own_bind_result _ _ _).trans (Modulo.mulAssign_result _ _ _)
  · exact (own_bind_result _ _ _).trans (Modulo.mulAssign_result _ _ _)
  · exact Modulo.mulAssign_result _ _ _
  · exact (own_bind_result _ _ _).trans (Modulo.mulAssign_result _ _ _)

/-! Inverse -/

theorem ModSmall.inverseOf_result (cfg : Cfg) (addr : Nat) (r : RingSmall) (b : Nat) (x : IBig) :
    (ModSmall.inverseOf cfg addr r b x).result = Ibig.ModSmall.inverseOf cfg addr r b x := by
  unfold ModSmall.inverseOf Ibig.ModSmall.inverseOf
  rp
  refine result_bind (IBig.remEuclid_result _ _ _ _ _) (fun _ => ?_)
  rp
  rp
  rp
  exact result_pass _ _

theorem ModSmall.inverse_result (cfg : Cfg) (x : ModSmall) :
    (ModSmall.inverse cfg x).result = Ibig.ModSmall.inverse cfg x := by
  unfold ModSmall.inverse Ibig.ModSmall.inverse
  rp
  rp
  rp
  rp
  refine result_bind (UBig.extendedGcd_result _ _ _) (fun _ => ?_)
  refine result_ite (fun _ => ?_) (fun _ => rfl)
  exact result_bind (ModSmall.inverseOf_result _ _ _ _ _) (fun _ => rfl)

theorem ModLarge.inverseOf_result (cfg : Cfg) (addr : Nat) (r : RingLarge) (b : UBig) (x : IBig) :
    (ModLarge.inverseOf cfg addr r b x).result = Ibig.ModLarge.inverseOf cfg addr r b x := by
  refine result_bind (IBig.remEuclid_result _ _ _ _ _) (fun _ => ?_)
  rp
  rp
  exact ModLarge.fromUBig_result _ _ _ _

theorem ModLarge.inverse_result (cfg : Cfg) (x : ModLarge) :
    (ModLarge.inverse cfg x).result = Ibig.ModLarge.inverse cfg x := by
  refine result_bind (unshift_result _ _ _) (fun _ => ?_)
  refine result_bind (unshift_result _ _ _) (fun _ => ?_)
  refine result_bind (UBig.extendedGcd_result _ _ _) (fun _ => ?_)
  refine result_ite (fun _ => ?_) (fun _ => rfl)
  exact result_bind (ModLarge.inverseOf_result _ _ _ _ _) (fun _ => rfl)

theorem Modulo.inverse_result (cfg : Cfg) (x : Modulo) :
    (Modulo.inverse cfg x).result = Ibig.Modulo.inverse cfg x := by
  cases x
  · exact result_bind (ModSmall.inverse_result _ _) (fun _ => rfl)
  · exact result_bind (ModLarge.inverse_result _ _) (fun _ => rfl)

theorem Modulo.div_result (cfg : Cfg) (x y : Modulo) : (Modulo.div cfg x y).result = Ibig.Modulo.div cfg x y := by
  refine result_bind (Modulo.inverse_result _ _) (fun i => ?_)
  cases i
  · rfl
  · exact Modulo.mul_result _ _ _ _ _

/-! Exponentiation -/

theorem RingSmall.powHelper_result (W : Nat) (r : RingSmall) (b exp bits : Nat) : ∀ res,
    (RingSmall.powHelper W r b exp bits res).result = Ibig.RingSmall.powHelper W r b exp bits res := by
  induction bits with
  | zero => intro res; rfl
  | succ bits ih =>
    intro res
    unfold RingSmall.powHelper Ibig.RingSmall.powHelper
    refine (result_pass_ok _ _ _).trans ?_
    rp
    rp
    refine result_ite (fun _ => ?_) (fun _ => ih _)
    rp
    exact ih _

theorem RingSmall.powWord_result (W : Nat) (r : RingSmall) (x exp : Nat) :
    (RingSmall.powWord W r x exp).result = Ibig.RingSmall.powWord W r x exp := by
  refine result_ite (fun _ => result_pass _ _) (fun _ => ?_)
  rp
  exact RingSmall.powHelper_result _ _ _ _ _ _

theorem RingSmall.powLoop_result (W : Nat) (r : RingSmall) (x : Nat) (es : List Nat) : ∀ v,
    (RingSmall.powLoop W r x es v).result = Ibig.RingSmall.powLoop W r x es v := by
  induction es with
  | nil => intro v; rfl
  | cons e es ih =>
    intro v
    unfold RingSmall.powLoop Ibig.RingSmall.powLoop
    refine (result_pass_ok _ _ _).trans ?_
    exact result_bind (RingSmall.powHelper_result _ _ _ _ _ _) (fun _ => ih _)

theorem ModSmall.powNontrivial_result (cfg : Cfg) (x : ModSmall) (e : UBig) :
    (ModSmall.powNontrivial cfg x e).result = Ibig.ModSmall.powNontrivial cfg x e := by
  unfold ModSmall.powNontrivial Ibig.ModSmall.powNontrivial
  refine result_bind (UBig.lt_result _ _) (fun _ => ?_)
  rp
  rp
  rp
  refine result_bind (RingSmall.powWord_result _ _ _ _) (fun _ => ?_)
  exact result_bind (RingSmall.powLoop_result _ _ _ _ _) (fun _ => result_pass _ _)

theorem ModSmall.pow_result (cfg : Cfg) (x : ModSmall) (e : UBig) :
    (ModSmall.pow cfg x e).result = Ibig.ModSmall.pow cfg x e := by
  rcases e with (_ | _ | _ | w) | b
  · exact ModSmall.fromUBig_result _ _ _ _
  · rfl
  · rp
    exact result_pass _ _
  · exact ModSmall.powNontrivial_result _ _ _
  · exact ModSmall.powNontrivial_result _ _ _

theorem powWindowLoop_result (cfg : Cfg) (n fuel : Nat) : ∀ w c,
    (powWindowLoop cfg n fuel w c).result = Ibig.powWindowLoop cfg n fuel w c := by
  induction fuel with
  | zero => intro w c; rfl
  | succ fuel ih =>
    intro w c
    refine result_ite (fun _ => ?_) (fun _ => rfl)
    refine (result_pass_ok _ _ _).trans ?_
    rp
    exact result_ite (fun _ => rfl) (fun _ => ih _ _)

theorem choosePowWindowLen_result (cfg : Cfg) (n : Nat) :
    (choosePowWindowLen cfg n).result = Ibig.choosePowWindowLen cfg n :=
  result_bind (result_pass _ _) (fun _ => powWindowLoop_result _ _ _ _ _)

theorem powTableLoop_result (cfg : Cfg) (r : RingLarge) (base sq : List Nat) (mem k : Nat) : ∀ i t,
    (powTableLoop cfg r base sq mem k i t).result = Ibig.powTableLoop cfg r base sq mem k i t := by
  induction k with
  | zero => intro i t; rfl
  | succ k ih =>
    intro i t
    unfold powTableLoop Ibig.powTableLoop
    refine (result_pass_ok _ _ _).trans ?_
    rp
    refine result_bind (RingLarge.mulNormalized_result _ _ _ _ _) (fun _ => ?_)
    refine result_bind (result_onSlice _ _ _ (fun s => ?_)) (fun _ => ih _ _)
    exact result_bind (result_pass _ _) (fun _ => rfl)

theorem ModLarge.squares_result (W mem k : Nat) : ∀ v,
    (ModLarge.squares W mem k v).result = Ibig.ModLarge.squares W mem k v := by
  induction k with
  | zero => intro v; rfl
  | succ k ih =>
    intro v
    unfold ModLarge.squares Ibig.ModLarge.squares
    refine (result_pass_ok _ _ _).trans ?_
    exact result_bind (ModLarge.mulBy_result _ _ _ _) (fun _ => ih _)

theorem powStep_result (cfg : Cfg) (x : ModLarge) (t : List Nat) (w mem : Nat) (ws : List Nat) (bit : Nat)
    (v : ModLarge) : (powStep cfg x t w mem ws bit v).result = Ibig.powStep cfg x t w mem ws bit v := by
  unfold powStep Ibig.powStep
  rp
  rp
  refine result_ite (fun _ => ?_) (fun _ => rfl)
  rp
  rp
  rp
  refine result_bind (ModLarge.squares_result _ _ _ _) (fun _ => ?_)
  rp
  rp
  rp
  exact result_bind (ModLarge.mulBy_result _ _ _ _) (fun _ => rfl)

theorem powLargeLoop_result (cfg : Cfg) (x : ModLarge) (t : List Nat) (w mem : Nat) (ws : List Nat) (fuel : Nat) :
    ∀ bit v, (powLargeLoop cfg x t w mem ws fuel bit v).result = Ibig.powLargeLoop cfg x t w mem ws fuel bit v := by
  induction fuel with
  | zero => intro bit v; rfl
  | succ fuel ih =>
    intro bit v
    unfold powLargeLoop Ibig.powLargeLoop
    refine (result_pass_ok _ _ _).trans ?_
    refine result_bind (powStep_result _ _ _ _ _ _ _ _) (fun _ => ?_)
    refine result_ite (fun _ => rfl) (fun _ => ?_)
    exact result_bind (ModLarge.mulBy_result _ _ _ _) (fun _ => ih _ _)

theorem powMemory_result (cfg : Cfg) (r : RingLarge) (w : Nat) :
    (powMemory cfg r w).result = Ibig.powMemory cfg r w := by
  unfold powMemory Ibig.powMemory
  rp
  rp
  rp
  refine result_ite (fun _ => ?_) (fun _ => rfl)
  rp
  rp
  exact result_bind (result_pass _ _) (fun _ => rfl)

theorem ModLarge.powNontrivial_result (cfg : Cfg) (x : ModLarge) (e : UBig) :
    (ModLarge.powNontrivial cfg x e).result = Ibig.ModLarge.powNontrivial cfg x e := by
  unfold ModLarge.powNontrivial Ibig.ModLarge.powNontrivial
  refine result_bind (UBig.lt_result _ _) (fun _ => ?_)
  rp
  rp
  refine result_bind (choosePowWindowLen_result _ _) (fun _ => ?_)
  refine result_bind (powMemory_result _ _ _) (fun _ => ?_)
  refine (result_pass_ok _ _ _).trans ?_
  refine result_bind (ModLarge.mulBy_result _ _ _ _) (fun _ => ?_)
  refine result_bind (powTableLoop_result _ _ _ _ _ _ _ _) (fun _ => ?_)
  rp
  exact powLargeLoop_result _ _ _ _ _ _ _ _ _

theorem ModLarge.pow_result (cfg : Cfg) (x : ModLarge) (e : UBig) :
    (ModLarge.pow cfg x e).result = Ibig.ModLarge.pow cfg x e := by
  rcases e with (_ | _ | w) | b
  · exact ModLarge.fromUBig_result _ _ _ _
  · rfl
  · exact ModLarge.powNontrivial_result _ _ _
  · exact ModLarge.powNontrivial_result _ _ _

theorem Modulo.pow_result (cfg : Cfg) (x : Modulo) (e : UBig) :
    (Modulo.pow cfg x e).result = Ibig.Modulo.pow cfg x e := by
  cases x
  · exact result_bind (ModSmall.pow_result _ _ _) (fun _ => rfl)
  · exact result_bind (ModLarge.pow_result _ _ _) (fun _ => rfl)

theorem Modulo.powSigned_result (cfg : Cfg) (x : Modulo) (e : IBig) :
    (Modulo.powSigned cfg x e).result = Ibig.Modulo.powSigned cfg x e := by
  unfold Modulo.powSigned Ibig.Modulo.powSigned
  cases e.sign
  · exact Modulo.pow_result _ _ _
  · refine result_bind (Modulo.inverse_result _ _) (fun i => ?_)
    cases i
    · rfl
    · exact Modulo.pow_result _ _ _

end Ibig.Timed
