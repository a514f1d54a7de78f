import Verif.Proofs.GcdCost
import Verif.Model.ConvertTime
import Verif.Proofs.Float
/-!
The number of steps of conversions and of functions for single bits.
-/
namespace Ibig.Timed

/-! The results are the same -/

theorem pushLeChunks_result (cfg : Cfg) (fuel : Nat) : ∀ (bytes : List Nat) (b : Buffer),
    (pushLeChunks cfg fuel bytes b).result = Ibig.pushLeChunks cfg fuel bytes b := by
  induction fuel with
  | zero => intro _ _; rfl
  | succ fuel ih =>
    intro bytes b
    rw [pushLeChunks, Ibig.pushLeChunks]
    refine (bind_of_ok rfl _).trans ?_
    refine result_ite (fun _ => ?_) (fun _ => result_ite (fun _ => rfl) (fun _ => ?_))
    · exact result_bind (result_pass _ _) (fun _ => ih _ _)
    · exact result_bind (result_pass _ _) (fun _ => result_pass _ _)

theorem pushBeChunks_result (cfg : Cfg) (fuel : Nat) : ∀ (bytes : List Nat) (b : Buffer),
    (pushBeChunks cfg fuel bytes b).result = Ibig.pushBeChunks cfg fuel bytes b := by
  induction fuel with
  | zero => intro _ _; rfl
  | succ fuel ih =>
    intro bytes b
    rw [pushBeChunks, Ibig.pushBeChunks]
    refine (bind_of_ok rfl _).trans ?_
    refine result_ite (fun _ => ?_) (fun _ => result_ite (fun _ => rfl) (fun _ => ?_))
    · exact result_bind (result_pass _ _) (fun _ => ih _ _)
    · exact result_bind (result_pass _ _) (fun _ => result_pass _ _)

theorem UBig.fromLeBytes_result (cfg : Cfg) (bytes : List Nat) :
    (UBig.fromLeBytes cfg bytes).result = Ibig.UBig.fromLeBytes cfg bytes := by
  unfold UBig.fromLeBytes Ibig.UBig.fromLeBytes
  refine result_ite (fun _ => result_bind (result_pass _ _) (fun _ => rfl)) (fun _ => ?_)
  unfold UBig.fromLeBytesLarge Ibig.UBig.fromLeBytesLarge
  refine result_bind (result_pass _ _) (fun _ => ?_)
  refine result_bind (result_pass _ _) (fun _ => ?_)
  exact result_bind (pushLeChunks_result _ _ _ _) (fun _ => result_pass _ _)

theorem UBig.fromBeBytes_result (cfg : Cfg) (bytes : List Nat) :
    (UBig.fromBeBytes cfg bytes).result = Ibig.UBig.fromBeBytes cfg bytes := by
  unfold UBig.fromBeBytes Ibig.UBig.fromBeBytes
  refine result_ite (fun _ => result_bind (result_pass _ _) (fun _ => rfl)) (fun _ => ?_)
  unfold UBig.fromBeBytesLarge Ibig.UBig.fromBeBytesLarge
  refine result_bind (result_pass _ _) (fun _ => ?_)
  refine result_bind (result_pass _ _) (fun _ => ?_)
  exact result_bind (pushBeChunks_result _ _ _ _) (fun _ => result_pass _ _)

theorem bytesLoop_result (f : Nat → List Nat) (l : List Nat) : (bytesLoop f l).result = .ok (l.flatMap f) := by
  induction l with
  | nil => rfl
  | cons w ws ih =>
    rw [bytesLoop]
    refine (bind_of_ok rfl _).trans ?_
    exact (result_bind_ok ih _).trans rfl

theorem UBig.toLeBytes_result (cfg : Cfg) (x : UBig) : (UBig.toLeBytes cfg x).result = Ibig.UBig.toLeBytes cfg x := by
  cases x with
  | small x => exact result_bind (result_pass _ _) (fun _ => result_pass _ _)
  | large b =>
    unfold UBig.toLeBytes Ibig.UBig.toLeBytes
    refine result_bind (result_pass _ _) (fun _ => ?_)
    refine result_bind (result_pass _ _) (fun _ => ?_)
    refine result_bind (result_pass _ _) (fun _ => ?_)
    refine result_bind (result_pass _ _) (fun _ => ?_)
    refine result_bind (result_pass _ _) (fun _ => ?_)
    exact (result_bind_ok (bytesLoop_result _ _) _).trans rfl

theorem UBig.toBeBytes_result (cfg : Cfg) (x : UBig) : (UBig.toBeBytes cfg x).result = Ibig.UBig.toBeBytes cfg x := by
  cases x with
  | small x => exact result_pass _ _
  | large b =>
    unfold UBig.toBeBytes Ibig.UBig.toBeBytes
    refine result_bind (result_pass _ _) (fun _ => ?_)
    refine result_bind (result_pass _ _) (fun _ => ?_)
    refine result_bind (result_pass _ _) (fun _ => ?_)
    refine result_bind (result_pass _ _) (fun _ => ?_)
    exact (result_bind_ok (bytesLoop_result _ _) _).trans rfl

theorem UBig.fromUnsignedLoop_result (cfg : Cfg) (bits x : Nat) :
    (UBig.fromUnsignedLoop cfg bits x).result = Ibig.UBig.fromUnsigned cfg bits x :=
  result_ite (fun _ => rfl) (fun _ => UBig.fromLeBytes_result _ _)

theorem unsignedFromWords_result (cfg : Cfg) (bits : Nat) (l : List Nat) :
    (unsignedFromWords cfg bits l).result = Ibig.unsignedFromWords cfg bits l := by
  unfold unsignedFromWords Ibig.unsignedFromWords
  refine result_bind (result_pass _ _) (fun _ => ?_)
  refine result_ite (fun _ => rfl) (fun _ => ?_)
  refine result_bind (result_pass _ _) (fun _ => ?_)
  refine (result_bind_ok (bytesLoop_result _ _) _).trans ?_
  exact result_ite (fun _ => rfl) (fun _ => rfl)

theorem UBig.tryToUnsignedLoop_result (cfg : Cfg) (bits : Nat) (x : UBig) :
    (UBig.tryToUnsignedLoop cfg bits x).result = Ibig.UBig.tryToUnsigned cfg bits x := by
  cases x with
  | small w => rfl
  | large b => exact unsignedFromWords_result _ _ _

theorem UBig.tryToSignedLoop_result (cfg : Cfg) (bits : Nat) (x : UBig) :
    (UBig.tryToSignedLoop cfg bits x).result = Ibig.UBig.tryToSigned cfg bits x := by
  cases x with
  | small w => rfl
  | large b => exact result_bind (unsignedFromWords_result _ _ _) (fun u => by cases u <;> rfl)

theorem UBig.tryFromPrim_result (cfg : Cfg) (t : PTy) (z : Int) :
    (UBig.tryFromPrim cfg t z).result = Ibig.UBig.tryFromPrim cfg t z := by
  cases t with
  | u b => exact result_bind (UBig.fromUnsignedLoop_result _ _ _) (fun _ => rfl)
  | i b =>
    exact result_ite (fun _ => result_bind (UBig.fromUnsignedLoop_result _ _ _) (fun _ => rfl)) (fun _ => rfl)

theorem UBig.tryToPrim_result (cfg : Cfg) (x : UBig) (t : PTy) :
    (UBig.tryToPrim cfg x t).result = Ibig.UBig.tryToPrim cfg x t := by
  cases t with
  | u b => exact result_bind (UBig.tryToUnsignedLoop_result _ _ _) (fun _ => rfl)
  | i b => exact UBig.tryToSignedLoop_result _ _ _

theorem IBig.fromPrim_result (cfg : Cfg) (t : PTy) (z : Int) :
    (IBig.fromPrim cfg t z).result = Ibig.IBig.fromPrim cfg t z := by
  cases t with
  | u b => exact result_bind (UBig.fromUnsignedLoop_result _ _ _) (fun _ => rfl)
  | i b => exact result_bind (UBig.fromUnsignedLoop_result _ _ _) (fun _ => rfl)

theorem IBig.tryToPrim_result (cfg : Cfg) (x : IBig) (t : PTy) :
    (IBig.tryToPrim cfg x t).result = Ibig.IBig.tryToPrim cfg x t := by
  obtain ⟨s, m⟩ := x
  cases t with
  | u b =>
    cases s
    · exact result_bind (UBig.tryToUnsignedLoop_result _ _ _) (fun _ => rfl)
    · rfl
  | i b => exact result_bind (UBig.tryToUnsignedLoop_result _ _ _) (fun u => by cases u <;> rfl)

theorem UBig.bitLenT_result (cfg : Cfg) (x : UBig) : (UBig.bitLenT cfg x).result = Ibig.UBig.bitLen cfg x := by
  cases x with
  | small w => rfl
  | large b =>
    refine result_bind (result_pass _ _) (fun _ => ?_)
    exact result_bind (result_pass _ _) (fun _ => result_pass _ _)

theorem UBig.toFloatSlow_result (cfg : Cfg) (c : FloatCode) (x : UBig) :
    (UBig.toFloatSlow cfg c x).result = Ibig.UBig.toFloatSlow cfg c x := by
  unfold UBig.toFloatSlow Ibig.UBig.toFloatSlow
  refine result_bind (UBig.bitLenT_result _ _) (fun _ => ?_)
  refine result_bind (result_pass _ _) (fun _ => ?_)
  refine result_ite (fun _ => rfl) (fun _ => ?_)
  refine result_bind (result_pass _ _) (fun _ => ?_)
  refine result_bind (result_pass _ _) (fun _ => ?_)
  refine result_bind (UBig.shr_result _ _ _ _) (fun _ => ?_)
  refine result_bind (UBig.tryToUnsignedLoop_result _ _ _) (fun _ => ?_)
  refine result_bind (result_pass _ _) (fun _ => ?_)
  refine result_bind (result_pass _ _) (fun _ => ?_)
  refine result_bind (result_pass _ _) (fun _ => ?_)
  exact result_bind (result_pass _ _) (fun _ => result_pass _ _)

theorem UBig.toFloat_result (cfg : Cfg) (c : FloatCode) (f : FloatFmt) (x : UBig) :
    (UBig.toFloat cfg c f x).result = Ibig.UBig.toFloat cfg c f x := by
  cases x with
  | small w => rfl
  | large b =>
    refine result_bind (UBig.tryToUnsignedLoop_result _ _ _) (fun u => ?_)
    cases u
    · exact UBig.toFloatSlow_result _ _ _
    · rfl

theorem IBig.toFloat_result (cfg : Cfg) (c : FloatCode) (f : FloatFmt) (x : IBig) :
    (IBig.toFloat cfg c f x).result = Ibig.IBig.toFloat cfg c f x := by
  obtain ⟨s, m⟩ := x
  exact result_bind (UBig.toFloat_result _ _ _ _) (fun _ => by cases s <;> rfl)

theorem UBig.bit_result (cfg : Cfg) (x : UBig) (n : Nat) : (UBig.bit cfg x n).result = Ibig.UBig.bit cfg x n := by
  cases x with
  | small w => rfl
  | large b => exact result_ite (fun _ => result_bind (result_pass _ _) (fun _ => rfl)) (fun _ => rfl)

theorem UBig.clearBit_result (cfg : Cfg) (x : UBig) (n : Nat) :
    (UBig.clearBit cfg x n).result = Ibig.UBig.clearBit cfg x n := by
  cases x with
  | small w => exact result_ite (fun _ => rfl) (fun _ => rfl)
  | large b =>
    refine result_ite (fun _ => ?_) (fun _ => result_pass _ _)
    refine result_bind (result_pass _ _) (fun _ => ?_)
    exact result_bind (result_pass _ _) (fun _ => result_pass _ _)

theorem allZero_result (l : List Nat) : (allZero l).result = .ok (l.all fun x => x == 0) := by
  induction l with
  | nil => rfl
  | cons w ws ih =>
    rw [allZero, List.all_cons]
    refine (bind_of_ok rfl _).trans ?_
    by_cases h : (w == 0) = true
    · rw [if_pos h, ih, h, Bool.true_and]
    · rw [if_neg h, Bool.eq_false_iff.mpr h, Bool.false_and]; rfl

theorem UBig.isPowerOfTwo_result (x : UBig) : (UBig.isPowerOfTwo x).result = Ibig.UBig.isPowerOfTwo x := by
  cases x with
  | small w => rfl
  | large b =>
    refine result_bind (result_pass _ _) (fun _ => ?_)
    refine result_bind (result_pass _ _) (fun _ => ?_)
    refine result_bind (result_pass _ _) (fun _ => ?_)
    exact (result_bind_ok (allZero_result _) _).trans rfl

theorem clearLoop_true (l : List Nat) : (clearLoop true l).result = .ok (l.map fun _ => 0, true) := by
  induction l with
  | nil => rfl
  | cons w ws ih =>
    rw [clearLoop]
    refine (bind_of_ok rfl _).trans ?_
    simp only [Bool.true_or, if_true]
    exact (result_bind_ok ih _).trans rfl

theorem clearLoop_result (l : List Nat) : (clearLoop false l).result =
    .ok (l.takeWhile (fun x => x == 0) ++ (l.dropWhile (fun x => x == 0)).map (fun _ => 0),
      decide (l.dropWhile (fun x => x == 0) ≠ [])) := by
  induction l with
  | nil => rfl
  | cons w ws ih =>
    rw [clearLoop]
    refine (bind_of_ok rfl _).trans ?_
    by_cases h : w = 0
    · subst h
      simp only [bne_self_eq_false, Bool.or_false, Bool.false_eq_true, if_false]
      refine (result_bind_ok ih _).trans ?_
      rfl
    · have h1 : (w != 0) = true := by simpa using h
      have h2 : (w == 0) = false := by simpa using h
      rw [h1, List.takeWhile_cons, List.dropWhile_cons, h2]
      simp only [Bool.false_or, if_true]
      refine (result_bind_ok (clearLoop_true ws) _).trans ?_
      rfl

theorem UBig.nextPowerOfTwo_result (cfg : Cfg) (o : Own) (x : UBig) :
    (UBig.nextPowerOfTwo cfg o x).result = Ibig.UBig.nextPowerOfTwo cfg o x := by
  have key : ∀ x, (UBig.nextPowerOfTwoV cfg x).result = Ibig.UBig.nextPowerOfTwoV cfg x := by
    intro x
    cases x with
    | small w =>
      unfold UBig.nextPowerOfTwoV Ibig.UBig.nextPowerOfTwoV
      dsimp only
      cases wordNextPow2 cfg.W w
      · exact UBig.fromUnsignedLoop_result _ _ _
      · rfl
    | large b =>
      unfold UBig.nextPowerOfTwoV Ibig.UBig.nextPowerOfTwoV
      dsimp only
      unfold UBig.nextPowerOfTwoLarge Ibig.UBig.nextPowerOfTwoLarge
      refine result_bind (result_pass _ _) (fun l => ?_)
      refine result_bind (result_pass _ _) (fun _ => ?_)
      refine result_bind (result_pass _ _) (fun low => ?_)
      refine (result_bind_ok (clearLoop_result low) _).trans ?_
      dsimp only
      have hc : (if decide (low.dropWhile (fun x => x == 0) ≠ []) = true then 1 else 0) =
          if low.dropWhile (fun x => x == 0) = [] then 0 else 1 := by
        by_cases h : low.dropWhile (fun x => x == 0) = [] <;> simp [h]
      rw [hc]
      cases wordNextPow2Carry cfg.W l (if low.dropWhile (fun x => x == 0) = [] then 0 else 1)
      · refine result_bind (result_pass _ _) (fun _ => ?_)
        exact result_bind (result_pass _ _) (fun _ => result_pass _ _)
      · exact result_pass _ _
  cases o with
  | val => exact key x
  | ref => exact result_bind (result_pass _ _) (fun _ => key _)

end Ibig.Timed
