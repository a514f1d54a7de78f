import Verif.Proofs.ConvertCost
import Verif.Model.SerdeTime
/-!
The number of steps of serialisation.
-/
namespace Ibig.Timed

/-! The results are the same -/

theorem joinWords_result (W : Nat) (l : List Nat) : ∀ i acc,
    (joinWords W i l acc).result = Ibig.joinWords W i l acc := by
  induction l with
  | nil => intro _ _; rfl
  | cons w ws ih =>
    intro i acc
    rw [joinWords, Ibig.joinWords]
    refine (bind_of_ok rfl _).trans ?_
    exact result_bind (result_pass _ _) (fun _ => ih _ _)

theorem joinChunks_result (W : Nat) (l : List (List Nat)) : (joinChunks W l).result = Ibig.joinChunks W l := by
  induction l with
  | nil => rfl
  | cons c cs ih =>
    rw [joinChunks, Ibig.joinChunks]
    refine (bind_of_ok rfl _).trans ?_
    refine result_bind (joinWords_result W c 0 0) (fun _ => ?_)
    exact result_bind ih (fun _ => rfl)

theorem UBig.serialize_result (cfg : Cfg) (x : UBig) : (UBig.serialize cfg x).result = Ibig.UBig.serialize cfg x := by
  unfold UBig.serialize Ibig.UBig.serialize
  refine (bind_of_ok rfl _).trans ?_
  exact result_bind (joinChunks_result _ _) (fun _ => rfl)

theorem pushWord64_result (W x : Nat) (k : Nat) : ∀ i b,
    (pushWord64 W x i k b).result = Ibig.pushWord64 W x i k b := by
  induction k with
  | zero => intro _ _; rfl
  | succ k ih =>
    intro i b
    rw [pushWord64, Ibig.pushWord64]
    refine (bind_of_ok rfl _).trans ?_
    refine result_bind (result_pass _ _) (fun _ => ?_)
    exact result_bind (result_pass _ _) (fun _ => ih _ _)

theorem pushAll64_result (W : Nat) (es : List Nat) : ∀ b, (pushAll64 W es b).result = Ibig.pushAll64 W es b := by
  induction es with
  | nil => intro _; rfl
  | cons x xs ih =>
    intro b
    rw [pushAll64, Ibig.pushAll64]
    refine (bind_of_ok rfl _).trans ?_
    refine (bind_of_ok rfl _).trans ?_
    exact result_bind (pushWord64_result _ _ _ _ _) (fun _ => ih _)

theorem takeAll64_result (W : Nat) (n : Nat) : ∀ es b,
    (takeAll64 W n es b).result = Ibig.takeAll64 W n es b := by
  induction n with
  | zero => intro _ _; rfl
  | succ n ih =>
    intro es b
    cases es with
    | nil => rfl
    | cons x xs =>
      rw [takeAll64, Ibig.takeAll64]
      refine (bind_of_ok rfl _).trans ?_
      exact result_bind (pushWord64_result _ _ _ _ _) (fun _ => ih _ _)

theorem UBig.deserialize_result (cfg : Cfg) (hint : Option Nat) (es : List Nat) :
    (UBig.deserialize cfg hint es).result = Ibig.UBig.deserialize cfg hint es := by
  match hint with
  | some 0 => exact result_bind (result_pass _ _) (fun _ => rfl)
  | some 1 =>
    cases es with
    | nil => rfl
    | cons x xs =>
      refine (bind_of_ok (k := 1) (a := ()) rfl _).trans ?_
      exact result_bind (result_pass _ _) (fun _ => result_pass _ _)
  | some (n + 2) =>
    refine result_bind (result_pass _ _) (fun _ => ?_)
    refine result_bind (result_pass _ _) (fun _ => ?_)
    refine result_bind (takeAll64_result _ _ _ _) (fun _ => ?_)
    exact result_bind (result_pass _ _) (fun _ => result_pass _ _)
  | none =>
    refine result_bind (result_pass _ _) (fun _ => ?_)
    refine result_bind (result_pass _ _) (fun _ => ?_)
    exact result_bind (pushAll64_result _ _ _) (fun _ => result_pass _ _)

theorem IBig.serialize_result (cfg : Cfg) (x : IBig) : (IBig.serialize cfg x).result = Ibig.IBig.serialize cfg x := by
  unfold IBig.serialize Ibig.IBig.serialize
  refine (bind_of_ok rfl _).trans ?_
  exact result_bind (UBig.serialize_result _ _) (fun _ => rfl)

theorem IBig.deserialize_result (cfg : Cfg) (s : Sign) (hint : Option Nat) (es : List Nat) :
    (IBig.deserialize cfg s hint es).result = Ibig.IBig.deserialize cfg s hint es := by
  unfold IBig.deserialize Ibig.IBig.deserialize
  refine (bind_of_ok rfl _).trans ?_
  exact result_bind (UBig.deserialize_result _ _ _) (fun _ => rfl)

/-! Bounds -/

theorem takes_joinWords (W : Nat) (l : List Nat) : ∀ i acc,
    Takes (joinWords W i l acc) (2 * l.length) (fun _ => True) := by
  induction l with
  | nil => intro _ _; exact Takes.pure trivial
  | cons w ws ih =>
    intro i acc
    rw [joinWords, List.length_cons]
    refine Takes.bind takes_tick (by omega) (fun _ M hM _ => ?_)
    refine Takes.bind (takes_any 1 _) (by omega) (fun _ M1 hM1 _ => ?_)
    exact (ih _ _).mono (by omega) fun _ h => h

theorem takes_joinChunks (W : Nat) {n : Nat} (hn : 1 ≤ n) (fuel : Nat) : ∀ l : List Nat,
    Takes (joinChunks W (chunksFuel n fuel l)) (3 * l.length) (fun _ => True) := by
  induction fuel with
  | zero => intro _; exact Takes.pure trivial
  | succ fuel ih =>
    intro l
    cases l with
    | nil => exact Takes.pure trivial
    | cons w ws =>
      have hc : chunksFuel n (fuel + 1) (w :: ws) = (w :: ws).take n :: chunksFuel n fuel ((w :: ws).drop n) := rfl
      have h1 : ((w :: ws).take n).length + ((w :: ws).drop n).length = (w :: ws).length := by
        rw [← List.length_append, List.take_append_drop]
      have h2 : 1 ≤ ((w :: ws).take n).length := by rw [List.length_take, List.length_cons]; omega
      rw [hc, joinChunks]
      refine Takes.bind takes_tick (by omega) (fun _ M hM _ => ?_)
      refine Takes.bind (takes_joinWords W _ 0 0) (by omega) (fun _ M1 hM1 _ => ?_)
      exact Takes.bind (ih _) (by omega) (fun _ _ _ _ => Takes.pure trivial)

theorem takes_serialize {cfg : Cfg} (hk : 1 ≤ wordsPerU64 cfg.W) (x : UBig) :
    Takes (UBig.serialize cfg x) (3 * x.len + 1) (fun _ => True) := by
  have hl : x.asWords.length ≤ x.len := by
    cases x with
    | small w =>
      show (if w = 0 then ([] : List Nat) else [w]).length ≤ 1
      split_ifs <;> simp
    | large b => exact le_refl _
  unfold UBig.serialize
  refine Takes.bind takes_tick (by omega) (fun _ M hM _ => ?_)
  exact Takes.bind (takes_joinChunks _ hk _ _) (by omega) (fun _ _ _ _ => Takes.pure trivial)

theorem takes_pushWord64 (W x : Nat) (k : Nat) : ∀ i b,
    Takes (pushWord64 W x i k b) (3 * k) (fun c => c.words.length = b.words.length + k) := by
  induction k with
  | zero => intro _ _; exact Takes.pure rfl
  | succ k ih =>
    intro i b
    rw [pushWord64]
    refine Takes.bind takes_tick (by omega) (fun _ M hM _ => ?_)
    refine Takes.bind (takes_any 1 _) (by omega) (fun _ M1 hM1 _ => ?_)
    refine Takes.bind (takes_push _ _) (by omega) (fun c M2 hM2 hc => ?_)
    refine (ih _ c).mono (by omega) fun d hd => ?_
    rw [hd, hc, List.length_append, List.length_singleton]
    omega

theorem takes_pushAll64 (W : Nat) (es : List Nat) : ∀ b,
    Takes (pushAll64 W es b) (es.length * (3 * wordsPerU64 W + 2))
      (fun c => c.words.length = b.words.length + es.length * wordsPerU64 W) := by
  induction es with
  | nil => intro b; exact Takes.pure (by rw [List.length_nil, Nat.zero_mul]; rfl)
  | cons x xs ih =>
    intro b
    rw [pushAll64, List.length_cons, Nat.succ_mul xs.length (3 * wordsPerU64 W + 2), Nat.succ_mul xs.length (wordsPerU64 W)]
    refine Takes.bind takes_tick (by omega) (fun _ M hM _ => ?_)
    refine Takes.bind takes_tick (by omega) (fun _ M' hM' _ => ?_)
    refine Takes.bind (takes_pushWord64 _ _ _ _ _) (by omega) (fun c M2 hM2 hc => ?_)
    exact (ih c).mono (by omega) fun d hd => by omega

theorem takes_takeAll64 (W : Nat) (n : Nat) : ∀ es b,
    Takes (takeAll64 W n es b) (es.length * (3 * wordsPerU64 W + 2))
      (fun c => c.1.words.length ≤ b.words.length + es.length * wordsPerU64 W) := by
  induction n with
  | zero => intro _ _; exact (Takes.pure (by dsimp only; omega)).mono (Nat.zero_le _) fun _ h => h
  | succ n ih =>
    intro es b
    cases es with
    | nil => exact Takes.throwT
    | cons x xs =>
      rw [takeAll64, List.length_cons, Nat.succ_mul xs.length (3 * wordsPerU64 W + 2), Nat.succ_mul xs.length (wordsPerU64 W)]
      refine Takes.bind takes_tick (by omega) (fun _ M hM _ => ?_)
      refine Takes.bind (takes_pushWord64 _ _ _ _ _) (by omega) (fun c M2 hM2 hc => ?_)
      exact (ih _ c).mono (by omega) fun d hd => by omega

theorem takes_deserialize (cfg : Cfg) (hint : Option Nat) (es : List Nat) :
    Takes (UBig.deserialize cfg hint es) (es.length * (5 * wordsPerU64 cfg.W + 2) + 34) (fun _ => True) := by
  have hm : es.length * (5 * wordsPerU64 cfg.W + 2) =
      es.length * (3 * wordsPerU64 cfg.W + 2) + 2 * (es.length * wordsPerU64 cfg.W) := by ring
  rw [hm]
  match hint with
  | some 0 => exact Takes.bind (takes_any 1 _) (by omega) (fun _ _ _ _ => Takes.pure trivial)
  | some 1 =>
    cases es with
    | nil => exact Takes.throwT
    | cons x xs =>
      refine Takes.bind takes_tick (by omega) (fun _ M hM _ => ?_)
      refine Takes.bind (takes_any 1 _) (by omega) (fun _ M1 hM1 _ => ?_)
      exact (takes_any 32 _).mono (by omega) fun _ h => h
  | some (n + 2) =>
    refine Takes.bind (takes_any 1 _) (by omega) (fun _ M hM _ => ?_)
    refine Takes.bind (takes_allocate _ _) (by omega) (fun b M1 hM1 hb => ?_)
    refine Takes.bind (takes_takeAll64 _ _ es b) (by omega) (fun c M2 hM2 hc => ?_)
    refine Takes.bind (takes_any 1 _) (by omega) (fun _ M3 hM3 _ => ?_)
    rw [hb, List.length_nil] at hc
    exact (takes_ofBuffer cfg c.1).mono (by omega) fun _ h => h
  | none =>
    refine Takes.bind (takes_any 1 _) (by omega) (fun _ M hM _ => ?_)
    refine Takes.bind (takes_allocate _ _) (by omega) (fun b M1 hM1 hb => ?_)
    refine Takes.bind (takes_pushAll64 _ es b) (by omega) (fun c M2 hM2 hc => ?_)
    rw [hb, List.length_nil] at hc
    exact (takes_ofBuffer cfg c).mono (by omega) fun _ h => h

end Ibig.Timed
