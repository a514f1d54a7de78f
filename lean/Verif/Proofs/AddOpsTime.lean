import Verif.Proofs.DivOpsTime
import Verif.Model.AddOpsTime
/-!
The number of steps of the operators `+` and `-`.
-/
namespace Ibig.Timed

/-! The results are the same -/

theorem UBig.addWord_result (cfg : Cfg) (a b : Nat) :
    (UBig.addWord cfg a b).result = Ibig.UBig.addWord cfg a b := by
  unfold UBig.addWord Ibig.UBig.addWord
  refine result_ite (fun _ => ?_) (fun _ => rfl)
  refine result_bind (result_pass _ _) (fun _ => ?_)
  refine result_bind (result_pass _ _) (fun _ => ?_)
  exact result_bind (result_pass _ _) (fun _ => result_pass _ _)

theorem UBig.addLargeWord_result (cfg : Cfg) (b : Buffer) (x : Nat) :
    (UBig.addLargeWord cfg b x).result = Ibig.UBig.addLargeWord cfg b x := by
  unfold UBig.addLargeWord Ibig.UBig.addLargeWord
  refine result_bind (result_pass _ _) (fun _ => ?_)
  refine result_bind (Timed.addWord_result _ _ _) ?_
  rintro ⟨ws, o⟩
  refine result_ite (fun _ => ?_) (fun _ => result_pass _ _)
  exact result_bind (result_pass _ _) (fun _ => result_pass _ _)

theorem appendRest_result (cfg : Cfg) (b : Buffer) (r : List Nat) (n : Nat) :
    (appendRest cfg b r n).result = Ibig.appendRest cfg b r n := by
  unfold appendRest Ibig.appendRest
  refine result_ite (fun _ => ?_) (fun _ => rfl)
  refine result_bind (result_pass _ _) (fun _ => ?_)
  exact result_bind (result_pass _ _) (fun _ => result_pass _ _)

theorem UBig.addLarge_result (cfg : Cfg) (b : Buffer) (r : List Nat) :
    (UBig.addLarge cfg b r).result = Ibig.UBig.addLarge cfg b r := by
  unfold UBig.addLarge Ibig.UBig.addLarge
  refine result_bind (result_pass _ _) (fun _ => ?_)
  refine result_bind (result_onSlice _ _ _ fun _ => addSameLen_result _ _ _) ?_
  rintro ⟨ws, o⟩
  refine result_bind (appendRest_result _ _ _ _) (fun _ => ?_)
  refine result_ite (fun _ => ?_) (fun _ => result_pass _ _)
  refine result_bind (result_onSlice _ _ _ fun _ => addOne_result _ _) ?_
  rintro ⟨ws, c⟩
  refine result_ite (fun _ => ?_) (fun _ => result_pass _ _)
  exact result_bind (result_pass _ _) (fun _ => result_pass _ _)

theorem UBig.addVV_result (cfg : Cfg) (a b : UBig) : (UBig.addVV cfg a b).result = Ibig.UBig.addVV cfg a b := by
  cases a <;> cases b
  · exact UBig.addWord_result _ _ _
  · exact UBig.addLargeWord_result _ _ _
  · exact UBig.addLargeWord_result _ _ _
  · exact result_ite (fun _ => UBig.addLarge_result _ _ _) (fun _ => UBig.addLarge_result _ _ _)

theorem UBig.addVR_result (cfg : Cfg) (a b : UBig) : (UBig.addVR cfg a b).result = Ibig.UBig.addVR cfg a b := by
  cases a <;> cases b
  · exact UBig.addWord_result _ _ _
  · exact result_bind (result_pass _ _) (fun _ => UBig.addLargeWord_result _ _ _)
  · exact UBig.addLargeWord_result _ _ _
  · exact UBig.addLarge_result _ _ _

theorem UBig.addRR_result (cfg : Cfg) (a b : UBig) : (UBig.addRR cfg a b).result = Ibig.UBig.addRR cfg a b := by
  cases a <;> cases b
  · exact UBig.addWord_result _ _ _
  · exact result_bind (result_pass _ _) (fun _ => UBig.addLargeWord_result _ _ _)
  · exact result_bind (result_pass _ _) (fun _ => UBig.addLargeWord_result _ _ _)
  · exact result_ite (fun _ => result_bind (result_pass _ _) (fun _ => UBig.addLarge_result _ _ _))
      (fun _ => result_bind (result_pass _ _) (fun _ => UBig.addLarge_result _ _ _))

theorem UBig.add_result (cfg : Cfg) (o1 o2 : Own) (a b : UBig) :
    (UBig.add cfg o1 o2 a b).result = Ibig.UBig.add cfg o1 o2 a b := by
  cases o1 <;> cases o2
  · exact UBig.addVV_result _ _ _
  · exact UBig.addVR_result _ _ _
  · exact UBig.addVR_result _ _ _
  · exact UBig.addRR_result _ _ _

theorem UBig.subWord_result (a b : Nat) : (UBig.subWord a b).result = Ibig.UBig.subWord a b :=
  result_ite (fun _ => rfl) (fun _ => rfl)

theorem UBig.subLargeWord_result (cfg : Cfg) (b : Buffer) (x : Nat) :
    (UBig.subLargeWord cfg b x).result = Ibig.UBig.subLargeWord cfg b x := by
  unfold UBig.subLargeWord Ibig.UBig.subLargeWord
  refine result_bind (Timed.subWord_result _ _ _) ?_
  rintro ⟨ws, o⟩
  exact result_bind (result_pass _ _) (fun _ => result_pass _ _)

theorem UBig.subLarge_result (cfg : Cfg) (b : Buffer) (r : List Nat) :
    (UBig.subLarge cfg b r).result = Ibig.UBig.subLarge cfg b r := by
  unfold UBig.subLarge Ibig.UBig.subLarge
  refine result_ite (fun _ => rfl) (fun _ => ?_)
  refine result_bind (subInPlace_result _ _ _) ?_
  rintro ⟨ws, o⟩
  exact result_ite (fun _ => rfl) (fun _ => result_pass _ _)

theorem UBig.subLargeRefVal_result (cfg : Cfg) (l : List Nat) (b : Buffer) :
    (UBig.subLargeRefVal cfg l b).result = Ibig.UBig.subLargeRefVal cfg l b := by
  unfold UBig.subLargeRefVal Ibig.UBig.subLargeRefVal
  refine result_ite (fun _ => rfl) (fun _ => ?_)
  refine result_bind (result_pass _ _) (fun _ => ?_)
  refine result_bind (subSameLenSwap_result _ _ _) ?_
  rintro ⟨ws, o⟩
  refine result_bind (result_pass _ _) (fun _ => ?_)
  refine result_bind (result_pass _ _) (fun _ => ?_)
  refine result_bind (result_pass _ _) (fun _ => ?_)
  refine result_ite (fun _ => ?_) (fun _ => result_pass _ _)
  refine result_bind (result_onSlice _ _ _ fun _ => subOne_result _ _) ?_
  rintro ⟨ws, o⟩
  exact result_ite (fun _ => rfl) (fun _ => result_pass _ _)

theorem UBig.sub_result (cfg : Cfg) (o1 o2 : Own) (a b : UBig) :
    (UBig.sub cfg o1 o2 a b).result = Ibig.UBig.sub cfg o1 o2 a b := by
  cases o1 <;> cases o2 <;> cases a <;> cases b <;>
    first
    | rfl
    | exact UBig.subWord_result _ _
    | exact UBig.subLargeWord_result _ _ _
    | exact UBig.subLarge_result _ _ _
    | exact UBig.subLargeRefVal_result _ _ _
    | exact result_bind (result_pass _ _) (fun _ => UBig.subLargeWord_result _ _ _)
    | exact result_bind (result_pass _ _) (fun _ => UBig.subLarge_result _ _ _)

theorem IBig.subLargeWord_result (cfg : Cfg) (b : Buffer) (x : Nat) :
    (IBig.subLargeWord cfg b x).result = Ibig.IBig.subLargeWord cfg b x :=
  result_bind (UBig.subLargeWord_result _ _ _) (fun _ => rfl)

theorem IBig.subLarge_result (cfg : Cfg) (b : Buffer) (r : List Nat) :
    (IBig.subLarge cfg b r).result = Ibig.IBig.subLarge cfg b r := by
  unfold IBig.subLarge Ibig.IBig.subLarge
  refine result_ite (fun _ => ?_) (fun _ => ?_)
  · refine result_bind (subInPlaceWithSign_result _ _ _) ?_
    rintro ⟨ws, s⟩
    exact result_bind (result_pass _ _) (fun _ => rfl)
  · exact result_bind (UBig.subLargeRefVal_result _ _ _) (fun _ => rfl)

theorem negR_result {x : Timed IBig} {y : R IBig} (h : x.result = y) : (negR x).result = Ibig.negR y :=
  result_bind h (fun _ => rfl)

theorem ofUBigR_result {x : Timed UBig} {y : R UBig} (h : x.result = y) : (ofUBigR x).result = Ibig.ofUBigR y :=
  result_bind h (fun _ => rfl)

theorem IBig.subUBigVV_result (cfg : Cfg) (a b : UBig) :
    (IBig.subUBigVV cfg a b).result = Ibig.IBig.subUBigVV cfg a b := by
  cases a <;> cases b
  · rfl
  · exact negR_result (IBig.subLargeWord_result _ _ _)
  · exact IBig.subLargeWord_result _ _ _
  · exact result_ite (fun _ => IBig.subLarge_result _ _ _) (fun _ => negR_result (IBig.subLarge_result _ _ _))

theorem IBig.subUBigVR_result (cfg : Cfg) (a b : UBig) :
    (IBig.subUBigVR cfg a b).result = Ibig.IBig.subUBigVR cfg a b := by
  cases a <;> cases b
  · rfl
  · exact result_bind (result_pass _ _) (fun _ => negR_result (IBig.subLargeWord_result _ _ _))
  · exact IBig.subLargeWord_result _ _ _
  · exact IBig.subLarge_result _ _ _

theorem IBig.subUBigRR_result (cfg : Cfg) (a b : UBig) :
    (IBig.subUBigRR cfg a b).result = Ibig.IBig.subUBigRR cfg a b := by
  cases a <;> cases b
  · rfl
  · exact result_bind (result_pass _ _) (fun _ => negR_result (IBig.subLargeWord_result _ _ _))
  · exact result_bind (result_pass _ _) (fun _ => IBig.subLargeWord_result _ _ _)
  · exact result_ite (fun _ => result_bind (result_pass _ _) (fun _ => IBig.subLarge_result _ _ _))
      (fun _ => result_bind (result_pass _ _) (fun _ => negR_result (IBig.subLarge_result _ _ _)))

theorem IBig.addVV_result (cfg : Cfg) (x y : IBig) : (IBig.addVV cfg x y).result = Ibig.IBig.addVV cfg x y := by
  rcases x with ⟨s, a⟩
  rcases y with ⟨t, b⟩
  cases s <;> cases t
  · exact ofUBigR_result (UBig.add_result _ _ _ _ _)
  · exact IBig.subUBigVV_result _ _ _
  · exact IBig.subUBigVV_result _ _ _
  · exact negR_result (ofUBigR_result (UBig.add_result _ _ _ _ _))

theorem IBig.addVR_result (cfg : Cfg) (x y : IBig) : (IBig.addVR cfg x y).result = Ibig.IBig.addVR cfg x y := by
  rcases x with ⟨s, a⟩
  rcases y with ⟨t, b⟩
  cases s <;> cases t
  · exact ofUBigR_result (UBig.add_result _ _ _ _ _)
  · exact IBig.subUBigVR_result _ _ _
  · exact negR_result (IBig.subUBigVR_result _ _ _)
  · exact negR_result (ofUBigR_result (UBig.add_result _ _ _ _ _))

theorem IBig.addRR_result (cfg : Cfg) (x y : IBig) : (IBig.addRR cfg x y).result = Ibig.IBig.addRR cfg x y := by
  rcases x with ⟨s, a⟩
  rcases y with ⟨t, b⟩
  cases s <;> cases t
  · exact ofUBigR_result (UBig.add_result _ _ _ _ _)
  · exact IBig.subUBigRR_result _ _ _
  · exact IBig.subUBigRR_result _ _ _
  · exact negR_result (ofUBigR_result (UBig.add_result _ _ _ _ _))

theorem IBig.add_result (cfg : Cfg) (o1 o2 : Own) (x y : IBig) :
    (IBig.add cfg o1 o2 x y).result = Ibig.IBig.add cfg o1 o2 x y := by
  cases o1 <;> cases o2
  · exact IBig.addVV_result _ _ _
  · exact IBig.addVR_result _ _ _
  · exact IBig.addVR_result _ _ _
  · exact IBig.addRR_result _ _ _

theorem IBig.subRR_result (cfg : Cfg) (x y : IBig) : (IBig.subRR cfg x y).result = Ibig.IBig.subRR cfg x y := by
  rcases x with ⟨s, a⟩
  rcases y with ⟨t, b⟩
  cases s <;> cases t
  · exact IBig.subUBigRR_result _ _ _
  · exact ofUBigR_result (UBig.add_result _ _ _ _ _)
  · exact negR_result (ofUBigR_result (UBig.add_result _ _ _ _ _))
  · exact IBig.subUBigRR_result _ _ _

theorem IBig.sub_result (cfg : Cfg) (o1 o2 : Own) (x y : IBig) :
    (IBig.sub cfg o1 o2 x y).result = Ibig.IBig.sub cfg o1 o2 x y := by
  cases o1 <;> cases o2
  · exact IBig.add_result cfg .val .val x y.neg
  · exact negR_result (IBig.add_result cfg .val .ref x.neg y)
  · exact IBig.add_result cfg .ref .val x y.neg
  · exact IBig.subRR_result _ _ _

/-! The number of steps -/

theorem takes_clone (cfg : Cfg) (b : Buffer) :
    Takes (Buffer.clone cfg b) (b.words.length + 1) (fun c => c.words = b.words) := takes_own cfg .ref b

theorem takes_pushMay (cfg : Cfg) (b : Buffer) (w : Nat) :
    Takes (Buffer.pushMayReallocate cfg b w) (b.words.length + 2)
      (fun c => c.words.length = b.words.length + 1) := by
  refine Takes.pass ((pushMayReallocate_words cfg b w).mono (fun c hc => ?_))
  rw [hc, List.length_append]
  rfl

theorem takes_ensureCapacity (cfg : Cfg) (b : Buffer) (n : Nat) :
    Takes (Buffer.ensureCapacity cfg b n) (b.words.length + 1) (fun c => c.words = b.words) := by
  refine Takes.pass ?_
  unfold Ibig.Buffer.ensureCapacity
  refine Post.ite (fun _ => ?_) (fun _ => Post.ok rfl)
  unfold Ibig.Buffer.reallocate
  refine Post.bind (Post.true _) (fun _ _ => Post.bind (Post.true _) (fun _ _ => ?_))
  unfold Ibig.Buffer.cloneFrom
  exact Post.bind (Post.true _) (fun _ _ => Post.ok rfl)

theorem extend_words (l : List Nat) :
    ∀ b : Buffer, Post (Ibig.Buffer.extend b l) (fun c => c.words = b.words ++ l) := by
  induction l with
  | nil => intro b; exact Post.ok (by simp)
  | cons w ws ih =>
    intro b
    rw [Ibig.Buffer.extend]
    refine Post.bind (P := fun c => c.words = b.words ++ [w]) ?_ (fun c hc => (ih c).mono (fun d hd => ?_))
    · unfold Ibig.Buffer.push
      exact Post.bind (Post.true _) (fun _ _ => Post.ok rfl)
    · rw [hd, hc, List.append_assoc]; rfl

theorem takes_extend (b : Buffer) (l : List Nat) :
    Takes (Buffer.extend b l) (l.length + 1) (fun c => c.words.length = b.words.length + l.length) :=
  Takes.pass ((extend_words l b).mono (fun c hc => by rw [hc, List.length_append]))

theorem takes_uaddWord (cfg : Cfg) (a b : Nat) : Takes (UBig.addWord cfg a b) 9 (fun _ => True) := by
  unfold UBig.addWord
  refine Takes.ite (fun _ => ?_) (fun _ => Takes.pure trivial)
  refine Takes.bind (n := 1) (P := fun x => x.words = []) (Takes.pass ?_) (by omega) (fun x M hM hx => ?_)
  · unfold Ibig.Buffer.allocate
    refine Post.ite (fun _ => Post.error) (fun _ => ?_)
    exact Post.bind (Post.true _) (fun _ _ => Post.ok rfl)
  have push : ∀ (x : Buffer) (w : Nat), Takes (Buffer.push x w) 1 (fun c => c.words.length = x.words.length + 1) := by
    intro x w
    refine Takes.pass ?_
    unfold Ibig.Buffer.push
    exact Post.bind (Post.true _) (fun _ _ => Post.ok (by simp))
  refine Takes.bind (push _ _) (by omega) (fun y M1 hM1 hy => ?_)
  refine Takes.bind (push _ _) (by omega) (fun z M2 hM2 hz => ?_)
  refine (takes_ofBuffer cfg z).mono ?_ (fun _ h => h)
  rw [hz, hy, hx, List.length_nil]
  omega

theorem takes_uaddLargeWord (cfg : Cfg) (b : Buffer) (x : Nat) :
    Takes (UBig.addLargeWord cfg b x) (4 * b.words.length + 7) (fun _ => True) := by
  unfold UBig.addLargeWord
  tone takes_assertR _ => _u
  refine Takes.bind (takes_addWord _ _ _) (by omega) ?_
  rintro ⟨ws, o⟩ M1 hM1 h1
  dsimp only at h1 ⊢
  refine Takes.ite (fun _ => ?_) (fun _ => (takes_ofBuffer cfg _).mono (by dsimp only; omega) (fun _ h => h))
  refine Takes.bind (takes_pushMay cfg _ _) (by dsimp only; omega) (fun c M2 hM2 hc => ?_)
  dsimp only at hc hM2
  exact (takes_ofBuffer cfg _).mono (by omega) (fun _ h => h)

theorem takes_appendRest (cfg : Cfg) (b : Buffer) (r : List Nat) :
    Takes (appendRest cfg b r (min b.words.length r.length)) (b.words.length + r.length + 3)
      (fun c => c.words.length = max b.words.length r.length) := by
  unfold appendRest
  refine Takes.ite (fun h => ?_) (fun h => Takes.pure (by omega))
  refine Takes.bind (takes_ensureCapacity cfg _ _) (by omega) (fun c M hM hc => ?_)
  refine Takes.bind (takes_sliceR _ _ _) (by omega) (fun s M1 hM1 hs => ?_)
  refine (takes_extend c s).mono (by omega) (fun d hd => ?_)
  rw [hd, hc]
  omega

theorem takes_uaddLarge (cfg : Cfg) (b : Buffer) (r : List Nat) :
    Takes (UBig.addLarge cfg b r) (7 * (b.words.length + r.length) + 16) (fun _ => True) := by
  unfold UBig.addLarge
  have hb : b.len = b.words.length := rfl
  rw [hb]
  dsimp only
  refine Takes.bind (takes_sliceR _ _ _) (by omega) (fun s M hM hs => ?_)
  refine Takes.bind (takes_onPass' 1 fun _ => takes_addSameLen _ _ _) (by omega) ?_
  rintro ⟨ws, o⟩ M1 hM1 h1
  dsimp only at h1 ⊢
  have h2 := takes_appendRest cfg { b with words := ws } r
  dsimp only at h2
  rw [h1.1] at h2
  refine Takes.bind h2 (by omega) (fun c M2 hM2 hc => ?_)
  refine Takes.ite (fun _ => ?_) (fun _ => (takes_ofBuffer cfg _).mono (by omega) (fun _ h => h))
  have hcl : c.len = c.words.length := rfl
  refine Takes.bind (takes_onPass' 0 fun _ => takes_addOne _ _) (by omega) ?_
  rintro ⟨ws2, o2⟩ M3 hM3 h3
  dsimp only at h3 ⊢
  refine Takes.ite (fun _ => ?_) (fun _ => (takes_ofBuffer cfg _).mono (by dsimp only; omega) (fun _ h => h))
  refine Takes.bind (takes_pushMay cfg _ _) (by dsimp only; omega) (fun d M4 hM4 hd => ?_)
  dsimp only at hd hM4
  exact (takes_ofBuffer cfg _).mono (by omega) (fun _ h => h)

theorem takes_usubLargeWord (cfg : Cfg) (b : Buffer) (x : Nat) :
    Takes (UBig.subLargeWord cfg b x) (4 * b.words.length + 7) (fun _ => True) := by
  unfold UBig.subLargeWord
  refine Takes.bind (takes_subWord _ _ _) (by omega) ?_
  rintro ⟨ws, o⟩ M1 hM1 h1
  dsimp only at h1 ⊢
  tone takes_assertR _ => _u
  exact (takes_ofBuffer cfg _).mono (by dsimp only; omega) (fun _ h => h)

theorem takes_usubLarge (cfg : Cfg) (b : Buffer) (r : List Nat) :
    Takes (UBig.subLarge cfg b r) (7 * (b.words.length + r.length) + 16) (fun _ => True) := by
  unfold UBig.subLarge
  refine Takes.ite (fun _ => Takes.throwT) (fun _ => ?_)
  refine Takes.bind (takes_subInPlace _ _ _) (by omega) ?_
  rintro ⟨ws, o⟩ M1 hM1 h1
  dsimp only at h1 ⊢
  refine Takes.ite (fun _ => Takes.throwT) (fun _ => ?_)
  exact (takes_ofBuffer cfg _).mono (by dsimp only; omega) (fun _ h => h)

theorem takes_usubLargeRefVal (cfg : Cfg) (l : List Nat) (b : Buffer) :
    Takes (UBig.subLargeRefVal cfg l b) (7 * (l.length + b.words.length) + 16) (fun _ => True) := by
  unfold UBig.subLargeRefVal
  have hb : b.len = b.words.length := rfl
  rw [hb]
  dsimp only
  refine Takes.ite (fun _ => Takes.throwT) (fun hlb => ?_)
  refine Takes.bind (takes_sliceR _ _ _) (by omega) (fun s M hM hs => ?_)
  refine Takes.bind (takes_subSameLenSwap _ _ _) (by omega) ?_
  rintro ⟨ws, o⟩ M1 hM1 h1
  dsimp only at h1 ⊢
  refine Takes.bind (takes_ensureCapacity cfg _ _) (by dsimp only; omega) (fun c M2 hM2 hc => ?_)
  dsimp only at hc hM2
  refine Takes.bind (takes_sliceR _ _ _) (by omega) (fun s M3 hM3 hs2 => ?_)
  refine Takes.bind (takes_extend c s) (by omega) (fun d M4 hM4 hd => ?_)
  rw [hc] at hd
  refine Takes.ite (fun _ => ?_) (fun _ => (takes_ofBuffer cfg _).mono (by omega) (fun _ h => h))
  have hdl : d.len = d.words.length := rfl
  refine Takes.bind (takes_onPass' 0 fun _ => takes_subOne _ _) (by omega) ?_
  rintro ⟨ws2, o2⟩ M5 hM5 h5
  dsimp only at h5 ⊢
  refine Takes.ite (fun _ => Takes.throwT) (fun _ => ?_)
  exact (takes_ofBuffer cfg _).mono (by dsimp only; omega) (fun _ h => h)

theorem takes_isubLargeWord (cfg : Cfg) (b : Buffer) (x : Nat) :
    Takes (IBig.subLargeWord cfg b x) (4 * b.words.length + 7) (fun _ => True) :=
  Takes.bind (takes_usubLargeWord cfg b x) (le_refl _) (fun _ _ _ _ => Takes.pure trivial)

theorem takes_isubLarge (cfg : Cfg) (b : Buffer) (r : List Nat) :
    Takes (IBig.subLarge cfg b r) (7 * (b.words.length + r.length) + 16) (fun _ => True) := by
  unfold IBig.subLarge
  refine Takes.ite (fun _ => ?_) (fun _ => ?_)
  · refine Takes.bind (takes_subInPlaceWithSign _ _ _) (by omega) ?_
    rintro ⟨ws, s⟩ M1 hM1 h1
    dsimp only at h1 ⊢
    exact Takes.bind (takes_ofBuffer cfg _) (by dsimp only; omega) (fun _ _ _ _ => Takes.pure trivial)
  · exact Takes.bind (takes_usubLargeRefVal cfg r b) (by omega) (fun _ _ _ _ => Takes.pure trivial)

theorem takes_negR {x : Timed IBig} {n : Nat} (h : Takes x n (fun _ => True)) : Takes (negR x) n (fun _ => True) :=
  Takes.bind h (le_refl _) (fun _ _ _ _ => Takes.pure trivial)

theorem takes_ofUBigR {x : Timed UBig} {n : Nat} (h : Takes x n (fun _ => True)) :
    Takes (ofUBigR x) n (fun _ => True) :=
  Takes.bind h (le_refl _) (fun _ _ _ _ => Takes.pure trivial)

/-- copying an operand before -/
theorem takes_cloneThen {α : Type} {cfg : Cfg} {b : Buffer} {f : Buffer → Timed α} {n : Nat}
    (h : ∀ c : Buffer, c.words = b.words → Takes (f c) n (fun _ => True)) :
    Takes (do let c ← Buffer.clone cfg b; f c) (b.words.length + 1 + n) (fun _ => True) :=
  Takes.bind (takes_clone cfg b) (by omega) (fun c _ hM hc => (h c hc).mono (by omega) (fun _ h => h))

/-- A bound for the steps of `+` and `-` on numbers of `n` and `m` words. -/
def addCost (n m : Nat) : Nat := 13 * (n + m)

theorem addCost_comm (n m : Nat) : addCost n m = addCost m n := by unfold addCost; rw [Nat.add_comm]

section
variable {cfg : Cfg}

theorem two_le {b : Buffer} (h : UBig.WF cfg (.large b)) : 2 ≤ b.words.length :=
  Buffer.WF.two (show b.WF cfg from h)

theorem takes_uaddVV {a b : UBig} (ha : a.WF cfg) (hb : b.WF cfg) :
    Takes (UBig.addVV cfg a b) (addCost a.len b.len) (fun _ => True) := by
  unfold addCost
  cases a with
  | small x =>
    cases b with
    | small y => exact (takes_uaddWord cfg x y).mono (by show 9 ≤ 13 * (1 + 1); omega) fun _ h => h
    | large c =>
      have h2 := two_le hb
      exact (takes_uaddLargeWord cfg c x).mono (by show _ ≤ 13 * (1 + c.words.length); omega) fun _ h => h
  | large d =>
    have h1 := two_le ha
    cases b with
    | small y =>
      exact (takes_uaddLargeWord cfg d y).mono (by show _ ≤ 13 * (d.words.length + 1); omega) fun _ h => h
    | large c =>
      have h2 := two_le hb
      refine Takes.ite (fun _ => ?_) (fun _ => ?_)
      · exact (takes_uaddLarge cfg d c.words).mono
          (by show _ ≤ 13 * (d.words.length + c.words.length); omega) fun _ h => h
      · exact (takes_uaddLarge cfg c d.words).mono
          (by show _ ≤ 13 * (d.words.length + c.words.length); omega) fun _ h => h

theorem takes_uaddVR {a b : UBig} (ha : a.WF cfg) (hb : b.WF cfg) :
    Takes (UBig.addVR cfg a b) (addCost a.len b.len) (fun _ => True) := by
  unfold addCost
  cases a with
  | small x =>
    cases b with
    | small y => exact (takes_uaddWord cfg x y).mono (by show 9 ≤ 13 * (1 + 1); omega) fun _ h => h
    | large c =>
      have h2 := two_le hb
      refine Takes.mono (takes_cloneThen (n := 4 * c.words.length + 7) fun e he => ?_)
        (by show _ ≤ 13 * (1 + c.words.length); omega) fun _ h => h
      rw [← he]
      exact takes_uaddLargeWord cfg e x
  | large d =>
    have h1 := two_le ha
    cases b with
    | small y =>
      exact (takes_uaddLargeWord cfg d y).mono (by show _ ≤ 13 * (d.words.length + 1); omega) fun _ h => h
    | large c =>
      have h2 := two_le hb
      exact (takes_uaddLarge cfg d c.words).mono
        (by show _ ≤ 13 * (d.words.length + c.words.length); omega) fun _ h => h

theorem takes_uaddRR {a b : UBig} (ha : a.WF cfg) (hb : b.WF cfg) :
    Takes (UBig.addRR cfg a b) (addCost a.len b.len) (fun _ => True) := by
  unfold addCost
  cases a with
  | small x =>
    cases b with
    | small y => exact (takes_uaddWord cfg x y).mono (by show 9 ≤ 13 * (1 + 1); omega) fun _ h => h
    | large c =>
      have h2 := two_le hb
      refine Takes.mono (takes_cloneThen (n := 4 * c.words.length + 7) fun e he => ?_)
        (by show _ ≤ 13 * (1 + c.words.length); omega) fun _ h => h
      rw [← he]
      exact takes_uaddLargeWord cfg e x
  | large d =>
    have h1 := two_le ha
    cases b with
    | small y =>
      refine Takes.mono (takes_cloneThen (n := 4 * d.words.length + 7) fun e he => ?_)
        (by show _ ≤ 13 * (d.words.length + 1); omega) fun _ h => h
      rw [← he]
      exact takes_uaddLargeWord cfg e y
    | large c =>
      have h2 := two_le hb
      refine Takes.ite (fun _ => ?_) (fun _ => ?_)
      · refine Takes.mono (takes_cloneThen (n := 7 * (d.words.length + c.words.length) + 16) fun e he => ?_)
          (by show _ ≤ 13 * (d.words.length + c.words.length); omega) fun _ h => h
        rw [← he]
        exact takes_uaddLarge cfg e _
      · refine Takes.mono (takes_cloneThen (n := 7 * (c.words.length + d.words.length) + 16) fun e he => ?_)
          (by show _ ≤ 13 * (d.words.length + c.words.length); omega) fun _ h => h
        rw [← he]
        exact takes_uaddLarge cfg e _

theorem takes_uadd (o1 o2 : Own) {a b : UBig} (ha : a.WF cfg) (hb : b.WF cfg) :
    Takes (UBig.add cfg o1 o2 a b) (addCost a.len b.len) (fun _ => True) := by
  cases o1 <;> cases o2
  · exact takes_uaddVV ha hb
  · exact takes_uaddVR ha hb
  · rw [addCost_comm]; exact takes_uaddVR hb ha
  · exact takes_uaddRR ha hb

theorem takes_usub (o1 o2 : Own) {a b : UBig} (ha : a.WF cfg) (hb : b.WF cfg) :
    Takes (UBig.sub cfg o1 o2 a b) (addCost a.len b.len) (fun _ => True) := by
  unfold addCost
  have word : ∀ x y, Takes (UBig.subWord x y) (13 * (1 + 1)) (fun _ => True) := fun x y =>
    Takes.ite (fun _ => Takes.pure trivial) (fun _ => Takes.throwT)
  cases a with
  | small x =>
    cases b with
    | small y => cases o1 <;> cases o2 <;> exact word x y
    | large c => cases o1 <;> cases o2 <;> exact Takes.throwT
  | large d =>
    have h1 := two_le ha
    cases b with
    | small y =>
      have v : Takes (UBig.subLargeWord cfg d y) (13 * (d.words.length + 1)) (fun _ => True) :=
        (takes_usubLargeWord cfg d y).mono (by omega) fun _ h => h
      have r : Takes (do let c ← Buffer.clone cfg d; UBig.subLargeWord cfg c y) (13 * (d.words.length + 1))
          (fun _ => True) := by
        refine Takes.mono (takes_cloneThen (n := 4 * d.words.length + 7) fun e he => ?_) (by omega) fun _ h => h
        rw [← he]
        exact takes_usubLargeWord cfg e y
      cases o1 <;> cases o2
      · exact v
      · exact v
      · exact r
      · exact r
    | large c =>
      have h2 := two_le hb
      have v : Takes (UBig.subLarge cfg d c.words) (13 * (d.words.length + c.words.length)) (fun _ => True) :=
        (takes_usubLarge cfg d c.words).mono (by omega) fun _ h => h
      cases o1 <;> cases o2
      · exact v
      · exact v
      · exact (takes_usubLargeRefVal cfg d.words c).mono
          (by show _ ≤ 13 * (d.words.length + c.words.length); omega) fun _ h => h
      · refine Takes.mono (takes_cloneThen (n := 7 * (d.words.length + c.words.length) + 16) fun e he => ?_)
          (by show _ ≤ 13 * (d.words.length + c.words.length); omega) fun _ h => h
        rw [← he]
        exact takes_usubLarge cfg e _

theorem takes_isubVV {a b : UBig} (ha : a.WF cfg) (hb : b.WF cfg) :
    Takes (IBig.subUBigVV cfg a b) (addCost a.len b.len) (fun _ => True) := by
  unfold addCost
  cases a with
  | small x =>
    cases b with
    | small y => exact Takes.pure trivial
    | large c =>
      have h2 := two_le hb
      exact (takes_negR (takes_isubLargeWord cfg c x)).mono
        (by show _ ≤ 13 * (1 + c.words.length); omega) fun _ h => h
  | large d =>
    have h1 := two_le ha
    cases b with
    | small y =>
      exact (takes_isubLargeWord cfg d y).mono (by show _ ≤ 13 * (d.words.length + 1); omega) fun _ h => h
    | large c =>
      have h2 := two_le hb
      refine Takes.ite (fun _ => ?_) (fun _ => ?_)
      · exact (takes_isubLarge cfg d c.words).mono
          (by show _ ≤ 13 * (d.words.length + c.words.length); omega) fun _ h => h
      · exact (takes_negR (takes_isubLarge cfg c d.words)).mono
          (by show _ ≤ 13 * (d.words.length + c.words.length); omega) fun _ h => h

theorem takes_isubVR {a b : UBig} (ha : a.WF cfg) (hb : b.WF cfg) :
    Takes (IBig.subUBigVR cfg a b) (addCost a.len b.len) (fun _ => True) := by
  unfold addCost
  cases a with
  | small x =>
    cases b with
    | small y => exact Takes.pure trivial
    | large c =>
      have h2 := two_le hb
      refine Takes.mono (takes_cloneThen (n := 4 * c.words.length + 7) fun e he => ?_)
        (by show _ ≤ 13 * (1 + c.words.length); omega) fun _ h => h
      rw [← he]
      exact takes_negR (takes_isubLargeWord cfg e x)
  | large d =>
    have h1 := two_le ha
    cases b with
    | small y =>
      exact (takes_isubLargeWord cfg d y).mono (by show _ ≤ 13 * (d.words.length + 1); omega) fun _ h => h
    | large c =>
      have h2 := two_le hb
      exact (takes_isubLarge cfg d c.words).mono
        (by show _ ≤ 13 * (d.words.length + c.words.length); omega) fun _ h => h

theorem takes_isubRR {a b : UBig} (ha : a.WF cfg) (hb : b.WF cfg) :
    Takes (IBig.subUBigRR cfg a b) (addCost a.len b.len) (fun _ => True) := by
  unfold addCost
  cases a with
  | small x =>
    cases b with
    | small y => exact Takes.pure trivial
    | large c =>
      have h2 := two_le hb
      refine Takes.mono (takes_cloneThen (n := 4 * c.words.length + 7) fun e he => ?_)
        (by show _ ≤ 13 * (1 + c.words.length); omega) fun _ h => h
      rw [← he]
      exact takes_negR (takes_isubLargeWord cfg e x)
  | large d =>
    have h1 := two_le ha
    cases b with
    | small y =>
      refine Takes.mono (takes_cloneThen (n := 4 * d.words.length + 7) fun e he => ?_)
        (by show _ ≤ 13 * (d.words.length + 1); omega) fun _ h => h
      rw [← he]
      exact takes_isubLargeWord cfg e y
    | large c =>
      have h2 := two_le hb
      refine Takes.ite (fun _ => ?_) (fun _ => ?_)
      · refine Takes.mono (takes_cloneThen (n := 7 * (d.words.length + c.words.length) + 16) fun e he => ?_)
          (by show _ ≤ 13 * (d.words.length + c.words.length); omega) fun _ h => h
        rw [← he]
        exact takes_isubLarge cfg e _
      · refine Takes.mono (takes_cloneThen (n := 7 * (c.words.length + d.words.length) + 16) fun e he => ?_)
          (by show _ ≤ 13 * (d.words.length + c.words.length); omega) fun _ h => h
        rw [← he]
        exact takes_negR (takes_isubLarge cfg e _)

theorem takes_iaddVV {x y : IBig} (ha : x.mag.WF cfg) (hb : y.mag.WF cfg) :
    Takes (IBig.addVV cfg x y) (addCost x.mag.len y.mag.len) (fun _ => True) := by
  rcases x with ⟨s, a⟩
  rcases y with ⟨t, b⟩
  cases s <;> cases t
  · exact takes_ofUBigR (takes_uadd _ _ ha hb)
  · exact takes_isubVV ha hb
  · rw [addCost_comm]; exact takes_isubVV hb ha
  · exact takes_negR (takes_ofUBigR (takes_uadd _ _ ha hb))

theorem takes_iaddVR {x y : IBig} (ha : x.mag.WF cfg) (hb : y.mag.WF cfg) :
    Takes (IBig.addVR cfg x y) (addCost x.mag.len y.mag.len) (fun _ => True) := by
  rcases x with ⟨s, a⟩
  rcases y with ⟨t, b⟩
  cases s <;> cases t
  · exact takes_ofUBigR (takes_uadd _ _ ha hb)
  · exact takes_isubVR ha hb
  · exact takes_negR (takes_isubVR ha hb)
  · exact takes_negR (takes_ofUBigR (takes_uadd _ _ ha hb))

theorem takes_iaddRR {x y : IBig} (ha : x.mag.WF cfg) (hb : y.mag.WF cfg) :
    Takes (IBig.addRR cfg x y) (addCost x.mag.len y.mag.len) (fun _ => True) := by
  rcases x with ⟨s, a⟩
  rcases y with ⟨t, b⟩
  cases s <;> cases t
  · exact takes_ofUBigR (takes_uadd _ _ ha hb)
  · exact takes_isubRR ha hb
  · rw [addCost_comm]; exact takes_isubRR hb ha
  · exact takes_negR (takes_ofUBigR (takes_uadd _ _ ha hb))

theorem takes_iadd (o1 o2 : Own) {x y : IBig} (ha : x.mag.WF cfg) (hb : y.mag.WF cfg) :
    Takes (IBig.add cfg o1 o2 x y) (addCost x.mag.len y.mag.len) (fun _ => True) := by
  cases o1 <;> cases o2
  · exact takes_iaddVV ha hb
  · exact takes_iaddVR ha hb
  · rw [addCost_comm]; exact takes_iaddVR hb ha
  · exact takes_iaddRR ha hb

theorem takes_isubRRop {x y : IBig} (ha : x.mag.WF cfg) (hb : y.mag.WF cfg) :
    Takes (IBig.subRR cfg x y) (addCost x.mag.len y.mag.len) (fun _ => True) := by
  rcases x with ⟨s, a⟩
  rcases y with ⟨t, b⟩
  cases s <;> cases t
  · exact takes_isubRR ha hb
  · exact takes_ofUBigR (takes_uadd _ _ ha hb)
  · exact takes_negR (takes_ofUBigR (takes_uadd _ _ ha hb))
  · rw [addCost_comm]; exact takes_isubRR hb ha

theorem neg_mag (x : IBig) : x.neg.mag = x.mag := by
  rcases x with ⟨s, a⟩
  cases s <;> (unfold Ibig.IBig.neg Ibig.IBig.fromSignMagnitude; split <;> rfl)

theorem takes_isub (o1 o2 : Own) {x y : IBig} (ha : x.mag.WF cfg) (hb : y.mag.WF cfg) :
    Takes (IBig.sub cfg o1 o2 x y) (addCost x.mag.len y.mag.len) (fun _ => True) := by
  cases o1 <;> cases o2
  · rw [← neg_mag y] at hb ⊢
    exact takes_iadd .val .val ha hb
  · rw [← neg_mag x] at ha ⊢
    exact takes_negR (takes_iadd .val .ref ha hb)
  · rw [← neg_mag y] at hb ⊢
    exact takes_iadd .ref .val ha hb
  · exact takes_isubRRop ha hb

end

end Ibig.Timed
