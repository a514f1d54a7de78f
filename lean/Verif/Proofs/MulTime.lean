import Verif.Model.MulTime
import Verif.Proofs.Timed
/-!
The counting multiplication returns what the multiplication of the model returns.
-/
namespace Ibig.Timed

/-- The step counting function returns what the other returns. -/
def Erases (f : MulFn) (g : Ibig.MulFn) : Prop :=
  ∀ c sign a b mem, (f c sign a b mem).result = g c sign a b mem

syntax "erase_pass" : tactic
macro_rules
  | `(tactic| erase_pass) => `(tactic| first
      | with_reducible exact addSignedSameLen_result _ _ _ _
      | with_reducible exact addSignedInPlace_result _ _ _ _
      | with_reducible exact addSignedWord_result _ _ _
      | with_reducible exact addSameLen_result _ _ _
      | with_reducible exact subSameLen_result _ _ _
      | with_reducible exact addInPlace_result _ _ _
      | with_reducible exact subInPlace_result _ _ _
      | with_reducible exact subInPlaceWithSign_result _ _ _
      | with_reducible exact addMulWordSameLen_result _ _ _ _
      | with_reducible exact subMulWordSameLen_result _ _ _ _
      | with_reducible exact addMulWord_result _ _ _ _
      | with_reducible exact addWord_result _ _ _
      | with_reducible exact subWord_result _ _ _
      | with_reducible exact divByWord_result _ _ _
      | with_reducible exact shrInPlace_result _ _ _
      | with_reducible exact shlInPlace_result _ _ _
      | with_reducible exact mulWord_result _ _ _
      | with_reducible exact addOne_result _ _
      | with_reducible exact subOne_result _ _
      | exact result_pass _ _)

syntax "erase_leaf" : tactic
macro_rules
  | `(tactic| erase_leaf) => `(tactic| first
      | erase_pass
      | exact result_onSlice _ _ _ (fun _ => by erase_pass))

theorem addMulChunkLoop_result (W : Nat) (a : List Nat) (b : List Nat) :
    ∀ c i carry, (addMulChunkLoop W a c i b carry).result = Ibig.addMulChunkLoop W a c i b carry := by
  induction b with
  | nil => intro c i carry; rfl
  | cons m bs ih =>
    intro c i carry
    rw [addMulChunkLoop, Ibig.addMulChunkLoop]
    refine result_bind (by erase_leaf) ?_
    rintro ⟨c, k⟩
    refine result_bind (by erase_leaf) (fun x => ?_)
    refine result_bind (by erase_leaf) (fun c => ?_)
    exact ih _ _ _

theorem subMulChunkLoop_result (W : Nat) (a : List Nat) (b : List Nat) :
    ∀ c i carry, (subMulChunkLoop W a c i b carry).result = Ibig.subMulChunkLoop W a c i b carry := by
  induction b with
  | nil => intro c i carry; rfl
  | cons m bs ih =>
    intro c i carry
    rw [subMulChunkLoop, Ibig.subMulChunkLoop]
    refine result_bind (by erase_leaf) ?_
    rintro ⟨c, k⟩
    refine result_bind (by erase_leaf) (fun x => ?_)
    refine result_bind (by erase_leaf) (fun c => ?_)
    exact ih _ _ _

theorem addMulChunk_result (W : Nat) (c a b : List Nat) :
    (addMulChunk W c a b).result = Ibig.addMulChunk W c a b := by
  refine result_bind (by erase_leaf) (fun _ => ?_)
  refine result_bind (by erase_leaf) (fun _ => ?_)
  exact addMulChunkLoop_result _ _ _ _ _ _

theorem subMulChunk_result (W : Nat) (c a b : List Nat) :
    (subMulChunk W c a b).result = Ibig.subMulChunk W c a b := by
  refine result_bind (by erase_leaf) (fun _ => ?_)
  refine result_bind (by erase_leaf) (fun _ => ?_)
  exact subMulChunkLoop_result _ _ _ _ _ _

theorem simpleMulChunk_erases (W : Nat) : Erases (simpleMulChunk W) (Ibig.simpleMulChunk W) := by
  intro c sign a b mem
  refine result_bind (by erase_leaf) (fun _ => ?_)
  refine result_bind (by erase_leaf) (fun _ => ?_)
  cases sign
  · refine result_bind (addMulChunk_result _ _ _ _) ?_
    rintro ⟨c, k⟩
    rfl
  · refine result_bind (subMulChunk_result _ _ _ _) ?_
    rintro ⟨c, k⟩
    rfl

theorem simpleMulSameLen_erases (W : Nat) : Erases (simpleMulSameLen W) (Ibig.simpleMulSameLen W) := by
  intro c sign a b mem
  refine result_bind (by erase_leaf) (fun _ => ?_)
  refine result_bind (by erase_leaf) (fun _ => ?_)
  exact simpleMulChunk_erases W _ _ _ _ _

theorem splitChunksLoop_result (W chunkLen : Nat) {f : MulFn} {g : Ibig.MulFn} (hf : Erases f g) (sign : Sign)
    (b : List Nat) (mem : Nat) (fuel : Nat) :
    ∀ c off a k, (splitChunksLoop W chunkLen f sign b mem fuel c off a k).result =
      Ibig.splitChunksLoop W chunkLen g sign b mem fuel c off a k := by
  induction fuel with
  | zero => intro c off a k; rfl
  | succ fuel ih =>
    intro c off a k
    rw [splitChunksLoop, Ibig.splitChunksLoop]
    by_cases h : chunkLen ≤ a.length
    · rw [if_pos h, if_pos h]
      refine result_bind (by erase_leaf) ?_
      rintro ⟨aLo, aHi⟩
      refine result_bind (by erase_leaf) ?_
      rintro ⟨c, k1⟩
      refine result_bind (result_onSlice _ _ _ fun s => hf _ _ _ _ _) ?_
      rintro ⟨c, k2⟩
      refine result_bind (by erase_leaf) (fun _ => ?_)
      exact ih _ _ _ _
    · rw [if_neg h, if_neg h]
      rfl

theorem splitIntoChunks_erases (W : Nat) {mT : MulFn} {m : Ibig.MulFn} (hm : Erases mT m) (chunkLen : Nat)
    {f : MulFn} {g : Ibig.MulFn} (hf : Erases f g) :
    Erases (splitIntoChunks W mT chunkLen f) (Ibig.splitIntoChunks W m chunkLen g) := by
  intro c sign a b mem
  refine result_bind (by erase_leaf) (fun _ => ?_)
  refine result_bind (by erase_leaf) (fun _ => ?_)
  refine result_bind (splitChunksLoop_result W chunkLen hf _ _ _ _ _ _ _ _) ?_
  rintro ⟨c, off, a, k⟩
  refine result_bind (by erase_leaf) ?_
  rintro ⟨c, carry⟩
  dsimp only
  by_cases h : b.length ≤ a.length
  · rw [if_pos h, if_pos h]
    refine result_bind (result_onSlice _ _ _ fun s => hm _ _ _ _ _) ?_
    rintro ⟨c, k2⟩
    exact result_bind (by erase_leaf) (fun _ => rfl)
  · rw [if_neg h, if_neg h]
    by_cases h' : a ≠ []
    · rw [if_pos h', if_pos h']
      refine result_bind (result_onSlice _ _ _ fun s => hm _ _ _ _ _) ?_
      rintro ⟨c, k2⟩
      exact result_bind (by erase_leaf) (fun _ => rfl)
    · rw [if_neg h', if_neg h']
      rfl

theorem simpleMul_erases (W : Nat) {mT : MulFn} {m : Ibig.MulFn} (hm : Erases mT m) :
    Erases (simpleMul W mT) (Ibig.simpleMul W m) := by
  intro c sign a b mem
  refine result_bind (by erase_leaf) (fun _ => ?_)
  refine result_bind (by erase_leaf) (fun _ => ?_)
  by_cases h : a.length ≤ mulChunkLen
  · rw [if_pos h, if_pos h]
    exact simpleMulChunk_erases W _ _ _ _ _
  · rw [if_neg h, if_neg h]
    exact splitIntoChunks_erases W hm _ (simpleMulChunk_erases W) _ _ _ _ _

theorem karatsubaSameLen_erases (W : Nat) {mT : MulFn} {m : Ibig.MulFn} (hm : Erases mT m) :
    Erases (karatsubaSameLen W mT) (Ibig.karatsubaSameLen W m) := by
  intro c sign a b mem
  unfold karatsubaSameLen Ibig.karatsubaSameLen
  repeat'
    first
    | (refine result_bind (by erase_pass) (fun (p : _ × _) => ?_); obtain ⟨_, _⟩ := p)
    | (refine result_bind (by erase_pass) (fun _ => ?_))
    | (refine result_bind (result_onSlice _ _ _ fun s => by erase_pass) ?_; rintro ⟨_, _⟩)
    | (refine result_bind (result_onSlice _ _ _ fun s => hm _ _ _ _ _) ?_; rintro ⟨_, _⟩)
    | (refine result_bind (hm _ _ _ _ _) ?_; rintro ⟨_, _⟩)
  all_goals rfl

/-- go through the steps of two texts that differ in the counting only -/
syntax "erase_steps" term : tactic
macro_rules
  | `(tactic| erase_steps $h) => `(tactic|
    (repeat'
      first
      | (refine result_bind (by erase_pass) (fun (p : _ × _) => ?_); obtain ⟨_, _⟩ := p)
      | (refine result_bind (by erase_pass) (fun _ => ?_))
      | (refine result_bind (result_onSlice _ _ _ fun s => by erase_pass) ?_; rintro ⟨_, _⟩)
      | (refine result_bind (result_onSlice _ _ _ fun s => $h _ _ _ _ _) ?_; rintro ⟨_, _⟩)
      | (refine result_bind ($h _ _ _ _ _) ?_; rintro ⟨_, _⟩)))

theorem toom3Eval2_result (W : Nat) (eval : List Nat) (n3 : Nat) (x1 x2 : List Nat) :
    (toom3SameLen.toom3Eval2 W eval n3 x1 x2).result = Ibig.toom3SameLen.toom3Eval2 W eval n3 x1 x2 := by
  unfold toom3SameLen.toom3Eval2 Ibig.toom3SameLen.toom3Eval2
  erase_steps id
  erase_pass

theorem toom3Eval1_result (W : Nat) (eval : List Nat) (n3 : Nat) (x1 x2 : List Nat) :
    (toom3SameLen.toom3Eval1 W eval n3 x1 x2).result = Ibig.toom3SameLen.toom3Eval1 W eval n3 x1 x2 := by
  unfold toom3SameLen.toom3Eval1 Ibig.toom3SameLen.toom3Eval1
  erase_steps id
  rfl

theorem toom3AddNeg1_result (W : Nat) (t1 : List Nat) (s : Sign) (c : List Nat) :
    (toom3SameLen.toom3AddNeg1 W t1 s c).result = Ibig.toom3SameLen.toom3AddNeg1 W t1 s c := by
  cases s
  · exact addMulWordSameLen_result _ _ _ _
  · exact subMulWordSameLen_result _ _ _ _

theorem toom3Finish_result (W : Nat) (c : List Nat) (sign : Sign) (n3 : Nat) (t1 t2 : List Nat) (k0 k1 k2 k : Int) :
    (toom3SameLen.toom3Finish W c sign n3 t1 t2 k0 k1 k2 k).result =
      Ibig.toom3SameLen.toom3Finish W c sign n3 t1 t2 k0 k1 k2 k := by
  unfold toom3SameLen.toom3Finish Ibig.toom3SameLen.toom3Finish
  erase_steps id
  rfl

section
variable (W : Nat) {mT : MulFn} {m : Ibig.MulFn} (hm : Erases mT m)
include hm

theorem toom3Zero_result (c : List Nat) (sign : Sign) (n3 : Nat) (t1 a0 b0 : List Nat) (mem : Nat) :
    (toom3SameLen.toom3Zero W mT c sign n3 t1 a0 b0 mem).result =
      Ibig.toom3SameLen.toom3Zero W m c sign n3 t1 a0 b0 mem := by
  unfold toom3SameLen.toom3Zero Ibig.toom3SameLen.toom3Zero
  erase_steps hm
  dsimp only
  refine (result_bind_ok (mulWord_result _ _ _) _).trans ?_
  rfl

theorem toom3Two_result (n3 : Nat) (t1 a_eval b_eval a1 a2 b1 b2 : List Nat) (mem : Nat) :
    (toom3SameLen.toom3Two W mT n3 t1 a_eval b_eval a1 a2 b1 b2 mem).result =
      Ibig.toom3SameLen.toom3Two W m n3 t1 a_eval b_eval a1 a2 b1 b2 mem := by
  unfold toom3SameLen.toom3Two Ibig.toom3SameLen.toom3Two
  refine result_bind (toom3Eval2_result _ _ _ _ _) (fun _ => ?_)
  refine result_bind (toom3Eval2_result _ _ _ _ _) (fun _ => ?_)
  erase_steps hm
  rfl

theorem toom3Inf_result (c : List Nat) (sign : Sign) (n3 n3_short : Nat) (t1 a2 b2 : List Nat) (mem : Nat) :
    (toom3SameLen.toom3Inf W mT c sign n3 n3_short t1 a2 b2 mem).result =
      Ibig.toom3SameLen.toom3Inf W m c sign n3 n3_short t1 a2 b2 mem := by
  unfold toom3SameLen.toom3Inf Ibig.toom3SameLen.toom3Inf
  erase_steps hm
  dsimp only
  refine (result_bind_ok (mulWord_result _ _ _) _).trans ?_
  generalize Ibig.mulWord W _ 12 = p
  obtain ⟨_, _⟩ := p
  erase_steps hm
  rfl

theorem toom3One_result (c : List Nat) (sign : Sign) (n3 : Nat) (t2 a0 a1 a2 b0 b1 b2 : List Nat) (mem : Nat) :
    (toom3SameLen.toom3One W mT c sign n3 t2 a0 a1 a2 b0 b1 b2 mem).result =
      Ibig.toom3SameLen.toom3One W m c sign n3 t2 a0 a1 a2 b0 b1 b2 mem := by
  unfold toom3SameLen.toom3One Ibig.toom3SameLen.toom3One
  refine result_bind (by erase_pass) ?_
  rintro ⟨_, _⟩
  refine result_bind (toom3Eval1_result _ _ _ _ _) ?_
  rintro ⟨_, _⟩
  refine result_bind (by erase_pass) ?_
  rintro ⟨_, _⟩
  refine result_bind (toom3Eval1_result _ _ _ _ _) ?_
  rintro ⟨_, _⟩
  erase_steps hm
  rfl

theorem toom3NegOne_result (n3 : Nat) (t1 t2 a02 a1 b02 b1 : List Nat) (mem : Nat) :
    (toom3SameLen.toom3NegOne W mT n3 t1 t2 a02 a1 b02 b1 mem).result =
      Ibig.toom3SameLen.toom3NegOne W m n3 t1 t2 a02 a1 b02 b1 mem := by
  unfold toom3SameLen.toom3NegOne Ibig.toom3SameLen.toom3NegOne
  iterate 3
    refine result_bind (by erase_pass) ?_
    rintro ⟨_, _⟩
  refine result_bind (hm _ _ _ _ _) ?_
  rintro ⟨_, _⟩
  refine result_bind (by erase_pass) (fun _ => ?_)
  refine result_bind (by erase_pass) ?_
  rintro ⟨_, _⟩
  refine result_bind (by erase_pass) (fun _ => ?_)
  refine result_bind (toom3AddNeg1_result _ _ _ _) ?_
  rintro ⟨_, _⟩
  erase_steps hm
  rfl

theorem toom3SameLen_erases : Erases (toom3SameLen W mT) (Ibig.toom3SameLen W m) := by
  intro c sign a b mem
  unfold toom3SameLen Ibig.toom3SameLen
  refine result_bind (by erase_pass) (fun _ => ?_)
  refine result_bind (by erase_pass) (fun _ => ?_)
  refine result_bind (by erase_pass) (fun _ => ?_)
  iterate 5
    refine result_bind (by erase_pass) ?_
    rintro ⟨_, _⟩
  refine result_bind (toom3Zero_result W hm _ _ _ _ _ _ _) ?_
  rintro ⟨_, _, _, _⟩
  iterate 2
    refine result_bind (by erase_pass) ?_
    rintro ⟨_, _⟩
  refine result_bind (toom3Two_result W hm _ _ _ _ _ _ _ _ _) (fun _ => ?_)
  refine result_bind (toom3Inf_result W hm _ _ _ _ _ _ _ _) ?_
  rintro ⟨_, _, _, _⟩
  refine result_bind (by erase_pass) (fun _ => ?_)
  refine result_bind (by erase_pass) ?_
  rintro ⟨_, _⟩
  refine result_bind (toom3One_result W hm _ _ _ _ _ _ _ _ _ _ _) ?_
  rintro ⟨_, _, _, _, _⟩
  refine result_bind (toom3NegOne_result W hm _ _ _ _ _ _ _ _) ?_
  rintro ⟨_, _⟩
  exact toom3Finish_result _ _ _ _ _ _ _ _ _ _

end

theorem mulSameLen_erases (W fuel : Nat) : Erases (mulSameLen W fuel) (Ibig.mulSameLen W fuel) := by
  induction fuel with
  | zero => intro c sign a b mem; rfl
  | succ fuel ih =>
    intro c sign a b mem
    rw [mulSameLen, Ibig.mulSameLen]
    refine result_bind (by erase_pass) (fun _ => ?_)
    by_cases h : a.length ≤ mulMaxLenSimple
    · rw [if_pos h, if_pos h]
      exact simpleMulSameLen_erases W _ _ _ _ _
    · rw [if_neg h, if_neg h]
      by_cases h' : a.length ≤ mulMaxLenKaratsuba
      · rw [if_pos h', if_pos h']
        exact karatsubaSameLen_erases W ih _ _ _ _ _
      · rw [if_neg h', if_neg h']
        exact toom3SameLen_erases W ih _ _ _ _ _

theorem addSignedMulFuel_erases (W fuel : Nat) :
    Erases (addSignedMulFuel W fuel) (Ibig.addSignedMulFuel W fuel) := by
  induction fuel with
  | zero => intro c sign a b mem; rfl
  | succ fuel ih =>
    intro c sign a b mem
    rw [addSignedMulFuel, Ibig.addSignedMulFuel]
    refine result_bind (by erase_pass) (fun _ => ?_)
    generalize (if a.length < b.length then (b, a) else (a, b)) = ab
    rcases ab with ⟨a, b⟩
    dsimp only
    by_cases h : b.length ≤ mulMaxLenSimple
    · rw [if_pos h, if_pos h]
      exact simpleMul_erases W ih _ _ _ _ _
    · rw [if_neg h, if_neg h]
      by_cases h' : b.length ≤ mulMaxLenKaratsuba
      · rw [if_pos h', if_pos h']
        refine result_bind (by erase_pass) (fun _ => ?_)
        exact splitIntoChunks_erases W ih _ (karatsubaSameLen_erases W (mulSameLen_erases W fuel)) _ _ _ _ _
      · rw [if_neg h', if_neg h']
        refine result_bind (by erase_pass) (fun _ => ?_)
        exact splitIntoChunks_erases W ih _ (toom3SameLen_erases W (mulSameLen_erases W fuel)) _ _ _ _ _

/-- the counting multiplication returns what the multiplication returns -/
theorem addSignedMul_erases (W : Nat) : Erases (addSignedMul W) (Ibig.addSignedMul W) :=
  fun _ _ _ _ _ => addSignedMulFuel_erases W _ _ _ _ _ _

end Ibig.Timed
