import Verif.Proofs.PowTime
import Verif.Proofs.ParseEntry
import Verif.Model.ParseTime
/-!
The counting functions of Model/ParseTime.lean return what the functions of the model return.
-/
namespace Ibig.Timed

theorem tryP_result {α β : Type} {x : Timed (PRes α)} {y : R (PRes α)} {f : α → Timed (PRes β)}
    {g : α → R (PRes β)} (hx : x.result = y) (hf : ∀ a, (f a).result = g a) :
    (tryP x f).result = Ibig.tryP y g := by
  unfold tryP Ibig.tryP
  refine result_bind hx ?_
  rintro (e | a)
  · rfl
  · exact hf a

theorem okP_result {α : Type} {x : Timed α} {y : R α} (hx : x.result = y) : (okP x).result = Ibig.okP y :=
  result_bind hx fun _ => rfl

theorem pow2WordLoop_result (W radix : Nat) (l : List Nat) : ∀ word bits,
    (pow2WordLoop W radix l word bits).result = Ibig.pow2WordLoop W radix l word bits := by
  induction l with
  | nil => intro _ _; rfl
  | cons c l ih =>
    intro word bits
    rw [pow2WordLoop, Ibig.pow2WordLoop]
    refine tryP_result (result_pass _ _) fun d => ?_
    exact result_bind (result_pass _ _) fun _ => result_bind (result_pass _ _) fun _ => ih _ _

theorem pow2ParseWord_result (W radix : Nat) (l : List Nat) :
    (pow2ParseWord W radix l).result = Ibig.pow2ParseWord W radix l :=
  result_bind (result_pass _ _) fun _ => result_bind (result_pass _ _) fun _ =>
    result_bind (result_pass _ _) fun _ => pow2WordLoop_result _ _ _ _ _

theorem pow2Step_result (W radix d : Nat) (s : Buffer × Nat × Nat) :
    (pow2Step W radix d s).result = Ibig.pow2Step W radix d s := by
  unfold pow2Step Ibig.pow2Step
  refine result_bind (result_pass _ _) fun _ => result_bind (result_pass _ _) fun _ => ?_
  refine result_ite (fun _ => ?_) (fun _ => rfl)
  exact result_bind (result_pass _ _) fun _ => result_bind (result_pass _ _) fun _ =>
    result_bind (result_pass _ _) fun _ => rfl

theorem pow2LargeLoop_result (W radix : Nat) (l : List Nat) : ∀ s,
    (pow2LargeLoop W radix l s).result = Ibig.pow2LargeLoop W radix l s := by
  induction l with
  | nil => intro _; rfl
  | cons c l ih =>
    intro s
    rw [pow2LargeLoop, Ibig.pow2LargeLoop]
    exact tryP_result (result_pass _ _) fun d => result_bind (pow2Step_result _ _ _ _) fun _ => ih _

theorem pow2Finish_result (cfg : Cfg) (s : Buffer × Nat × Nat) :
    (pow2Finish cfg s).result = Ibig.pow2Finish cfg s :=
  result_ite (fun _ => result_bind (result_pass _ _) fun _ => result_pass _ _) (fun _ => result_pass _ _)

theorem pow2ParseLarge_result (cfg : Cfg) (radix : Nat) (l : List Nat) :
    (pow2ParseLarge cfg radix l).result = Ibig.pow2ParseLarge cfg radix l := by
  unfold pow2ParseLarge Ibig.pow2ParseLarge
  refine result_bind (result_pass _ _) fun _ => result_ite (fun _ => rfl) (fun _ => ?_)
  refine result_bind (result_pass _ _) fun _ => result_bind (result_pass _ _) fun _ => ?_
  exact tryP_result (pow2LargeLoop_result _ _ _ _) fun s => okP_result (pow2Finish_result _ _)

theorem pow2Parse_result (cfg : Cfg) (radix : Nat) (l : List Nat) :
    (pow2Parse cfg radix l).result = Ibig.pow2Parse cfg radix l := by
  unfold pow2Parse Ibig.pow2Parse
  refine result_bind (result_pass _ _) fun _ => result_bind (result_pass _ _) fun _ => ?_
  exact result_ite (fun _ => tryP_result (pow2ParseWord_result _ _ _) fun _ => rfl)
    (fun _ => pow2ParseLarge_result _ _ _)

theorem npWordLoop_result (W radix : Nat) (l : List Nat) : ∀ word,
    (npWordLoop W radix l word).result = Ibig.npWordLoop W radix l word := by
  induction l with
  | nil => intro _; rfl
  | cons c l ih =>
    intro word
    rw [npWordLoop, Ibig.npWordLoop]
    refine tryP_result (result_pass _ _) fun d => ?_
    exact result_bind (result_pass _ _) fun _ => result_bind (result_pass _ _) fun _ => ih _

theorem npParseWord_result (W radix : Nat) (l : List Nat) :
    (npParseWord W radix l).result = Ibig.npParseWord W radix l :=
  result_bind (result_pass _ _) fun _ => result_bind (result_pass _ _) fun _ =>
    result_bind (result_pass _ _) fun _ => npWordLoop_result _ _ _ _

theorem npChunkStep_result (W range next : Nat) (b : Buffer) :
    (npChunkStep W range next b).result = Ibig.npChunkStep W range next b := by
  unfold npChunkStep Ibig.npChunkStep mulWordWithCarry
  refine (result_bind_ok (mulWordLoop_result _ _ _ _) _).trans ?_
  generalize Ibig.mulWordLoop W range b.words next = p
  obtain ⟨ws, c⟩ := p
  exact result_ite (fun _ => result_pass _ _) (fun _ => rfl)

theorem npChunkLoop_result (W radix range : Nat) (gs : List (List Nat)) : ∀ b,
    (npChunkLoop W radix range gs b).result = Ibig.npChunkLoop W radix range gs b := by
  induction gs with
  | nil => intro _; rfl
  | cons g gs ih =>
    intro b
    rw [npChunkLoop, Ibig.npChunkLoop]
    exact tryP_result (npParseWord_result _ _ _) fun d => result_bind (npChunkStep_result _ _ _ _) fun _ => ih _

theorem npParseChunk_result (cfg : Cfg) (radix : Nat) (l : List Nat) :
    (npParseChunk cfg radix l).result = Ibig.npParseChunk cfg radix l := by
  unfold npParseChunk Ibig.npParseChunk
  refine result_bind (result_pass _ _) fun _ => result_bind (result_pass _ _) fun _ => ?_
  refine result_bind (result_pass _ _) fun _ => result_bind (result_pass _ _) fun _ => ?_
  exact tryP_result (npChunkLoop_result _ _ _ _ _) fun s => okP_result (result_pass _ _)

theorem npPowersLoop_result (cfg : Cfg) (cb len fuel : Nat) : ∀ ps,
    (npPowersLoop cfg cb len fuel ps).result = Ibig.npPowersLoop cfg cb len fuel ps := by
  induction fuel with
  | zero => intro _; rfl
  | succ fuel ih =>
    intro ps
    unfold npPowersLoop Ibig.npPowersLoop
    refine result_bind (result_pass _ _) fun _ => result_bind (result_pass _ _) fun _ => ?_
    refine result_ite (fun _ => ?_) (fun _ => rfl)
    cases ps with
    | nil => rfl
    | cons p ps => exact result_bind (UBig.mul_result _ _ _ _ _) fun _ => ih _

theorem npDivideConquer_result (cfg : Cfg) (radix cb : Nat) (ps : List UBig) : ∀ l,
    (npDivideConquer cfg radix cb ps l).result = Ibig.npDivideConquer cfg radix cb ps l := by
  induction ps with
  | nil =>
    intro l
    rw [npDivideConquer, Ibig.npDivideConquer]
    refine result_bind (result_pass _ _) fun _ => result_bind (result_pass _ _) fun _ => npParseChunk_result _ _ _
  | cons p ps ih =>
    intro l
    rw [npDivideConquer, Ibig.npDivideConquer]
    refine result_bind (result_pass _ _) fun _ => result_bind (result_pass _ _) fun _ => ?_
    refine result_bind (result_pass _ _) fun _ => result_ite (fun _ => ih _) (fun _ => ?_)
    refine result_bind (result_pass _ _) ?_
    rintro ⟨hi, lo⟩
    refine tryP_result (ih _) fun a => tryP_result (ih _) fun b => okP_result ?_
    exact result_bind (UBig.mul_result _ _ _ _ _) fun _ => UBig.add_result _ _ _ _ _

theorem npParseLarge_result (cfg : Cfg) (radix : Nat) (l : List Nat) :
    (npParseLarge cfg radix l).result = Ibig.npParseLarge cfg radix l := by
  unfold npParseLarge Ibig.npParseLarge
  refine result_bind (result_pass _ _) fun _ => result_bind (result_pass _ _) fun _ => ?_
  refine result_bind (result_pass _ _) fun _ => result_bind (result_pass _ _) fun _ => ?_
  refine result_bind (UBig.pow_result _ _ _) fun _ => result_bind (npPowersLoop_result _ _ _ _ _) fun _ => ?_
  exact npDivideConquer_result _ _ _ _ _

theorem npParse_result (cfg : Cfg) (radix : Nat) (l : List Nat) :
    (npParse cfg radix l).result = Ibig.npParse cfg radix l := by
  unfold npParse Ibig.npParse
  refine result_bind (result_pass _ _) fun _ => result_bind (result_pass _ _) fun _ => ?_
  refine result_ite (fun _ => tryP_result (npParseWord_result _ _ _) fun _ => rfl) (fun _ => ?_)
  refine result_bind (result_pass _ _) fun _ => ?_
  exact result_ite (fun _ => npParseChunk_result _ _ _) (fun _ => npParseLarge_result _ _ _)

theorem stripZeros_result (s : List Nat) : (stripZeros s).result = .ok (Ibig.stripZeros s) := by
  induction s with
  | nil => rfl
  | cons c s ih =>
    rw [stripZeros, Ibig.stripZeros]
    refine (bind_of_ok rfl _).trans ?_
    by_cases h : c = 48
    · rw [if_pos h, if_pos h]; exact ih
    · rw [if_neg h, if_neg h]; rfl

theorem UBig.fromStrRadixNoSign_result (cfg : Cfg) (s : List Nat) (radix : Nat) :
    (UBig.fromStrRadixNoSign cfg s radix).result = Ibig.UBig.fromStrRadixNoSign cfg s radix := by
  unfold UBig.fromStrRadixNoSign Ibig.UBig.fromStrRadixNoSign
  refine result_bind (result_pass _ _) fun _ => result_ite (fun _ => rfl) (fun _ => ?_)
  refine (result_bind_ok (stripZeros_result s) _).trans ?_
  exact result_ite (fun _ => pow2Parse_result _ _ _) (fun _ => npParse_result _ _ _)

theorem UBig.fromStrRadix_result (cfg : Cfg) (s : List Nat) (radix : Nat) :
    (UBig.fromStrRadix cfg s radix).result = Ibig.UBig.fromStrRadix cfg s radix :=
  result_bind (result_pass _ _) fun _ => (bind_of_ok rfl _).trans (UBig.fromStrRadixNoSign_result _ _ _)

theorem UBig.fromStrWithRadixPrefixNoSign_result (cfg : Cfg) (s : List Nat) :
    (UBig.fromStrWithRadixPrefixNoSign cfg s).result = Ibig.UBig.fromStrWithRadixPrefixNoSign cfg s := by
  unfold UBig.fromStrWithRadixPrefixNoSign Ibig.UBig.fromStrWithRadixPrefixNoSign
  refine (bind_of_ok rfl _).trans ?_
  cases Ibig.stripPrefix [48, 98] s with
  | some b => exact UBig.fromStrRadixNoSign_result _ _ _
  | none =>
    refine (bind_of_ok rfl _).trans ?_
    cases Ibig.stripPrefix [48, 111] s with
    | some b => exact UBig.fromStrRadixNoSign_result _ _ _
    | none =>
      refine (bind_of_ok rfl _).trans ?_
      cases Ibig.stripPrefix [48, 120] s with
      | some b => exact UBig.fromStrRadixNoSign_result _ _ _
      | none => exact UBig.fromStrRadixNoSign_result _ _ _

theorem UBig.fromStrWithRadixPrefix_result (cfg : Cfg) (s : List Nat) :
    (UBig.fromStrWithRadixPrefix cfg s).result = Ibig.UBig.fromStrWithRadixPrefix cfg s :=
  (bind_of_ok rfl _).trans (UBig.fromStrWithRadixPrefixNoSign_result _ _)

theorem IBig.fromStrRadix_result (cfg : Cfg) (s : List Nat) (radix : Nat) :
    (IBig.fromStrRadix cfg s radix).result = Ibig.IBig.fromStrRadix cfg s radix :=
  result_bind (result_pass _ _) fun _ => (bind_of_ok rfl _).trans
    (tryP_result (UBig.fromStrRadixNoSign_result _ _ _) fun _ => rfl)

theorem IBig.fromStrWithRadixPrefix_result (cfg : Cfg) (s : List Nat) :
    (IBig.fromStrWithRadixPrefix cfg s).result = Ibig.IBig.fromStrWithRadixPrefix cfg s :=
  (bind_of_ok rfl _).trans (tryP_result (UBig.fromStrWithRadixPrefixNoSign_result _ _) fun _ => rfl)

end Ibig.Timed
