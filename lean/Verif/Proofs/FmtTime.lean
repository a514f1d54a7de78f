import Verif.Proofs.ParseTime
import Verif.Proofs.DivOpsTime
import Verif.Model.FmtTime
/-!
The counting functions of Model/FmtTime.lean return what the functions of the model return.
-/
namespace Ibig.Timed

theorem UBig.cmp_result (a b : UBig) : (UBig.cmp a b).result = a.cmp b := by
  rcases a with a | a <;> rcases b with b | b
  · rfl
  · rfl
  · rfl
  · show (match compare a.len b.len with
      | .eq => cmpSameLen a.words b.words
      | o => pass 1 (.ok o) : Timed Ordering).result = match compare a.len b.len with
      | .eq => Ibig.cmpSameLen a.words b.words
      | o => .ok o
    cases compare a.len b.len
    · rfl
    · exact cmpSameLen_result _ _
    · rfl

theorem UBig.lt_result (a b : UBig) : (UBig.lt a b).result = a.lt b :=
  result_bind (UBig.cmp_result a b) fun _ => rfl

theorem UBig.le_result (a b : UBig) : (UBig.le a b).result = a.le b :=
  result_bind (UBig.cmp_result a b) fun _ => rfl

theorem chunksToAscii_result (W : Nat) (be : Bool) (dc : DigitCase) (k : Nat) : ∀ l,
    (chunksToAscii W be dc k l).result = Ibig.chunksToAscii W be dc k l := by
  induction k with
  | zero => intro _; rfl
  | succ k ih =>
    intro l
    rw [chunksToAscii, Ibig.chunksToAscii]
    exact result_ite (fun _ => rfl) fun _ => result_bind (result_pass _ _) fun _ => result_bind (ih _) fun _ => rfl

theorem DigitWriter.flush_result (W : Nat) (dw : DigitWriter) : (DigitWriter.flush W dw).result = dw.flush W :=
  result_bind (result_pass _ _) fun _ => (bind_of_ok rfl _).trans
    (result_bind (chunksToAscii_result _ _ _ _ _) fun _ => result_bind (result_pass _ _) fun _ => rfl)

theorem DigitWriter.flushIfFull_result (W : Nat) (dw : DigitWriter) :
    (DigitWriter.flushIfFull W dw).result = dw.flushIfFull W :=
  result_ite (fun _ => DigitWriter.flush_result W dw) fun _ => rfl

theorem DigitWriter.writeLoop_result (W : Nat) (fuel : Nat) : ∀ (dw : DigitWriter) (buf : List Nat),
    (DigitWriter.writeLoop W fuel dw buf).result = Ibig.DigitWriter.writeLoop W fuel dw buf := by
  induction fuel with
  | zero => intro _ _; exact result_ite (fun _ => rfl) fun _ => rfl
  | succ fuel ih =>
    intro dw buf
    rw [DigitWriter.writeLoop, Ibig.DigitWriter.writeLoop]
    refine result_ite (fun _ => rfl) fun _ => result_bind (result_pass _ _) fun _ => ?_
    refine result_bind (result_pass _ _) ?_
    rintro ⟨chunk, rest⟩
    exact (bind_of_ok rfl _).trans (result_bind (DigitWriter.flushIfFull_result _ _) fun _ => ih _ _)

theorem DigitWriter.write_result (W : Nat) (dw : DigitWriter) (buf : List Nat) :
    (DigitWriter.write W dw buf).result = dw.write W buf :=
  DigitWriter.writeLoop_result _ _ _ _

theorem pow2WordDigits_result (W word log mask : Nat) (n : Nat) :
    (pow2WordDigits W word log mask n).result = Ibig.pow2WordDigits W word log mask n := by
  induction n with
  | zero => rfl
  | succ n ih =>
    exact result_bind (result_pass _ _) fun _ => result_bind (result_pass _ _) fun _ =>
      result_bind ih fun _ => rfl

theorem pow2WordWrite_result (W word log width : Nat) (dw : DigitWriter) :
    (pow2WordWrite W word log width dw).result = Ibig.pow2WordWrite W word log width dw :=
  result_bind (result_pass _ _) fun _ => result_bind (result_pass _ _) fun _ =>
    result_bind (pow2WordDigits_result _ _ _ _ _) fun _ => DigitWriter.write_result _ _ _

theorem pow2LargeStep_result (W log mask word bits : Nat) (rest : List Nat) :
    (pow2LargeStep W log mask word bits rest).result = Ibig.pow2LargeStep W log mask word bits rest := by
  unfold pow2LargeStep Ibig.pow2LargeStep
  refine result_ite (fun _ => ?_) fun _ => ?_
  · rcases rest with _ | ⟨w, rest⟩
    · exact result_bind (result_pass _ _) fun _ => rfl
    · exact result_bind (result_pass _ _) fun _ => result_bind (result_pass _ _) fun _ =>
        result_bind (result_pass _ _) fun _ => result_bind (result_pass _ _) fun _ => rfl
  · exact result_bind (result_pass _ _) fun _ => result_bind (result_pass _ _) fun _ => rfl

theorem pow2LargeLoop'_result (W log mask : Nat) (fuel : Nat) : ∀ word bits rest dw,
    (pow2LargeLoop' W log mask fuel word bits rest dw).result =
      Ibig.pow2LargeLoop' W log mask fuel word bits rest dw := by
  induction fuel with
  | zero => intro _ _ _ _; rfl
  | succ fuel ih =>
    intro word bits rest dw
    rw [pow2LargeLoop', Ibig.pow2LargeLoop']
    refine result_bind (pow2LargeStep_result _ _ _ _ _ _) ?_
    rintro (_ | ⟨d, w, b, r⟩)
    · rfl
    · exact result_bind (DigitWriter.write_result _ _ _) fun _ => ih _ _ _ _

theorem pow2LargeWrite_result (cfg : Cfg) (words : List Nat) (log width : Nat) (dw : DigitWriter) :
    (pow2LargeWrite cfg words log width dw).result = Ibig.pow2LargeWrite cfg words log width dw := by
  unfold pow2LargeWrite Ibig.pow2LargeWrite
  refine result_bind (result_pass _ _) fun _ => ?_
  rcases words.reverse with _ | ⟨w, rest⟩
  · rfl
  · exact result_bind (result_pass _ _) fun _ => result_bind (result_pass _ _) fun _ =>
      result_bind (result_pass _ _) fun _ => result_bind (result_pass _ _) fun _ =>
        pow2LargeLoop'_result _ _ _ _ _ _ _ _

theorem pow2LargeWidth_result (cfg : Cfg) (words : List Nat) (log : Nat) :
    (pow2LargeWidth cfg words log).result = Ibig.pow2LargeWidth cfg words log :=
  result_bind (result_pass _ _) fun _ => result_bind (result_pass _ _) fun _ =>
    result_bind (result_pass _ _) fun _ => rfl

theorem npDigitsLoop_result (W : Nat) (fd : FastDivideSmall) (m fuel : Nat) : ∀ w s ds,
    (npDigitsLoop W fd m fuel w s ds).result = Ibig.npDigitsLoop W fd m fuel w s ds := by
  induction fuel with
  | zero => intro _ _ _; rfl
  | succ fuel ih =>
    intro w s ds
    rw [npDigitsLoop, Ibig.npDigitsLoop]
    refine result_ite (fun _ => ?_) fun _ => rfl
    refine result_bind (result_pass _ _) ?_
    rintro ⟨q, d⟩
    exact result_bind (result_pass _ _) fun _ => ih _ _ _

theorem npWordNew_result (W word radix m : Nat) :
    (npWordNew W word radix m).result = Ibig.npWordNew W word radix m :=
  result_bind (result_pass _ _) fun _ => result_bind (result_pass _ _) fun _ =>
    result_bind (result_pass _ _) fun _ => result_bind (result_pass _ _) fun _ => npDigitsLoop_result _ _ _ _ _ _ _

theorem npMediumLoop_result (W : Nat) (info : RadixInfo) (fuel : Nat) : ∀ buf gs,
    (npMediumLoop W info fuel buf gs).result = Ibig.npMediumLoop W info fuel buf gs := by
  induction fuel with
  | zero => intro _ _; rfl
  | succ fuel ih =>
    intro buf gs
    rw [npMediumLoop, Ibig.npMediumLoop]
    refine result_ite (fun _ => ?_) fun _ => rfl
    refine result_bind (fastDivByWord_result _ _ _ _) ?_
    rintro ⟨q, rem⟩
    refine result_ite (fun _ => (bind_of_ok rfl _).trans ?_) fun _ => rfl
    exact result_ite (fun _ => rfl) fun _ => ih _ _

theorem npMediumNew_result (W : Nat) (x : UBig) (radix : Nat) :
    (npMediumNew W x radix).result = Ibig.npMediumNew W x radix := by
  unfold npMediumNew Ibig.npMediumNew
  refine result_bind (result_pass _ _) fun _ => result_bind (result_pass _ _) fun _ =>
    result_bind (result_pass _ _) fun _ => result_bind (npMediumLoop_result _ _ _ _ _) ?_
  rintro ⟨buf, gs⟩
  rcases buf with _ | ⟨w, _ | ⟨w', l⟩⟩
  · rfl
  · exact result_bind (npWordNew_result _ _ _ _) fun _ => rfl
  · rfl

theorem npMediumWidth_result (cfg : Cfg) (p : PreparedMedium) (radix : Nat) :
    (npMediumWidth cfg p radix).result = Ibig.npMediumWidth cfg p radix :=
  result_bind (result_pass _ _) fun _ => result_bind (result_pass _ _) fun _ => result_pass _ _

theorem npWriteGroups_result (W radix D : Nat) (gs : List Nat) : ∀ dw,
    (npWriteGroups W radix D gs dw).result = Ibig.npWriteGroups W radix D gs dw := by
  induction gs with
  | nil => intro _; rfl
  | cons g gs ih =>
    intro dw
    exact result_bind (npWordNew_result _ _ _ _) fun _ => result_bind (DigitWriter.write_result _ _ _) fun _ => ih _

theorem npMediumWrite_result (W : Nat) (p : PreparedMedium) (radix : Nat) (dw : DigitWriter) :
    (npMediumWrite W p radix dw).result = Ibig.npMediumWrite W p radix dw :=
  result_bind (result_pass _ _) fun _ => result_bind (DigitWriter.write_result _ _ _) fun _ =>
    npWriteGroups_result _ _ _ _ _

theorem fmtPowersLoop_result (cfg : Cfg) (x : UBig) (fuel : Nat) : ∀ ps,
    (fmtPowersLoop cfg x fuel ps).result = Ibig.fmtPowersLoop cfg x fuel ps := by
  induction fuel with
  | zero => intro _; rfl
  | succ fuel ih =>
    intro ps
    rw [fmtPowersLoop, Ibig.fmtPowersLoop]
    rcases ps.getLast? with _ | p
    · rfl
    · refine result_bind (result_pass _ _) fun _ => result_bind (result_pass _ _) fun _ =>
        result_ite (fun _ => rfl) fun _ => result_bind (UBig.mul_result _ _ _ _ _) fun _ =>
          result_bind (UBig.lt_result _ _) fun _ => result_ite (fun _ => rfl) fun _ => ih _

theorem fmtChunksLoop_result (cfg : Cfg) (ps : List UBig) : ∀ x cs,
    (fmtChunksLoop cfg ps x cs).result = Ibig.fmtChunksLoop cfg ps x cs := by
  induction ps with
  | nil => intro _ _; rfl
  | cons p ps ih =>
    intro x cs
    rw [fmtChunksLoop, Ibig.fmtChunksLoop]
    refine result_bind (UBig.le_result _ _) fun _ => result_ite (fun _ => ?_) fun _ => ih _ _
    refine result_bind (UBig.divRem_result _ _ _ _ _) ?_
    rintro ⟨q, r⟩
    exact ih _ _

theorem npLargeNewBig_result (cfg : Cfg) (x : UBig) (radix : Nat) (c : UBig) :
    (npLargeNewBig cfg x radix c).result = Ibig.npLargeNewBig cfg x radix c := by
  unfold npLargeNewBig Ibig.npLargeNewBig
  refine result_bind (fmtPowersLoop_result _ _ _ _) fun powers => ?_
  rcases powers.reverse with _ | ⟨p, ps⟩
  · rfl
  · refine result_bind (UBig.divRem_result _ _ _ _ _) ?_
    rintro ⟨q, r⟩
    refine result_bind (fmtChunksLoop_result _ _ _ _) ?_
    rintro ⟨y, cs⟩
    exact result_bind (npMediumNew_result _ _ _) fun _ => rfl

theorem npLargeNew_result (cfg : Cfg) (x : UBig) (radix : Nat) :
    (npLargeNew cfg x radix).result = Ibig.npLargeNew cfg x radix :=
  result_bind (result_pass _ _) fun _ => result_bind (result_pass _ _) fun _ =>
    result_bind (UBig.pow_result _ _ _) fun _ => result_bind (UBig.lt_result _ _) fun _ =>
      result_ite (fun _ => result_bind (npMediumNew_result _ _ _) fun _ => rfl) fun _ => npLargeNewBig_result _ _ _ _

theorem npChunkGroups_result (W : Nat) (info : RadixInfo) (n : Nat) : ∀ buf gs,
    (npChunkGroups W info n buf gs).result = Ibig.npChunkGroups W info n buf gs := by
  induction n with
  | zero => intro _ _; rfl
  | succ n ih =>
    intro buf gs
    rw [npChunkGroups, Ibig.npChunkGroups]
    refine result_bind (fastDivByWord_result _ _ _ _) ?_
    rintro ⟨q, rem⟩
    exact (bind_of_ok rfl _).trans (ih _ _)

theorem npWriteChunk_result (W radix : Nat) (dw : DigitWriter) (x : UBig) :
    (npWriteChunk W radix dw x).result = Ibig.npWriteChunk W radix dw x := by
  unfold npWriteChunk Ibig.npWriteChunk
  refine result_bind (result_pass _ _) fun _ => result_bind (result_pass _ _) fun _ =>
    result_bind (npChunkGroups_result _ _ _ _ _) ?_
  rintro ⟨buf, gs⟩
  exact result_bind (result_pass _ _) fun _ => npWriteGroups_result _ _ _ _ _

theorem npWriteBigChunk_result (cfg : Cfg) (radix : Nat) (powers : List UBig) (i : Nat) : ∀ dw x,
    (npWriteBigChunk cfg radix powers i dw x).result = Ibig.npWriteBigChunk cfg radix powers i dw x := by
  induction i with
  | zero => intro _ _; exact npWriteChunk_result _ _ _ _
  | succ i ih =>
    intro dw x
    rw [npWriteBigChunk, Ibig.npWriteBigChunk]
    rcases powers[i]? with _ | p
    · rfl
    · refine result_bind (UBig.divRem_result _ _ _ _ _) ?_
      rintro ⟨q, r⟩
      exact result_bind (ih _ _) fun _ => ih _ _

theorem npWriteChunks_result (cfg : Cfg) (radix : Nat) (powers : List UBig) (cs : List (Nat × UBig)) : ∀ dw,
    (npWriteChunks cfg radix powers cs dw).result = Ibig.npWriteChunks cfg radix powers cs dw := by
  induction cs with
  | nil => intro _; rfl
  | cons c cs ih =>
    obtain ⟨i, x⟩ := c
    intro dw
    exact (bind_of_ok rfl _).trans (result_bind (npWriteBigChunk_result _ _ _ _ _ _) fun _ => ih _)

theorem npLargeWrite_result (cfg : Cfg) (p : PreparedLarge) (radix : Nat) (dw : DigitWriter) :
    (npLargeWrite cfg p radix dw).result = Ibig.npLargeWrite cfg p radix dw :=
  result_bind (npMediumWrite_result _ _ _ _) fun _ => npWriteChunks_result _ _ _ _ _

theorem npChunksWidth_result (cfg : Cfg) (D : Nat) (cs : List (Nat × UBig)) (n : Nat) :
    (npChunksWidth cfg D cs n).result = Ibig.npChunksWidth cfg D cs n := by
  induction cs with
  | nil => rfl
  | cons c cs ih =>
    obtain ⟨i, x⟩ := c
    exact result_bind ih fun _ => result_bind (result_pass _ _) fun _ => result_bind (result_pass _ _) fun _ =>
      result_pass _ _

theorem npLargeWidth_result (cfg : Cfg) (p : PreparedLarge) (radix : Nat) :
    (npLargeWidth cfg p radix).result = Ibig.npLargeWidth cfg p radix :=
  result_bind (npMediumWidth_result _ _ _) fun _ => result_bind (result_pass _ _) fun _ =>
    npChunksWidth_result _ _ _ _

theorem writeDigits_result (W : Nat) (be : Bool) (dc : DigitCase) {p : Prepared} {q : Ibig.Prepared}
    (hw : ∀ dw, (p.write dw).result = q.write dw) :
    (writeDigits W be dc p).result = Ibig.writeDigits W be dc q :=
  result_bind (hw _) fun _ => result_bind (DigitWriter.flush_result _ _) fun _ => rfl

theorem formatPrepared_result (cfg : Cfg) (be : Bool) (sign : Sign) (pre : List Nat) (dc : DigitCase)
    (f : FmtFlags) {p : Prepared} {q : Ibig.Prepared} (hp : p.width.result = q.width)
    (hw : ∀ dw, (p.write dw).result = q.write dw) :
    (formatPrepared cfg be sign pre dc f p).result = Ibig.formatPrepared cfg be sign pre dc f q := by
  unfold formatPrepared Ibig.formatPrepared
  refine result_bind hp fun w => result_bind (result_pass _ _) fun width =>
    result_bind (writeDigits_result _ _ _ hw) fun digits => ?_
  rcases f.width with _ | m
  · rfl
  · exact result_ite (fun _ => rfl) fun _ => result_ite (fun _ => rfl) fun _ => rfl

theorem fmtPow2_result (cfg : Cfg) (be : Bool) (sign : Sign) (mag : UBig) (radix : Nat) (pre : List Nat)
    (dc : DigitCase) (f : FmtFlags) :
    (fmtPow2 cfg be sign mag radix pre dc f).result = Ibig.fmtPow2 cfg be sign mag radix pre dc f := by
  unfold fmtPow2 Ibig.fmtPow2
  refine result_bind (result_pass _ _) fun _ => ?_
  rcases mag with w | b
  · exact formatPrepared_result _ _ _ _ _ _ rfl fun _ => pow2WordWrite_result _ _ _ _ _
  · exact result_bind (pow2LargeWidth_result _ _ _) fun _ =>
      formatPrepared_result _ _ _ _ _ _ rfl fun _ => pow2LargeWrite_result _ _ _ _ _

theorem fmtNonPow2_result (cfg : Cfg) (be : Bool) (sign : Sign) (mag : UBig) (radix : Nat) (pre : List Nat)
    (dc : DigitCase) (f : FmtFlags) :
    (fmtNonPow2 cfg be sign mag radix pre dc f).result = Ibig.fmtNonPow2 cfg be sign mag radix pre dc f := by
  unfold fmtNonPow2 Ibig.fmtNonPow2
  refine result_bind (result_pass _ _) fun _ => ?_
  rcases mag with w | b
  · exact result_bind (npWordNew_result _ _ _ _) fun _ =>
      formatPrepared_result _ _ _ _ _ _ rfl fun _ => DigitWriter.write_result _ _ _
  · refine result_bind (result_pass _ _) fun _ => result_bind (result_pass _ _) fun _ =>
      result_ite (fun _ => ?_) fun _ => ?_
    · exact result_bind (npMediumNew_result _ _ _) fun _ =>
        formatPrepared_result _ _ _ _ _ _ (npMediumWidth_result _ _ _) fun _ => npMediumWrite_result _ _ _ _
    · exact result_bind (npLargeNew_result _ _ _) fun _ =>
        formatPrepared_result _ _ _ _ _ _ (npLargeWidth_result _ _ _) fun _ => npLargeWrite_result _ _ _ _

theorem fmtFull_result (cfg : Cfg) (be : Bool) (sign : Sign) (mag : UBig) (radix : Nat) (pre : List Nat)
    (dc : DigitCase) (f : FmtFlags) :
    (fmtFull cfg be sign mag radix pre dc f).result = Ibig.fmtFull cfg be sign mag radix pre dc f :=
  result_ite (fun _ => fmtPow2_result _ _ _ _ _ _ _ _) fun _ => fmtNonPow2_result _ _ _ _ _ _ _ _

theorem UBig.inRadixFmt_result (cfg : Cfg) (be : Bool) (x : UBig) (radix : Nat) (f : FmtFlags) :
    (UBig.inRadixFmt cfg be x radix f).result = x.inRadixFmt cfg be radix f :=
  result_bind (result_pass _ _) fun _ => fmtFull_result _ _ _ _ _ _ _ _

theorem IBig.inRadixFmt_result (cfg : Cfg) (be : Bool) (x : IBig) (radix : Nat) (f : FmtFlags) :
    (IBig.inRadixFmt cfg be x radix f).result = x.inRadixFmt cfg be radix f :=
  result_bind (result_pass _ _) fun _ => fmtFull_result _ _ _ _ _ _ _ _

end Ibig.Timed
