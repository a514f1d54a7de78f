import Verif.Model.ModUnwind
import Verif.Spec.ModHistory
import Verif.Spec.Unwind
/-!
# What a program with rings that catches panics should compute (specification)

As `Spec/ModHistory.lean`.  An operation on numbers that panics leaves what `Spec/Unwind.lean` says; an operation on
rings and elements that panics leaves every variable as it was.  Near the limits of the build (`MInstr.Room`) an
instruction may also panic with "number too large" or "out of memory".
-/
namespace Ibig

/-- The variables after a panic. -/
def MInstr.mathLeaves (v : MathState) : MInstr → MathState
  | .num c => { v with n := c.mathLeaves v.n }
  | _ => v

/-- `ModBlock cfg p v w seen e`: the block `p`, started with the variables `v`, may end with the variables `w`, after
seeing `seen`, with the panic `e` (or none). -/
inductive ModBlock (cfg : Cfg) : List MInstr → MathState → MathState → List Obs → Option Panic → Prop
  /-- The end of the block. -/
  | done (v : MathState) : ModBlock cfg [] v v [] none
  /-- An instruction that computes what it should. -/
  | step {c : MInstr} {p : List MInstr} {v v' w : MathState} {o os : List Obs} {e : Option Panic} :
      c.math (cfg.maxLen * cfg.W) v = .ok (v', o) → ModBlock cfg p v' w os e → ModBlock cfg (c :: p) v w (o ++ os) e
  /-- A documented panic, which the instruction should cause. -/
  | panic {c : MInstr} {p : List MInstr} {v : MathState} {e : Panic} :
      c.math (cfg.maxLen * cfg.W) v = .error e → DocumentedM e → ModBlock cfg (c :: p) v (c.mathLeaves v) [] (some e)
  /-- A limit of the build. -/
  | limit {c : MInstr} {p : List MInstr} {v : MathState} {e : Panic} :
      ¬c.Room cfg v → e = .tooLarge ∨ e = .outOfMemory → ModBlock cfg (c :: p) v (c.mathLeaves v) [] (some e)
  /-- A variable that holds nothing.  (The Rust compiler rejects this.) -/
  | undefined {c : MInstr} {p : List MInstr} {v : MathState} :
      ¬c.Defined v → ModBlock cfg (c :: p) v v [] (some .unwrap)

/-- A sequence of blocks, with the panic of each caught. -/
inductive ModCaught (cfg : Cfg) : List (List MInstr) → MathState → MathState → List (List Obs × Option Panic) → Prop
  | nil (v : MathState) : ModCaught cfg [] v v []
  | cons {b : List MInstr} {bs : List (List MInstr)} {v v' w : MathState} {o : List Obs} {e : Option Panic}
      {seen : List (List Obs × Option Panic)} :
      ModBlock cfg b v v' o e → ModCaught cfg bs v' w seen → ModCaught cfg (b :: bs) v w ((o, e) :: seen)

end Ibig
