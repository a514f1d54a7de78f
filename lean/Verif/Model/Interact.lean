import Verif.Model.ModUnwind
import Verif.Model.Rand
import Verif.Model.Serde
import Verif.Model.Gcd
/-!
# Programs that react to what they see

The programs of `Model/ModUnwind.lean` with further instructions (extended greatest common divisors, serialization,
random numbers) and with any control flow: which instruction comes next is decided by everything that
the program did and saw so far, and the decision may also depend on things that are not modelled (the user, other
threads).  A program may catch a panic and go on.
-/
namespace Ibig

/-- One instruction: `d`, `x`, `y` are destinations, `a`, `b`, `low`, `high` operands.  The new ones are
/repo/src/gcd.rs:80-175 `UBig::extended_gcd`, /repo/src/gcd.rs:217-220 `IBig::extended_gcd`, /repo/src/serde.rs:13-106,
/repo/src/rand.rs:98-199. -/
inductive XInstr where
  | base (c : MInstr)
  | uextGcd (d x y a b : Nat)
  | iextGcd (d x y a b : Nat)
  | userde (announced : Bool) (d a : Nat)
  | iserde (announced : Bool) (d a : Nat)
  | uread (announced : Bool) (d : Nat) (es : List Nat)
  | iread (announced : Bool) (d : Nat) (sign : Sign) (es : List Nat)
  | urand (inclusive : Bool) (d low high : Nat)
  | irand (inclusive : Bool) (d low high : Nat)
deriving DecidableEq, Repr

/-- Assign a `UBig` and two `IBig`s: the result of /repo/src/gcd.rs:80 `extended_gcd`. -/
def MStore.putBezoutU {ρ ε α β : Type} (s : MStore α β ρ ε) (d x y : Nat) (r : R (α × β × β)) :
    R (MStore α β ρ ε × List Obs) := do
  let (g, p, q) ← r
  return ({ s with n := ((s.n.setU d g).setI x p).setI y q }, [])

/-- Assign three `IBig`s: the result of /repo/src/gcd.rs:217 `extended_gcd`. -/
def MStore.putBezoutI {ρ ε α β : Type} (s : MStore α β ρ ε) (d x y : Nat) (r : R (β × β × β)) :
    R (MStore α β ρ ε × List Obs) := do
  let (g, p, q) ← r
  return ({ s with n := ((s.n.setI d g).setI x p).setI y q }, [])

/-- Assign an `IBig`. -/
def MStore.putI {ρ ε α β : Type} (s : MStore α β ρ ε) (d : Nat) (r : R β) : R (MStore α β ρ ε × List Obs) := do
  return ({ s with n := s.n.setI d (← r) }, [])

/-- Write a number to a data format, look at what was written, and read it back: /repo/src/serde.rs:15 `serialize`,
/repo/src/serde.rs:30 `deserialize`. -/
def UBig.throughSerde (cfg : Cfg) (announced : Bool) (a : UBig) : R (UBig × List Obs) := do
  let (len, es) ← a.serialize cfg
  let b ← UBig.deserialize cfg (if announced then some len else none) es
  return (b, [.nat len, .list es])

/-- The same for signed numbers: /repo/src/serde.rs:96 `serialize`, /repo/src/serde.rs:102 `deserialize`. -/
def IBig.throughSerde (cfg : Cfg) (announced : Bool) (a : IBig) : R (IBig × List Obs) := do
  let (s, len, es) ← a.serialize cfg
  let b ← IBig.deserialize cfg s (if announced then some len else none) es
  return (b, [.bool (s == .neg), .nat len, .list es])

/-- A computation that draws random numbers can end with the result or panic `r`. -/
def Draw.Can {α : Type} : Draw α → R α → Prop
  | .ret a, r => r = .ok a
  | .fail p, r => r = .error p
  | .draw m k, r => ∃ n < m, (k n).Can r

/-- Random numbers (/repo/src/rand.rs:131-136 and /repo/src/rand.rs:192-197 `sample`): making the distribution `dist` panics, or sampling it panics or finishes after some
number of attempts. -/
def SampleCan {δ α : Type} (dist : R δ) (sample : Nat → δ → Draw (Option α)) (r : R α) : Prop :=
  match dist with
  | .error e => r = .error e
  | .ok u => ∃ t, 1 ≤ t ∧ match r with
    | .error e => (sample t u).Can (.error e)
    | .ok y => (sample t u).Can (.ok (some y))

/-- `c.Can … s out`: the instruction `c`, run with the variables `s`, can have the outcome `out`: new variables and what was
seen, or a panic. -/
def XInstr.Can (cfg : Cfg) (be : Bool) (addr : Nat → Nat) (s : MState) : XInstr → R (MState × List Obs) → Prop
  | .base c, out => out = c.exec cfg be addr s
  | .uextGcd d x y a b, out => out = s.putBezoutU d x y ((s.n.u a).extendedGcd cfg (s.n.u b))
  | .iextGcd d x y a b, out => out = s.putBezoutI d x y ((s.n.i a).extendedGcd cfg (s.n.i b))
  | .userde k d a, out => out = do
    let (b, o) ← (s.n.u a).throughSerde cfg k
    return ({ s with n := s.n.setU d b }, o)
  | .iserde k d a, out => out = do
    let (b, o) ← (s.n.i a).throughSerde cfg k
    return ({ s with n := s.n.setI d b }, o)
  | .uread k d es, out => out = s.putU d (UBig.deserialize cfg (if k then some es.length else none) es)
  | .iread k d sign es, out => out = s.putI d (IBig.deserialize cfg sign (if k then some es.length else none) es)
  | .urand k d low high, out => ∃ r, SampleCan
      (if k then UniformUBig.newInclusive cfg (s.n.u low) (s.n.u high) else UniformUBig.new cfg (s.n.u low) (s.n.u high))
      (fun t u => u.sample cfg t) r ∧ out = s.putU d r
  | .irand k d low high, out => ∃ r, SampleCan
      (if k then UniformIBig.newInclusive cfg (s.n.i low) (s.n.i high) else UniformIBig.new cfg (s.n.i low) (s.n.i high))
      (fun t u => u.sample cfg t) r ∧ out = s.putI d r

/-- What is left in the variables if the instruction panics.  The further instructions take their operands by
reference. -/
def XInstr.leaves (cfg : Cfg) (s : MState) : XInstr → MState
  | .base c => c.leaves cfg s
  | _ => s

/-- What a program did in one step: the instruction, what was seen, and the panic, if there was one. -/
structure Event where
  instr : XInstr
  seen : List Obs
  panic : Option Panic
deriving DecidableEq, Repr

/-- `Run … next s tr t`: the program that decides by `next` which instructions may come next, started with the variables
`s`, can do `tr` and then have the variables `t`. -/
inductive Run (cfg : Cfg) (be : Bool) (addr : Nat → Nat) (next : List Event → XInstr → Prop) (s : MState) :
    List Event → MState → Prop
  | start : Run cfg be addr next s [] s
  | step {tr : List Event} {t t' : MState} {c : XInstr} {o : List Obs} : Run cfg be addr next s tr t → next tr c →
      c.Can cfg be addr t (.ok (t', o)) → Run cfg be addr next s (tr ++ [⟨c, o, none⟩]) t'
  | panic {tr : List Event} {t : MState} {c : XInstr} {e : Panic} : Run cfg be addr next s tr t → next tr c →
      c.Can cfg be addr t (.error e) → Run cfg be addr next s (tr ++ [⟨c, [], some e⟩]) (c.leaves cfg t)

end Ibig
