import Verif.Model.Rand
import Verif.Model.BitsTime
import Verif.Model.GcdTime
/-!
Random numbers with the number of steps: the text of Model/Rand.lean with counting functions.  A draw of a random word is
one step: the time of the generator is not counted.

Not in the Rust code: the code does not count.
-/
namespace Ibig

/-- A computation that draws random numbers, and the number of its steps. -/
def TDraw (α : Type) : Type := Draw (α × Nat)

namespace TDraw

/-- Add `k` steps. -/
def after {α : Type} (k : Nat) (d : TDraw α) : TDraw α := Draw.bind d fun p => .ret (p.1, k + p.2)

/-- Sequencing; the steps add up. -/
def bind {α β : Type} (d : TDraw α) (f : α → TDraw β) : TDraw β := Draw.bind d fun p => after p.2 (f p.1)

instance : Monad TDraw where
  pure a := (Draw.ret (a, 0) : Draw _)
  bind := TDraw.bind

/-- A computation without random numbers. -/
def ofT {α : Type} (x : Timed α) : TDraw α := Draw.ofR x

/-- A uniformly distributed number below `m`, in one step. -/
def uniform (m : Nat) : TDraw Nat := Draw.draw m fun n => .ret (n, 1)

/-- Forget the number of steps. -/
def result {α : Type} (d : TDraw α) : Draw α := Draw.bind d fun p => .ret p.1

/-- `rng.fill(&mut slice)` for a slice of `k` words (/repo/src/rand.rs:77) -/
def fillWords (W : Nat) : Nat → TDraw (List Nat)
  | 0 => pure []
  | k + 1 => do
    let x ← TDraw.uniform (base W)
    let xs ← fillWords W k
    pure (x :: xs)

/-- the loop of /repo/src/rand.rs:66-78 with the current index `i` -/
def tryFillLoop (W : Nat) (words : List Nat) : Nat → List Nat → TDraw (Bool × List Nat)
  | 0, result => do
    let r ← ofT (Timed.getR result 0)
    let w ← ofT (Timed.getR words 0)
    if r = w then pure (false, result)
    else
      ofT Timed.tick
      let xs ← fillWords W 0
      pure (true, xs ++ result.drop 0)
  | i + 1, result => do
    let r ← ofT (Timed.getR result (i + 1))
    let w ← ofT (Timed.getR words (i + 1))
    if r = w then
      let x ← TDraw.uniform (base W)
      let result ← ofT (Timed.setR result i x)
      let w ← ofT (Timed.getR words i)
      if w < x then pure (false, result)
      else tryFillLoop W words i result
    else
      ofT Timed.tick
      let xs ← fillWords W (i + 1)
      pure (true, xs ++ result.drop (i + 1))

/-- /repo/src/rand.rs:57-79 `try_fill_uniform` -/
def tryFillUniform (W : Nat) (words result : List Nat) : TDraw (Bool × List Nat) := do
  ofT (Timed.assertR (0 < words.length ∧ result.length = words.length))
  let i := words.length - 1
  let w ← ofT (Timed.getR words i)
  let x ← TDraw.uniform (w + 1)
  let result ← ofT (Timed.setR result i x)
  tryFillLoop W words i result

/-- the loop of /repo/src/rand.rs:46-48, cut off after `attempts` failures (`none`) -/
def uniformLoop (W : Nat) (words : List Nat) : Nat → List Nat → TDraw (Option (List Nat))
  | 0, _ => pure none
  | attempts + 1, result => do
    ofT Timed.tick
    let x ← tryFillUniform W words result
    if x.1 then pure (some x.2) else uniformLoop W words attempts x.2

/-- /repo/src/rand.rs:40-50 `uniform_large`: its state after at most `attempts` attempts -/
def UBig.uniformLarge (cfg : Cfg) (attempts : Nat) (words : List Nat) : TDraw (Option UBig) := do
  let b ← ofT (Timed.Buffer.allocate cfg words.length)
  let b ← ofT (Timed.Buffer.pushZeros b words.length)
  let o ← uniformLoop cfg.W words attempts b.words
  match o with
  | none => pure none
  | some ws => do
    let u ← ofT (Timed.UBig.ofBuffer cfg ⟨ws, b.cap⟩)
    pure (some u)

/-- /repo/src/rand.rs:27-37 `uniform` -/
def UBig.uniform (cfg : Cfg) (attempts : Nat) (range : UBig) : TDraw (Option UBig) := do
  ofT (Timed.assertR (range.beq (.small 0) = false))
  match range with
  | .small w => do
    let x ← TDraw.uniform w
    pure (some (.small x))
  | .large b => UBig.uniformLarge cfg attempts b.words

/-- /repo/src/rand.rs:131-136 `UniformUBig::sample` -/
def UniformUBig.sample (cfg : Cfg) (attempts : Nat) (d : UniformUBig) : TDraw (Option UBig) := do
  let o ← UBig.uniform cfg attempts d.range
  match o with
  | none => pure none
  | some u => do
    let v ← ofT (Timed.UBig.add cfg .val .ref u d.offset)
    pure (some v)

/-- /repo/src/rand.rs:192-197 `UniformIBig::sample` -/
def UniformIBig.sample (cfg : Cfg) (attempts : Nat) (d : UniformIBig) : TDraw (Option IBig) := do
  let o ← UBig.uniform cfg attempts d.range
  match o with
  | none => pure none
  | some u => do
    let v ← ofT (Timed.IBig.add cfg .val .ref (.ofUBig u) d.offset)
    pure (some v)

end TDraw

namespace Timed

/-- /repo/src/rand.rs:102-115 `UniformUBig::new` -/
def UniformUBig.new (cfg : Cfg) (low high : UBig) : Timed UniformUBig := do
  let range ← UBig.sub cfg .ref .ref high low
  tick
  if range.beq (.small 0) then throwT .emptyRange
  else do
    let offset ← UBig.clone cfg low
    pure ⟨range, offset⟩

/-- /repo/src/rand.rs:118-128 `UniformUBig::new_inclusive` -/
def UniformUBig.newInclusive (cfg : Cfg) (low high : UBig) : Timed UniformUBig := do
  let d ← UBig.sub cfg .ref .ref high low
  let range ← UBig.add cfg .val .val d (.small 1)
  let offset ← UBig.clone cfg low
  pure ⟨range, offset⟩

/-- `cmp` of /repo/src/cmp.rs on signed numbers, where one is zero -/
def IBig.cmpZero (x y : IBig) : Timed Ordering := pass 3 (Ibig.IBig.cmp x y)

/-- `clone` -/
def IBig.clone (cfg : Cfg) (a : IBig) : Timed IBig := pass (a.mag.len + 1) (Ibig.IBig.clone cfg a)

/-- /repo/src/rand.rs:166-172, also 182-188 -/
def UniformIBig.ofRange (cfg : Cfg) (range low : IBig) : Timed UniformIBig := do
  let zero ← IBig.fromUnsigned cfg 8 0
  let c ← IBig.cmpZero range zero
  if c ≠ .gt then throwT .emptyRange
  else do
    let r ← IBig.unsignedAbs cfg .val range
    let offset ← IBig.clone cfg low
    pure ⟨r, offset⟩

/-- /repo/src/rand.rs:160-173 `UniformIBig::new` -/
def UniformIBig.new (cfg : Cfg) (low high : IBig) : Timed UniformIBig := do
  let range ← IBig.sub cfg .ref .ref high low
  UniformIBig.ofRange cfg range low

/-- /repo/src/rand.rs:176-189 `UniformIBig::new_inclusive` -/
def UniformIBig.newInclusive (cfg : Cfg) (low high : IBig) : Timed UniformIBig := do
  let d ← IBig.sub cfg .ref .ref high low
  let one ← IBig.fromUnsigned cfg 8 1
  let range ← IBig.add cfg .val .val d one
  UniformIBig.ofRange cfg range low

end Timed

namespace TDraw

/-- drawing a number from a range, as in `genUBig` (Spec/RandSeq.lean): `new` or `new_inclusive`, then `sample` -/
def genUBig (cfg : Cfg) (inclusive : Bool) (low high : UBig) (t : Nat) : TDraw (Option UBig) := do
  let d ← ofT (if inclusive then Timed.UniformUBig.newInclusive cfg low high else Timed.UniformUBig.new cfg low high)
  UniformUBig.sample cfg t d

/-- the same for `IBig` -/
def genIBig (cfg : Cfg) (inclusive : Bool) (low high : IBig) (t : Nat) : TDraw (Option IBig) := do
  let d ← ofT (if inclusive then Timed.UniformIBig.newInclusive cfg low high else Timed.UniformIBig.new cfg low high)
  UniformIBig.sample cfg t d

end TDraw

end Ibig
