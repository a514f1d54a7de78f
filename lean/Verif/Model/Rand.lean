import Verif.Model.Memory
import Verif.Model.AddOps
import Verif.Model.Convert
/-!
Model of /repo/src/rand.rs.

A computation that uses a random number generator is a tree: a node `draw m k` asks the `rand` crate for
a uniformly distributed number below `m` and goes on with `k`.  `rng.gen_range(0..w)` is `draw w`,
`rng.gen_range(0..=w)` is `draw (w+1)`, `rng.gen()` of a `Word` is `draw (base W)`, and `rng.fill` of a slice of
words is one such draw for each word.  That `rand` itself delivers independent uniform words is trusted.
-/
namespace Ibig

/-- A computation that draws random numbers. -/
inductive Draw (α : Type) where
  | ret (a : α)
  | fail (p : Panic)
  | draw (m : Nat) (k : Nat → Draw α)

namespace Draw

/-- Sequencing. -/
def bind {α β : Type} : Draw α → (α → Draw β) → Draw β
  | .ret a, f => f a
  | .fail p, _ => .fail p
  | .draw m k, f => .draw m fun n => bind (k n) f

instance : Monad Draw where
  pure := .ret
  bind := Draw.bind

/-- A computation without random numbers. -/
def ofR {α : Type} : R α → Draw α
  | .ok a => .ret a
  | .error p => .fail p

/-- A uniformly distributed number below `m`. -/
def uniform (m : Nat) : Draw Nat := .draw m .ret

end Draw

/-- `rng.fill(&mut slice)` for a slice of `k` words (/repo/src/rand.rs:77) -/
def fillWords (W : Nat) : Nat → Draw (List Nat)
  | 0 => .ret []
  | k + 1 => do
    let x ← Draw.uniform (base W)
    let xs ← fillWords W k
    .ret (x :: xs)

/-- the loop of /repo/src/rand.rs:66-78 with the current index `i`; result: success, and the contents of
`result` -/
def tryFillLoop (W : Nat) (words : List Nat) : Nat → List Nat → Draw (Bool × List Nat)
  | 0, result => do
    let r ← Draw.ofR (getR result 0)
    let w ← Draw.ofR (getR words 0)
    if r = w then .ret (false, result)
    else
      let xs ← fillWords W 0
      .ret (true, xs ++ result.drop 0)
  | i + 1, result => do
    let r ← Draw.ofR (getR result (i + 1))
    let w ← Draw.ofR (getR words (i + 1))
    if r = w then
      let x ← Draw.uniform (base W)
      let result ← Draw.ofR (setR result i x)
      let w ← Draw.ofR (getR words i)
      if w < x then .ret (false, result)
      else tryFillLoop W words i result
    else
      let xs ← fillWords W (i + 1)
      .ret (true, xs ++ result.drop (i + 1))

/-- /repo/src/rand.rs:57-79 `try_fill_uniform` -/
def tryFillUniform (W : Nat) (words result : List Nat) : Draw (Bool × List Nat) := do
  Draw.ofR (assertR (0 < words.length ∧ result.length = words.length))
  let i := words.length - 1
  let w ← Draw.ofR (getR words i)
  let x ← Draw.uniform (w + 1)
  let result ← Draw.ofR (setR result i x)
  tryFillLoop W words i result

/-- the loop of /repo/src/rand.rs:46-48, cut off after `attempts` failures (`none`) -/
def uniformLoop (W : Nat) (words : List Nat) : Nat → List Nat → Draw (Option (List Nat))
  | 0, _ => .ret none
  | attempts + 1, result => do
    let x ← tryFillUniform W words result
    if x.1 then .ret (some x.2) else uniformLoop W words attempts x.2

/-- /repo/src/rand.rs:40-50 `uniform_large`: its state after at most `attempts` attempts -/
def UBig.uniformLarge (cfg : Cfg) (attempts : Nat) (words : List Nat) : Draw (Option UBig) := do
  let b ← Draw.ofR (Buffer.allocate cfg words.length)
  let b ← Draw.ofR (b.pushZeros words.length)
  let o ← uniformLoop cfg.W words attempts b.words
  match o with
  | none => .ret none
  | some ws => do
    let u ← Draw.ofR (UBig.ofBuffer cfg ⟨ws, b.cap⟩)
    .ret (some u)

/-- /repo/src/rand.rs:27-37 `uniform` -/
def UBig.uniform (cfg : Cfg) (attempts : Nat) (range : UBig) : Draw (Option UBig) := do
  Draw.ofR (assertR (range.beq (.small 0) = false))
  match range with
  | .small w => do
    let x ← Draw.uniform w
    .ret (some (.small x))
  | .large b => UBig.uniformLarge cfg attempts b.words

/-- /repo/src/rand.rs:93-96 `UniformUBig` -/
structure UniformUBig where
  range : UBig
  offset : UBig
deriving DecidableEq

/-- /repo/src/rand.rs:102-115 `UniformUBig::new` -/
def UniformUBig.new (cfg : Cfg) (low high : UBig) : R UniformUBig := do
  let range ← UBig.sub cfg .ref .ref high low
  if range.beq (.small 0) then .error .emptyRange
  else do
    let offset ← low.clone cfg
    .ok ⟨range, offset⟩

/-- /repo/src/rand.rs:118-128 `UniformUBig::new_inclusive` -/
def UniformUBig.newInclusive (cfg : Cfg) (low high : UBig) : R UniformUBig := do
  let d ← UBig.sub cfg .ref .ref high low
  let range ← UBig.add cfg .val .val d (.small 1)
  let offset ← low.clone cfg
  .ok ⟨range, offset⟩

/-- /repo/src/rand.rs:131-136 `UniformUBig::sample` -/
def UniformUBig.sample (cfg : Cfg) (attempts : Nat) (d : UniformUBig) : Draw (Option UBig) := do
  let o ← UBig.uniform cfg attempts d.range
  match o with
  | none => .ret none
  | some u => do
    let v ← Draw.ofR (UBig.add cfg .val .ref u d.offset)
    .ret (some v)

/-- /repo/src/rand.rs:151-154 `UniformIBig` -/
structure UniformIBig where
  range : UBig
  offset : IBig
deriving DecidableEq

/-- /repo/src/rand.rs:166-172, also 182-188 -/
def UniformIBig.ofRange (cfg : Cfg) (range low : IBig) : R UniformIBig := do
  let zero ← IBig.fromUnsigned cfg 8 0
  let c ← range.cmp zero
  if c ≠ .gt then .error .emptyRange
  else do
    let r ← range.unsignedAbs cfg .val
    let offset ← low.clone cfg
    .ok ⟨r, offset⟩

/-- /repo/src/rand.rs:160-173 `UniformIBig::new` -/
def UniformIBig.new (cfg : Cfg) (low high : IBig) : R UniformIBig := do
  let range ← IBig.sub cfg .ref .ref high low
  UniformIBig.ofRange cfg range low

/-- /repo/src/rand.rs:176-189 `UniformIBig::new_inclusive` -/
def UniformIBig.newInclusive (cfg : Cfg) (low high : IBig) : R UniformIBig := do
  let d ← IBig.sub cfg .ref .ref high low
  let one ← IBig.fromUnsigned cfg 8 1
  let range ← IBig.add cfg .val .val d one
  UniformIBig.ofRange cfg range low

/-- /repo/src/rand.rs:192-197 `UniformIBig::sample` -/
def UniformIBig.sample (cfg : Cfg) (attempts : Nat) (d : UniformIBig) : Draw (Option IBig) := do
  let o ← UBig.uniform cfg attempts d.range
  match o with
  | none => .ret none
  | some u => do
    let v ← Draw.ofR (IBig.add cfg .val .ref (.ofUBig u) d.offset)
    .ret (some v)

end Ibig
