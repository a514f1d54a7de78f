import Verif.Model.ShiftOpsTime
import Verif.Model.BitsTime
import Verif.Model.Gcd
/-!
Greatest common divisors with the number of their steps: the text of Model/Gcd.lean with counting functions.
-/
namespace Ibig.Timed

/-- /repo/src/convert.rs:533-544 `try_to_unsigned`: a number that fits in a primitive integer, of at most 128 bits -/
def UBig.tryToUnsigned (cfg : Cfg) (bits : Nat) (x : UBig) : Timed (Option Nat) :=
  pass 32 (Ibig.UBig.tryToUnsigned cfg bits x)
/-- `Result::unwrap` -/
def unwrapR {α : Type} (x : Option α) : Timed α := pass 1 (Ibig.unwrapR x)
/-- /repo/src/convert.rs:602-604 `IBig::from_unsigned` -/
def IBig.fromUnsigned (cfg : Cfg) (bits x : Nat) : Timed IBig := pass 32 (Ibig.IBig.fromUnsigned cfg bits x)

/-- /repo/src/bits.rs:1360-1372 `bitand_unsigned`, `bitand_ref_unsigned` -/
def UBig.bitandUnsigned (cfg : Cfg) (o : Own) (a : UBig) (bits x : Nat) : Timed Nat := do
  let r ← UBig.fromUnsigned cfg bits x
  let m ← UBig.bitand cfg o .val a r
  let t ← UBig.tryToUnsigned cfg bits m
  unwrapR t

/-- /repo/src/gcd.rs:40-52 the loop of `UBig::gcd` -/
def UBig.gcdLoop (cfg : Cfg) : Nat → UBig → UBig → Timed UBig
  | 0, _, _ => throwT .fuel
  | fuel + 1, a, b => do
    tick
    let z ← UBig.trailingZeros cfg a
    match z with
    | none => pure b
    | some z =>
      let a ← UBig.shr cfg .val a z
      let lt ← UBig.lt a b
      let p := if lt then (b, a) else (a, b)
      let a ← UBig.sub cfg .val .ref p.1 p.2
      UBig.gcdLoop cfg fuel a p.2

/-- /repo/src/gcd.rs:27-54 `UBig::gcd`, for non-zero numbers -/
def UBig.gcdNonzero (cfg : Cfg) (a b : UBig) (aZeros bZeros : Nat) : Timed UBig := do
  let a ← UBig.shr cfg .val a aZeros
  let b ← UBig.shr cfg .val b bZeros
  let zeros := min aZeros bZeros
  let lt ← UBig.lt a b
  let p := if lt then (b, a) else (a, b)
  let a ← UBig.rem cfg .val .ref p.1 p.2
  let g ← UBig.gcdLoop cfg (gcdFuel cfg a p.2) a p.2
  UBig.shl cfg .val g zeros

/-- /repo/src/gcd.rs:19-55 `UBig::gcd` -/
def UBig.gcd (cfg : Cfg) (x y : UBig) : Timed UBig := do
  let a ← UBig.clone cfg x
  let b ← UBig.clone cfg y
  let az ← UBig.trailingZeros cfg a
  let bz ← UBig.trailingZeros cfg b
  match az, bz with
  | none, none => throwT .gcdZero
  | none, some _ => pure b
  | some _, none => pure a
  | some az, some bz => UBig.gcdNonzero cfg a b az bz

/-- `&a & 1u8 == 0u8` -/
def UBig.isEven (cfg : Cfg) (a : UBig) : Timed Bool := do
  let m ← UBig.bitandUnsigned cfg .ref a 8 1
  pure (m == 0)

/-- /repo/src/gcd.rs:140-143, 157-160 `ax += &v; ay += &u` -/
def GcdTriple.addUV (cfg : Cfg) (u v : UBig) (p : GcdTriple) : Timed GcdTriple := do
  let x ← UBig.add cfg .val .ref p.x v
  let y ← UBig.add cfg .val .ref p.y u
  pure ⟨p.a, x, y⟩

/-- /repo/src/gcd.rs:140-143 the conditional addition -/
def GcdTriple.makeEven (cfg : Cfg) (u v : UBig) (p : GcdTriple) : Timed GcdTriple := do
  let ex ← UBig.isEven cfg p.x
  let ey ← UBig.isEven cfg p.y
  if !ex || !ey then GcdTriple.addUV cfg u v p else pure p

/-- /repo/src/gcd.rs:138-149 the inner loop -/
def GcdTriple.halve (cfg : Cfg) (u v : UBig) : Nat → GcdTriple → Timed GcdTriple
  | 0, _ => throwT .fuel
  | fuel + 1, p => do
    tick
    let e ← UBig.isEven cfg p.a
    if e then do
      let p ← GcdTriple.makeEven cfg u v p
      let a ← UBig.shr cfg .val p.a 1
      let x ← UBig.shr cfg .val p.x 1
      let y ← UBig.shr cfg .val p.y 1
      GcdTriple.halve cfg u v fuel ⟨a, x, y⟩
    else pure p

/-- /repo/src/gcd.rs:157-160 the conditional addition -/
def GcdTriple.makeGe (cfg : Cfg) (u v : UBig) (p q : GcdTriple) : Timed GcdTriple := do
  let lt ← UBig.lt p.x q.x
  if lt then GcdTriple.addUV cfg u v p else pure p

/-- /repo/src/gcd.rs:136-171 the outer loop of `UBig::extended_gcd` -/
def extGcdLoop (cfg : Cfg) (u v : UBig) : Nat → GcdTriple → GcdTriple → Timed GcdTriple
  | 0, _, _ => throwT .fuel
  | fuel + 1, p, q => do
    tick
    if p.a.beq (.small 0) then pure q
    else do
      let p ← GcdTriple.halve cfg u v (p.a.len * cfg.W + 1) p
      let lt ← UBig.lt p.a q.a
      let s := if lt then (q, p) else (p, q)
      let a ← UBig.sub cfg .val .ref s.1.a s.2.a
      let p ← GcdTriple.makeGe cfg u v ⟨a, s.1.x, s.1.y⟩ s.2
      let x ← UBig.sub cfg .val .ref p.x s.2.x
      let y ← UBig.sub cfg .val .ref p.y s.2.y
      extGcdLoop cfg u v fuel ⟨p.a, x, y⟩ s.2

/-- /repo/src/gcd.rs:104-126 one round of the Euclidean algorithm -/
def extGcdStart (cfg : Cfg) (u v : UBig) : Timed (GcdTriple × GcdTriple) := do
  let le ← UBig.le u v
  if le then do
    let d ← UBig.divRem cfg .ref .ref v u
    let a ← UBig.clone cfg u
    let bx ← UBig.sub cfg .ref .val v d.1
    let by' ← UBig.sub cfg .ref .val u (.small 1)
    pure (⟨a, .small 1, .small 0⟩, ⟨d.2, bx, by'⟩)
  else do
    let d ← UBig.divRem cfg .ref .ref u v
    let a ← UBig.clone cfg v
    let ax ← UBig.clone cfg v
    let ay ← UBig.sub cfg .ref .val u (.small 1)
    pure (⟨a, ax, ay⟩, ⟨d.2, .small 1, d.1⟩)

/-- /repo/src/gcd.rs:87-174 `UBig::extended_gcd`, for non-zero numbers -/
def UBig.extendedGcdNonzero (cfg : Cfg) (x y : UBig) (zeros : Nat) : Timed (UBig × IBig × IBig) := do
  let u ← UBig.shr cfg .ref x zeros
  let v ← UBig.shr cfg .ref y zeros
  let s ← extGcdStart cfg u v
  let e ← UBig.isEven cfg s.2.a
  let s := if e then (s.2, s.1) else s
  let q ← extGcdLoop cfg u v (gcdFuel cfg s.1.a s.2.a) s.1 s.2
  let g ← UBig.shl cfg .val q.a zeros
  pure (g, IBig.ofUBig q.x, (IBig.ofUBig q.y).neg)

/-- /repo/src/gcd.rs:80-174 `UBig::extended_gcd` -/
def UBig.extendedGcd (cfg : Cfg) (x y : UBig) : Timed (UBig × IBig × IBig) := do
  let xz ← UBig.trailingZeros cfg x
  let yz ← UBig.trailingZeros cfg y
  match xz, yz with
  | none, none => throwT .gcdZero
  | none, some _ => do
    let g ← UBig.clone cfg y
    let c0 ← IBig.fromUnsigned cfg 8 0
    let c1 ← IBig.fromUnsigned cfg 8 1
    pure (g, c0, c1)
  | some _, none => do
    let g ← UBig.clone cfg x
    let c1 ← IBig.fromUnsigned cfg 8 1
    let c0 ← IBig.fromUnsigned cfg 8 0
    pure (g, c1, c0)
  | some xz, some yz => UBig.extendedGcdNonzero cfg x y (min xz yz)

/-- /repo/src/gcd.rs:190-192 `IBig::gcd` -/
def IBig.gcd (cfg : Cfg) (x y : IBig) : Timed IBig := do
  let g ← UBig.gcd cfg x.mag y.mag
  pure (.ofUBig g)

/-- /repo/src/gcd.rs:216-219 `IBig::extended_gcd` -/
def IBig.extendedGcd (cfg : Cfg) (x y : IBig) : Timed (IBig × IBig × IBig) := do
  let r ← UBig.extendedGcd cfg x.mag y.mag
  pure (.ofUBig r.1, .mulSign x.sign r.2.1, .mulSign y.sign r.2.2)

end Ibig.Timed
