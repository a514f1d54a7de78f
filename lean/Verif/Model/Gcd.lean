import Verif.Model.PrimOps
import Verif.Model.ShiftOps
/-! Model of greatest common divisors (/repo/src/gcd.rs). -/
namespace Ibig

/-- `a < b`: the default `PartialOrd::lt`, from /repo/src/cmp.rs -/
def UBig.lt (a b : UBig) : R Bool := do
  let o ← a.cmp b
  .ok (o == .lt)

/-- `a <= b` -/
def UBig.le (a b : UBig) : R Bool := do
  let o ← a.cmp b
  .ok (o != .gt)

/-- Bound on the number of rounds of the binary algorithms (the loops in the code have none). -/
def gcdFuel (cfg : Cfg) (a b : UBig) : Nat := (a.len + b.len) * cfg.W + 1

/-- /repo/src/gcd.rs:40-52 the loop of `UBig::gcd` -/
def UBig.gcdLoop (cfg : Cfg) : Nat → UBig → UBig → R UBig
  | 0, _, _ => .error .fuel
  | fuel + 1, a, b => do
    let z ← a.trailingZeros cfg
    match z with
    | none => .ok b
    | some z =>
      let a ← a.shr cfg .val z
      let lt ← UBig.lt a b
      let p := if lt then (b, a) else (a, b)
      let a ← UBig.sub cfg .val .ref p.1 p.2
      gcdLoop cfg fuel a p.2

/-- /repo/src/gcd.rs:27-54 `UBig::gcd`, for non-zero numbers -/
def UBig.gcdNonzero (cfg : Cfg) (a b : UBig) (aZeros bZeros : Nat) : R UBig := do
  let a ← a.shr cfg .val aZeros
  let b ← b.shr cfg .val bZeros
  let zeros := min aZeros bZeros
  let lt ← UBig.lt a b
  let p := if lt then (b, a) else (a, b)
  let a ← UBig.rem cfg .val .ref p.1 p.2
  let g ← UBig.gcdLoop cfg (gcdFuel cfg a p.2) a p.2
  g.shl cfg .val zeros

/-- /repo/src/gcd.rs:19-55 `UBig::gcd` -/
def UBig.gcd (cfg : Cfg) (x y : UBig) : R UBig := do
  let a ← x.clone cfg
  let b ← y.clone cfg
  let az ← a.trailingZeros cfg
  let bz ← b.trailingZeros cfg
  match az, bz with
  | none, none => .error .gcdZero
  | none, some _ => .ok b
  | some _, none => .ok a
  | some az, some bz => UBig.gcdNonzero cfg a b az bz

/-- One of the two triples `(a, ax, ay)`, `(b, bx, by)` of `extended_gcd`. -/
structure GcdTriple where
  a : UBig
  x : UBig
  y : UBig

/-- `&a & 1u8 == 0u8` -/
def UBig.isEven (cfg : Cfg) (a : UBig) : R Bool := do
  let m ← a.bitandUnsigned cfg .ref 8 1
  .ok (m == 0)

/-- /repo/src/gcd.rs:140-143, 157-160 `ax += &v; ay += &u` -/
def GcdTriple.addUV (cfg : Cfg) (u v : UBig) (p : GcdTriple) : R GcdTriple := do
  let x ← UBig.add cfg .val .ref p.x v
  let y ← UBig.add cfg .val .ref p.y u
  .ok ⟨p.a, x, y⟩

/-- /repo/src/gcd.rs:140-143 the conditional addition -/
def GcdTriple.makeEven (cfg : Cfg) (u v : UBig) (p : GcdTriple) : R GcdTriple := do
  let ex ← p.x.isEven cfg
  let ey ← p.y.isEven cfg
  if !ex || !ey then p.addUV cfg u v else .ok p

/-- /repo/src/gcd.rs:138-149 the inner loop -/
def GcdTriple.halve (cfg : Cfg) (u v : UBig) : Nat → GcdTriple → R GcdTriple
  | 0, _ => .error .fuel
  | fuel + 1, p => do
    let e ← p.a.isEven cfg
    if e then do
      let p ← p.makeEven cfg u v
      let a ← p.a.shr cfg .val 1
      let x ← p.x.shr cfg .val 1
      let y ← p.y.shr cfg .val 1
      halve cfg u v fuel ⟨a, x, y⟩
    else .ok p

/-- /repo/src/gcd.rs:157-160 the conditional addition -/
def GcdTriple.makeGe (cfg : Cfg) (u v : UBig) (p q : GcdTriple) : R GcdTriple := do
  let lt ← UBig.lt p.x q.x
  if lt then p.addUV cfg u v else .ok p

/-- /repo/src/gcd.rs:136-171 the outer loop of `UBig::extended_gcd` -/
def extGcdLoop (cfg : Cfg) (u v : UBig) : Nat → GcdTriple → GcdTriple → R GcdTriple
  | 0, _, _ => .error .fuel
  | fuel + 1, p, q =>
    if p.a.beq (.small 0) then .ok q
    else do
      let p ← p.halve cfg u v (p.a.len * cfg.W + 1)
      let lt ← UBig.lt p.a q.a
      let s := if lt then (q, p) else (p, q)
      let a ← UBig.sub cfg .val .ref s.1.a s.2.a
      let p ← GcdTriple.makeGe cfg u v ⟨a, s.1.x, s.1.y⟩ s.2
      let x ← UBig.sub cfg .val .ref p.x s.2.x
      let y ← UBig.sub cfg .val .ref p.y s.2.y
      extGcdLoop cfg u v fuel ⟨p.a, x, y⟩ s.2

/-- /repo/src/gcd.rs:104-126 one round of the Euclidean algorithm -/
def extGcdStart (cfg : Cfg) (u v : UBig) : R (GcdTriple × GcdTriple) := do
  let le ← UBig.le u v
  if le then do
    let d ← UBig.divRem cfg .ref .ref v u
    let a ← u.clone cfg
    let bx ← UBig.sub cfg .ref .val v d.1
    let by' ← UBig.sub cfg .ref .val u (.small 1)
    .ok (⟨a, .small 1, .small 0⟩, ⟨d.2, bx, by'⟩)
  else do
    let d ← UBig.divRem cfg .ref .ref u v
    let a ← v.clone cfg
    let ax ← v.clone cfg
    let ay ← UBig.sub cfg .ref .val u (.small 1)
    .ok (⟨a, ax, ay⟩, ⟨d.2, .small 1, d.1⟩)

/-- /repo/src/gcd.rs:87-174 `UBig::extended_gcd`, for non-zero numbers -/
def UBig.extendedGcdNonzero (cfg : Cfg) (x y : UBig) (zeros : Nat) : R (UBig × IBig × IBig) := do
  let u ← x.shr cfg .ref zeros
  let v ← y.shr cfg .ref zeros
  let s ← extGcdStart cfg u v
  let e ← s.2.a.isEven cfg
  let s := if e then (s.2, s.1) else s
  let q ← extGcdLoop cfg u v (gcdFuel cfg s.1.a s.2.a) s.1 s.2
  let g ← q.a.shl cfg .val zeros
  .ok (g, IBig.ofUBig q.x, (IBig.ofUBig q.y).neg)

/-- /repo/src/gcd.rs:80-174 `UBig::extended_gcd` -/
def UBig.extendedGcd (cfg : Cfg) (x y : UBig) : R (UBig × IBig × IBig) := do
  let xz ← x.trailingZeros cfg
  let yz ← y.trailingZeros cfg
  match xz, yz with
  | none, none => .error .gcdZero
  | none, some _ => do
    let g ← y.clone cfg
    let c0 ← IBig.fromUnsigned cfg 8 0
    let c1 ← IBig.fromUnsigned cfg 8 1
    .ok (g, c0, c1)
  | some _, none => do
    let g ← x.clone cfg
    let c1 ← IBig.fromUnsigned cfg 8 1
    let c0 ← IBig.fromUnsigned cfg 8 0
    .ok (g, c1, c0)
  | some xz, some yz => UBig.extendedGcdNonzero cfg x y (min xz yz)

/-- /repo/src/gcd.rs:190-192 `IBig::gcd` -/
def IBig.gcd (cfg : Cfg) (x y : IBig) : R IBig := do
  let g ← UBig.gcd cfg x.mag y.mag
  .ok (.ofUBig g)

/-- /repo/src/gcd.rs:216-219 `IBig::extended_gcd` -/
def IBig.extendedGcd (cfg : Cfg) (x y : IBig) : R (IBig × IBig × IBig) := do
  let r ← UBig.extendedGcd cfg x.mag y.mag
  .ok (.ofUBig r.1, .mulSign x.sign r.2.1, .mulSign y.sign r.2.2)

end Ibig
