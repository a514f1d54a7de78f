import Verif.Model.Buffer
import Verif.Model.Cmp
/-! Model of /repo/src/ubig.rs, ibig.rs, sign.rs, cmp.rs (number representations). -/
namespace Ibig

/-- /repo/src/ubig.rs:14-24, 43 `enum Repr`, `struct UBig` -/
inductive UBig where
  | small (w : Nat)
  | large (b : Buffer)
deriving DecidableEq, Repr

/-- /repo/src/ibig.rs:24-28 `struct IBig` -/
structure IBig where
  sign : Sign
  mag : UBig
deriving DecidableEq, Repr

/-- How an operand is passed: by value (`UBig`) or by reference (`&UBig`). -/
inductive Own where
  | val
  | ref
deriving DecidableEq, Repr

/-- /repo/src/ubig.rs:66-71 `len` -/
def UBig.len : UBig → Nat
  | .small _ => 1
  | .large b => b.len

/-- /repo/src/ubig.rs:75-81 `as_words` -/
def UBig.asWords : UBig → List Nat
  | .small w => if w = 0 then [] else [w]
  | .large b => b.words

/-- /repo/src/ubig.rs:142-160 `impl From<Buffer> for UBig` -/
def UBig.ofBuffer (cfg : Cfg) (buffer : Buffer) : R UBig :=
  let b := buffer.popLeadingZeros
  match b.words with
  | [] => .ok (.small 0)
  | [w] => .ok (.small w)
  | _ =>
    if cfg.maxLen < b.len then .error .tooLarge
    else do
      let b ← b.shrink cfg
      .ok (.large b)

/-- /repo/src/ubig.rs:123-128 `clone` -/
def UBig.clone (cfg : Cfg) : UBig → R UBig
  | .small w => .ok (.small w)
  | .large b => do
    let b ← b.clone cfg
    .ok (.large b)

/-- /repo/src/ubig.rs:131-139 `clone_from` -/
def UBig.cloneFrom (cfg : Cfg) : UBig → UBig → R UBig
  | .large b, .large src => do
    let b ← b.resizingCloneFrom cfg src
    .ok (.large b)
  | _, src => src.clone cfg

/-- derived `PartialEq` (/repo/src/ubig.rs:13, 42, buffer.rs:17): contents, not capacity -/
def UBig.beq : UBig → UBig → Bool
  | .small a, .small b => a == b
  | .large a, .large b => a.words == b.words
  | _, _ => false

/-- derived `Hash` (/repo/src/ubig.rs:13, 42, buffer.rs:17): the sequence of integers fed to the
hasher: enum discriminant, then the word, or the length prefix and the words of the `Vec`. -/
def UBig.hashTokens : UBig → List Nat
  | .small w => [0, w]
  | .large b => 1 :: b.len :: b.words

/-- /repo/src/cmp.rs:11-24 `Ord for UBig` -/
def UBig.cmp : UBig → UBig → R Ordering
  | .small a, .small b => .ok (compare a b)
  | .small _, .large _ => .ok .lt
  | .large _, .small _ => .ok .gt
  | .large a, .large b =>
    match compare a.len b.len with
    | .eq => cmpSameLen a.words b.words
    | o => .ok o

/-- /repo/src/convert.rs:14-20 `Default for UBig` -/
def UBig.default : UBig := .small 0

/-- /repo/src/ibig.rs:32-37 `from_sign_magnitude` -/
def IBig.fromSignMagnitude (sign : Sign) (mag : UBig) : IBig :=
  if mag.beq (.small 0) then ⟨.pos, mag⟩ else ⟨sign, mag⟩

/-- /repo/src/convert.rs:465-470 `impl From<UBig> for IBig` -/
def IBig.ofUBig (x : UBig) : IBig := .fromSignMagnitude .pos x

/-- /repo/src/convert.rs:472-477 `impl From<&UBig> for IBig`, and 465-470 by value -/
def IBig.ofUBigOwn (cfg : Cfg) (o : Own) (x : UBig) : R IBig :=
  match o with
  | .val => .ok (.ofUBig x)
  | .ref => do
    let x ← x.clone cfg
    .ok (.ofUBig x)

/-- derived `Clone` (/repo/src/ibig.rs:24) -/
def IBig.clone (cfg : Cfg) (x : IBig) : R IBig := do
  let m ← x.mag.clone cfg
  .ok ⟨x.sign, m⟩

/-- derived `PartialEq` (/repo/src/ibig.rs:24) -/
def IBig.beq (x y : IBig) : Bool := x.sign == y.sign && x.mag.beq y.mag

/-- discriminant of `Sign` (/repo/src/sign.rs:12-15) -/
def Sign.discriminant : Sign → Nat
  | .pos => 0
  | .neg => 1

/-- derived `Hash` (/repo/src/ibig.rs:24, sign.rs:10) -/
def IBig.hashTokens (x : IBig) : List Nat := x.sign.discriminant :: x.mag.hashTokens

/-- /repo/src/cmp.rs:33-43 `Ord for IBig` -/
def IBig.cmp (x y : IBig) : R Ordering :=
  match x.sign, y.sign with
  | .pos, .pos => x.mag.cmp y.mag
  | .pos, .neg => .ok .gt
  | .neg, .pos => .ok .lt
  | .neg, .neg => y.mag.cmp x.mag

/-- /repo/src/sign.rs:58-66 `Neg for IBig` -/
def IBig.neg (x : IBig) : IBig := .fromSignMagnitude x.sign.negate x.mag

/-- /repo/src/sign.rs:58-75 `Neg for IBig`, `Neg for &IBig` -/
def IBig.negOwn (cfg : Cfg) (o : Own) (x : IBig) : R IBig :=
  match o with
  | .val => .ok x.neg
  | .ref => do
    let x ← x.clone cfg
    .ok x.neg

/-- /repo/src/sign.rs:44-55 `signum` (`IBig::from(-1i8)` is `from_signed`: `Negative`, 1) -/
def IBig.signum (x : IBig) : IBig :=
  match x.sign with
  | .pos => if x.mag.beq (.small 0) then .ofUBig (.small 0) else .ofUBig (.small 1)
  | .neg => .fromSignMagnitude .neg (.small 1)

/-- /repo/src/sign.rs:95-112 `UnsignedAbs for IBig`, `UnsignedAbs for &IBig` -/
def IBig.unsignedAbs (cfg : Cfg) (o : Own) (x : IBig) : R UBig :=
  match o with
  | .val => .ok x.mag
  | .ref => x.mag.clone cfg

/-- /repo/src/sign.rs:77-93 `Abs for IBig`, `Abs for &IBig` -/
def IBig.abs (cfg : Cfg) (o : Own) (x : IBig) : R IBig := do
  let m ← x.unsignedAbs cfg o
  .ok (.ofUBig m)

/-- /repo/src/convert.rs:479-501 `TryFrom<IBig> for UBig`, `TryFrom<&IBig> for UBig`;
`none` is `Err(OutOfBoundsError)`. -/
def UBig.tryFromIBig (cfg : Cfg) (o : Own) (x : IBig) : R (Option UBig) :=
  match x.sign with
  | .pos =>
    match o with
    | .val => .ok (some x.mag)
    | .ref => do
      let m ← x.mag.clone cfg
      .ok (some m)
  | .neg => .ok none

/-- /repo/src/convert.rs:562-567 `from_ibig_panic_on_overflow` -/
def UBig.ofIBigPanic (x : IBig) : R UBig :=
  match x.sign with
  | .pos => .ok x.mag
  | .neg => .error .negativeUBig

/-- /repo/src/mul_ops.rs:162-170 `Mul<IBig> for Sign` -/
def IBig.mulSign (s : Sign) (x : IBig) : IBig := .fromSignMagnitude (s.mul x.sign) x.mag

end Ibig
