import Verif.Model.Parse
import Verif.Model.Convert
/-!
Model of /repo/src/macros.rs.

The argument of a macro is the text that `stringify!` makes of the identifier or literal token, or, for the
form `ubig!(literal)`, the value of the literal of type `u128`.  That `stringify!` gives the token as written,
and that rustc rejects literals that are not `u128`s, is trusted.
-/
namespace Ibig

/-- `Result::expect` applied to a result of parsing -/
def expectP {α : Type} (x : R (PRes α)) : R α := do
  match ← x with
  | .ok a => .ok a
  | .error _ => .error .unwrap

/-- /repo/src/macros.rs:36-43 `ubig!(ident)` -/
def ubigIdent (cfg : Cfg) (s : List Nat) : R UBig :=
  expectP (UBig.fromStrWithRadixPrefix cfg (stripPrefixOr [95] s))

/-- /repo/src/macros.rs:44-48, 53-57 `ubig!(ident base radix)`, `ubig!(literal base radix)` -/
def ubigBase (cfg : Cfg) (s : List Nat) (radix : Nat) : R UBig :=
  expectP (UBig.fromStrRadix cfg (stripPrefixOr [95] s) radix)

/-- /repo/src/macros.rs:49-52 `ubig!(literal)` -/
def ubigLiteral (cfg : Cfg) (n : Nat) : R UBig := UBig.fromUnsigned cfg 128 n

/-- /repo/src/macros.rs:93-125 the `ibig!` macro: `IBig::from(ubig!(..))`, negated if there is a `-` -/
def ibigOfUbig (cfg : Cfg) (minus : Bool) (x : R UBig) : R IBig := do
  let u ← x
  let i := IBig.ofUBig u
  if minus then i.negOwn cfg .val else .ok i

/-- /repo/src/macros.rs:93-95, 109-111 `ibig!(ident)`, `ibig!(- ident)` -/
def ibigIdent (cfg : Cfg) (minus : Bool) (s : List Nat) : R IBig := ibigOfUbig cfg minus (ubigIdent cfg s)

/-- /repo/src/macros.rs:96-100, 104-108, 112-116, 120-124 `ibig!(.. base radix)`, `ibig!(- .. base radix)` -/
def ibigBase (cfg : Cfg) (minus : Bool) (s : List Nat) (radix : Nat) : R IBig :=
  ibigOfUbig cfg minus (ubigBase cfg s radix)

/-- /repo/src/macros.rs:101-103, 117-119 `ibig!(literal)`, `ibig!(- literal)` -/
def ibigLiteral (cfg : Cfg) (minus : Bool) (n : Nat) : R IBig := ibigOfUbig cfg minus (ubigLiteral cfg n)

end Ibig
