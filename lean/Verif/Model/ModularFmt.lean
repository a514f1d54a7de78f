import Verif.Model.Modular
import Verif.Model.Fmt
/-!
Model of /repo/src/modular/fmt.rs.

The small representations hand a primitive `Word` to the formatting traits of `core`.  `primFmt` models
`core::fmt`'s integer formatting with `Formatter::pad_integral` (standard library, trusted).  As in Fmt.lean the
sink does not fail, and `Debug` is `Display`.  Failing sinks are modelled in FmtSink.lean; the flags of `{:x?}` and
`{:X?}`, which `core` honours for primitive integers, in DebugHex.lean.
-/
namespace Ibig

/-- The digits that `core::fmt` prints for a primitive integer, least significant first.  The first number
bounds their number. -/
def coreDigitsRev (radix : Nat) (upper : Bool) : Nat → Nat → List Nat
  | 0, _ => []
  | fuel + 1, n =>
    let d := n % radix
    let c := if d < 10 then 48 + d else if upper then 65 + (d - 10) else 97 + (d - 10)
    if n / radix = 0 then [c] else c :: coreDigitsRev radix upper fuel (n / radix)

/-- `core::fmt::Formatter::pad_integral` for a nonnegative number -/
def padIntegral (f : FmtFlags) (pre digits : List Nat) : List Nat :=
  let text := (if f.plus then [43] else []) ++ (if f.alternate then pre else [])
  match f.width with
  | none => text ++ digits
  | some w =>
    let n := text.length + digits.length
    if w ≤ n then text ++ digits
    else if f.zero then text ++ List.replicate (w - n) 48 ++ digits
    else
      let left := leftFill f (w - n)
      List.replicate left f.fill ++ (text ++ digits) ++ List.replicate (w - n - left) f.fill

/-- `core::fmt::{Display, Debug, Binary, Octal, LowerHex, UpperHex}` for a primitive unsigned integer of `W`
bits -/
def primFmt (W : Nat) (t : FmtTrait) (n : Nat) (f : FmtFlags) : List Nat :=
  padIntegral f t.pre (coreDigitsRev t.radix (decide (t = .upperHex)) (W + 1) n).reverse

/-- The string `"mod "` -/
def modText : List Nat := [109, 111, 100, 32]

/-- /repo/src/modular/fmt.rs:11-33 `fmt for ModuloRing`, `ModuloRingSmall`, `ModuloRingLarge` -/
def Ring.fmt (cfg : Cfg) (be : Bool) (t : FmtTrait) (r : Ring) (f : FmtFlags) : R (List Nat) :=
  match r.repr with
  | .small s => do
    let m ← s.getModulus cfg.W
    .ok (modText ++ primFmt cfg.W t m f)
  | .large l => do
    let m ← l.getModulus cfg
    let text ← m.fmt cfg be t f
    .ok (modText ++ text)

/-- /repo/src/modular/fmt.rs:35-60 `fmt for Modulo`, `ModuloSmall`, `ModuloLarge` -/
def Modulo.fmt (cfg : Cfg) (be : Bool) (t : FmtTrait) (x : Modulo) (f : FmtFlags) : R (List Nat) :=
  match x with
  | .small x => do
    let k ← x.ring.residue cfg.W x.raw
    let ring ← Ring.fmt cfg be t ⟨x.addr, .small x.ring⟩ f
    .ok (primFmt cfg.W t k f ++ [32, 40] ++ ring ++ [41])
  | .large x => do
    let k ← x.residue cfg
    let text ← k.fmt cfg be t f
    let ring ← Ring.fmt cfg be t ⟨x.addr, .large x.ring⟩ f
    .ok (text ++ [32, 40] ++ ring ++ [41])

end Ibig
