import Verif.Model.ModularFmt
/-!
Model of `Debug` with the flags of `{:x?}` and `{:X?}`.

`core` looks at these flags when it prints a primitive integer with `Debug`; the crate never looks at them.
-/
namespace Ibig

/-- The flags of `{:?}`, `{:x?}` and `{:X?}`. -/
inductive DebugHex where
  | off
  | lower
  | upper
deriving DecidableEq, Repr

/-- /repo/src/fmt/mod.rs:31-35 `Debug for UBig`: calls `Display` -/
def UBig.debugFmt (cfg : Cfg) (be : Bool) (_ : DebugHex) (x : UBig) (f : FmtFlags) : R (List Nat) :=
  x.fmt cfg be .display f

/-- /repo/src/fmt/mod.rs:102-106 `Debug for IBig`: calls `Display` -/
def IBig.debugFmt (cfg : Cfg) (be : Bool) (_ : DebugHex) (x : IBig) (f : FmtFlags) : R (List Nat) :=
  x.fmt cfg be .display f

/-- `core::fmt::Debug` for a primitive unsigned integer of `W` bits (standard library) -/
def primDebug (W : Nat) (h : DebugHex) (n : Nat) (f : FmtFlags) : List Nat :=
  match h with
  | .off => primFmt W .display n f
  | .lower => primFmt W .lowerHex n f
  | .upper => primFmt W .upperHex n f

/-- /repo/src/modular/fmt.rs:11-33, 64 `Debug for ModuloRing`, `ModuloRingSmall`, `ModuloRingLarge` -/
def Ring.debugFmt (cfg : Cfg) (be : Bool) (h : DebugHex) (r : Ring) (f : FmtFlags) : R (List Nat) :=
  match r.repr with
  | .small s => do
    let m ← s.getModulus cfg.W
    .ok (modText ++ primDebug cfg.W h m f)
  | .large l => do
    let m ← l.getModulus cfg
    let text ← m.debugFmt cfg be h f
    .ok (modText ++ text)

/-- /repo/src/modular/fmt.rs:35-60, 64 `Debug for Modulo`, `ModuloSmall`, `ModuloLarge` -/
def Modulo.debugFmt (cfg : Cfg) (be : Bool) (h : DebugHex) (x : Modulo) (f : FmtFlags) : R (List Nat) :=
  match x with
  | .small x => do
    let k ← x.ring.residue cfg.W x.raw
    let ring ← Ring.debugFmt cfg be h ⟨x.addr, .small x.ring⟩ f
    .ok (primDebug cfg.W h k f ++ [32, 40] ++ ring ++ [41])
  | .large x => do
    let k ← x.residue cfg
    let text ← k.debugFmt cfg be h f
    let ring ← Ring.debugFmt cfg be h ⟨x.addr, .large x.ring⟩ f
    .ok (text ++ [32, 40] ++ ring ++ [41])

end Ibig
