import Mathlib.Data.Nat.Size
import Verif.Spec.Number
import Verif.Model.Modular
/-!
# Specification: modular rings and their elements

`IsRing cfg r n`: the ring object `r` was created by `ModuloRing::new(&n)`.
`Elem cfg r x k`: `x` is an element of the ring object `r`, standing for the residue `k`.
The arithmetic itself is specified with `%` on integers, in the property theorems.
-/
namespace Ibig

/-- `r` is what `ModuloRing::new(&n)` returned (at the address `r.addr`). -/
def IsRing (cfg : Cfg) (r : Ring) (n : Nat) : Prop :=
  ∃ m : UBig, m.WF cfg ∧ m.value cfg = n ∧ Ring.new cfg r.addr m = .ok r

/-- The values of type `Modulo` that belong to the ring object `r`; `k` is the residue.  The crate keeps
`k * 2^shift`, where `shift` is the number of leading zeros of the modulus
(/repo/src/modular/modulo.rs:28-45), below the equally shifted modulus. -/
def Elem (cfg : Cfg) (r : Ring) (x : Modulo) (k : Nat) : Prop :=
  match r.repr, x with
  | .small s, .small x => x.addr = r.addr ∧ x.ring = s ∧ x.raw = k * 2 ^ s.shift ∧ x.raw < s.modulus
  | .large l, .large x => x.addr = r.addr ∧ x.ring = l ∧ IsWords cfg.W x.words ∧
      x.words.length = l.modulus.length ∧ val cfg.W x.words = k * 2 ^ l.shift ∧
      val cfg.W x.words < val cfg.W l.modulus
  | _, _ => False

/-- The number of unused bits in the top word of `n`. -/
def spareBits (W n : Nat) : Nat := (W - Nat.size n % W) % W

/-- The numbers `x` that a ring with modulus `n` accepts: all of them if the modulus has one word; otherwise `x`
must not exceed the size limit when it is shifted left by the unused bits of the top word of `n`. -/
def Accepts (cfg : Cfg) (n x : Nat) : Prop := n < 2 ^ cfg.W ∨ Fits cfg (x * 2 ^ spareBits cfg.W n)

end Ibig
