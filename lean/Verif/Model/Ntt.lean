import Verif.Model.Modular
/-!
Model of /repo/src/mul/ntt.rs and of the tables /repo/src/arch/generic_{16,32,64}_bit/ntt.rs.

Everything there is a compile-time constant.  An element of the three-prime ring (`RingElement`) is the list of
its three components.
-/
namespace Ibig

/-- /repo/src/mul/ntt.rs:15-20 `Prime` -/
structure NttPrime where
  prime : Nat
  root : Nat
deriving DecidableEq, Repr

/-- /repo/src/arch/generic_16_bit/ntt.rs:9-22, generic_32_bit/ntt.rs:9-22, generic_64_bit/ntt.rs:9-22 `PRIMES` -/
def nttPrimes (W : Nat) : List NttPrime :=
  if W = 16 then [⟨0x3001, 0x29⟩, ⟨0xa001, 0x1c⟩, ⟨0xf001, 0x13⟩]
  else if W = 32 then [⟨0xc0000001, 0x3⟩, ⟨0xd0000001, 0x79⟩, ⟨0xe8000001, 0x23⟩]
  else if W = 64 then [⟨0xbe00000000000001, 0x37⟩, ⟨0xd800000000000001, 0x40⟩, ⟨0xf600000000000001, 0x1ed⟩]
  else []

/-- /repo/src/mul/ntt.rs:23-27 `FIELDS` -/
def nttFieldsOf (W : Nat) : List NttPrime → R (List RingSmall)
  | [] => .ok []
  | q :: qs => do
    let r ← RingSmall.new W q.prime
    let rs ← nttFieldsOf W qs
    .ok (r :: rs)

/-- /repo/src/mul/ntt.rs:23-27 `FIELDS` -/
def nttFields (W : Nat) : R (List RingSmall) := nttFieldsOf W (nttPrimes W)

/-- /repo/src/mul/ntt.rs:35-46 `From<Word> for RingElement` -/
def nttFromWord (W x : Nat) : List RingSmall → R (List Nat)
  | [] => .ok []
  | r :: rs => do
    let v ← r.fromWord W x
    let vs ← nttFromWord W x rs
    .ok (v :: vs)

/-- /repo/src/mul/ntt.rs:55-63 `RingElement::mul` -/
def nttMul (W : Nat) : List RingSmall → List Nat → List Nat → R (List Nat)
  | r :: rs, x :: xs, y :: ys => do
    let v ← r.mul W x y
    let vs ← nttMul W rs xs ys
    .ok (v :: vs)
  | [], [], [] => .ok []
  | _, _, _ => .error .index

/-- /repo/src/mul/ntt.rs:65-73 `RingElement::inverse` -/
def nttInverse (W : Nat) : List NttPrime → List RingSmall → List Nat → R (List Nat)
  | q :: qs, r :: rs, x :: xs => do
    let e ← ckSub q.prime 2
    let v ← r.powWord W x e
    let vs ← nttInverse W qs rs xs
    .ok (v :: vs)
  | [], [], [] => .ok []
  | _, _, _ => .error .index

/-- /repo/src/mul/ntt.rs:76-82 `MAX_ORDER_ROOT` -/
def nttMaxOrderRoot (W : Nat) : List NttPrime → List RingSmall → R (List Nat)
  | q :: qs, r :: rs => do
    let v ← r.fromWord W q.root
    let vs ← nttMaxOrderRoot W qs rs
    .ok (v :: vs)
  | [], [] => .ok []
  | _, _ => .error .index

/-- /repo/src/mul/ntt.rs:94-103 `generate_roots`: entries `0..=order`, given the last one -/
def nttGenerateRoots (W : Nat) (fields : List RingSmall) : Nat → List Nat → R (List (List Nat))
  | 0, root => .ok [root]
  | order + 1, root => do
    let sq ← nttMul W fields root root
    let table ← nttGenerateRoots W fields order sq
    .ok (table ++ [root])

/-- /repo/src/mul/ntt.rs:86-88 `ROOTS` -/
def nttRoots (W order : Nat) : R (List (List Nat)) := do
  let fields ← nttFields W
  let root ← nttMaxOrderRoot W (nttPrimes W) fields
  nttGenerateRoots W fields order root

/-- /repo/src/mul/ntt.rs:90-92 `INVERSE_ROOTS` -/
def nttInverseRoots (W order : Nat) : R (List (List Nat)) := do
  let fields ← nttFields W
  let root ← nttMaxOrderRoot W (nttPrimes W) fields
  let inv ← nttInverse W (nttPrimes W) fields root
  nttGenerateRoots W fields order inv

end Ibig
