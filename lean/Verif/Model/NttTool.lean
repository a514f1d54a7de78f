import Verif.Model.Macros
import Verif.Model.Modular
import Verif.Model.Bits
import Verif.Model.Cmp
import Verif.Model.ShiftOps
/-!
Model of /repo/dev-tools/src/bin/ntt_primes.rs, the program which found the constants of the number-theoretic
transform.

The random bases are parameters: `draw i` is what `thread_rng().gen_range(ubig!(1)..n.clone())` returns in the
attempt `i` (see `UBig.genRange` in Rand.lean, and C32, about what that is).  The endless loop of `is_prime` is cut
off after `t` attempts, with the result `none`.  The functions return the numbers that the program prints; the
last line, with a quotient of floating-point numbers, is left out.
-/
namespace Ibig

/-- /repo/dev-tools/src/bin/ntt_primes.rs:61-66: the loop of the Miller-Rabin test, for `k` values of `i` -/
def millerLoop (cfg : Cfg) (one : Modulo) : Nat → Nat → Option Nat → Modulo → R (Option Nat × Modulo)
  | 0, _, passed, p => .ok (passed, p)
  | k + 1, i, passed, p => do
    let minus ← one.neg cfg.W
    let b ← Modulo.eq p minus
    let p ← Modulo.mul cfg .ref .ref p p
    millerLoop cfg one k (i + 1) (if b then some (i + 1) else passed) p

/-- /repo/dev-tools/src/bin/ntt_primes.rs:83-89: one divisor; the result says whether the base can still be a
generator -/
def lucasStep (cfg : Cfg) (one base : Modulo) (mult : UBig) (order : Nat) (divisor : UBig) (ok : Bool) : R Bool := do
  let r ← UBig.rem cfg .ref .ref mult divisor
  let zero ← ubigLiteral cfg 0
  if r.beq zero then do
    let q ← UBig.div cfg .ref .ref mult divisor
    let exponent ← q.shl cfg .val order
    let p ← base.pow cfg exponent
    let b ← Modulo.eq p one
    .ok (if b then false else ok)
  else .ok ok

/-- /repo/dev-tools/src/bin/ntt_primes.rs:82-91: the loop over the divisors.  The first number bounds the number of
passes. -/
def lucasLoop (cfg : Cfg) (one base : Modulo) (mult : UBig) (order : Nat) : Nat → UBig → Bool → R Bool
  | 0, _, _ => .error .fuel
  | fuel + 1, divisor, ok => do
    match ← divisor.cmp mult with
    | .gt => .ok ok
    | _ => do
      let ok ← lucasStep cfg one base mult order divisor ok
      let u ← ubigLiteral cfg 1
      let divisor ← UBig.add cfg .val .val divisor u
      lucasLoop cfg one base mult order fuel divisor ok

/-- More than the number of passes of a loop that counts up to `x`. -/
def countUpTo (cfg : Cfg) : UBig → Nat
  | .small w => w + 1
  | .large b => base cfg.W ^ b.words.length

/-- /repo/dev-tools/src/bin/ntt_primes.rs:53-96: one pass of the loop with the drawn number `x`; `none` means
another pass -/
def primeAttempt (cfg : Cfg) (ring : Ring) (one : Modulo) (mult : UBig) (order : Nat) (x : UBig) :
    R (Option Bool) := do
  let base ← ring.fromUBig cfg .val x
  let p ← base.pow cfg mult
  let b ← Modulo.eq p one
  let (passed, p) ← millerLoop cfg one order 0 (if b then some 0 else none) p
  if passed = none then .ok (some false)
  else do
    let e ← Modulo.eq p one
    assertR e
    let two ← ubigLiteral cfg 2
    let ok ← lucasLoop cfg one base mult order (countUpTo cfg mult) two (decide (passed = some order))
    .ok (if ok then some true else none)

/-- /repo/dev-tools/src/bin/ntt_primes.rs:52-97: the loop, for the attempts from `i` on -/
def primeLoop (cfg : Cfg) (ring : Ring) (one : Modulo) (mult : UBig) (order : Nat) (draw : Nat → UBig) :
    Nat → Nat → R (Option Bool)
  | 0, _ => .ok none
  | t + 1, i => do
    match ← primeAttempt cfg ring one mult order (draw i) with
    | some b => .ok (some b)
    | none => primeLoop cfg ring one mult order draw t (i + 1)

/-- /repo/dev-tools/src/bin/ntt_primes.rs:46-98 `is_prime`, with at most `t` attempts.  `addr` is the address of the
ring. -/
def isPrimeTool (cfg : Cfg) (addr : Nat) (mult : UBig) (order : Nat) (draw : Nat → UBig) (t : Nat) :
    R (Option Bool) := do
  assertR (decide (order ≥ 1))
  let s ← mult.shl cfg .ref order
  let u ← ubigLiteral cfg 1
  let n ← UBig.add cfg .val .val s u
  let ring ← Ring.new cfg addr n
  let one ← ring.fromPrim cfg (.i 32) 1
  primeLoop cfg ring one mult order draw t 0

/-- /repo/dev-tools/src/bin/ntt_primes.rs:107-109: the loop.  The first number bounds the number of passes. -/
def rootLoop (cfg : Cfg) (ring : Ring) (exponent : UBig) : Nat → UBig → R UBig
  | 0, _ => .error .fuel
  | fuel + 1, root => do
    let x ← ring.fromUBig cfg .ref root
    let p ← x.pow cfg exponent
    let m ← ring.fromPrim cfg (.i 32) (-1)
    let b ← Modulo.eq p m
    if b then .ok root
    else do
      let u ← ubigLiteral cfg 1
      let root ← UBig.add cfg .val .val root u
      rootLoop cfg ring exponent fuel root

/-- /repo/dev-tools/src/bin/ntt_primes.rs:101-111 `find_root` -/
def findRootTool (cfg : Cfg) (addr : Nat) (prime : UBig) (order : Nat) : R UBig := do
  assertR (decide (order ≥ 1))
  let ring ← Ring.new cfg addr prime
  let root ← ubigLiteral cfg 1
  let u ← ubigLiteral cfg 1
  let d ← ckSub order 1
  let exponent ← u.shl cfg .val d
  rootLoop cfg ring exponent (countUpTo cfg prime) root

/-- /repo/dev-tools/src/bin/ntt_primes.rs:19-21: `primes.push((&mult << order) + ubig!(1))` -/
def pushPrime (cfg : Cfg) (mult : UBig) (order : Nat) (isPrime : Bool) (primes : List UBig) : R (List UBig) :=
  if isPrime then do
    let s ← mult.shl cfg .ref order
    let u ← ubigLiteral cfg 1
    let n ← UBig.add cfg .val .val s u
    .ok (primes ++ [n])
  else .ok primes

/-- /repo/dev-tools/src/bin/ntt_primes.rs:17-23: the loop over `mult`.  The first number bounds the number of
passes. -/
def multLoop (cfg : Cfg) (addr : Nat) (draw : UBig → Nat → UBig) (t bits order : Nat) :
    Nat → UBig → List UBig → R (Option (List UBig))
  | 0, _, _ => .error .fuel
  | fuel + 1, mult, primes => do
    let l ← mult.bitLen cfg
    let d ← ckSub bits order
    if l ≤ d then do
      match ← isPrimeTool cfg addr mult order (draw mult) t with
      | none => .ok none
      | some b => do
        let primes ← pushPrime cfg mult order b primes
        let u ← ubigLiteral cfg 2
        let mult ← UBig.add cfg .val .val mult u
        multLoop cfg addr draw t bits order fuel mult primes
    else .ok (some primes)

/-- /repo/dev-tools/src/bin/ntt_primes.rs:14-24: the loop over `order`; `order` is its value before the pass -/
def orderLoop (cfg : Cfg) (addr : Nat) (draw : Nat → UBig → Nat → UBig) (t bits : Nat) :
    Nat → List UBig → R (Option (Nat × List UBig))
  | order, primes =>
    if 3 ≤ primes.length then .ok (some (order, primes))
    else
      match order with
      | 0 => .error .assertFailed
      | order + 1 => do
        assertR (decide (order + 1 > 1))
        let u ← ubigLiteral cfg 1
        match ← multLoop cfg addr (draw order) t bits order (2 ^ (bits - order) + 1) u primes with
        | none => .ok none
        | some primes => orderLoop cfg addr draw t bits order primes

/-- Insertion into a sorted vector. -/
def insertUBig (x : UBig) : List UBig → R (List UBig)
  | [] => .ok [x]
  | y :: l => do
    match ← x.cmp y with
    | .gt => do
      let l ← insertUBig x l
      .ok (y :: l)
    | _ => .ok (x :: y :: l)

/-- `primes.sort()` (standard library; the algorithm is not the same, but all numbers are different) -/
def sortUBigs : List UBig → R (List UBig)
  | [] => .ok []
  | x :: l => do
    let l ← sortUBigs l
    insertUBig x l

/-- /repo/dev-tools/src/bin/ntt_primes.rs:28-31: the roots -/
def rootsTool (cfg : Cfg) (addr order : Nat) : List UBig → R (List (UBig × UBig))
  | [] => .ok []
  | p :: l => do
    let root ← findRootTool cfg addr p order
    let l ← rootsTool cfg addr order l
    .ok ((p, root) :: l)

/-- /repo/dev-tools/src/bin/ntt_primes.rs:34-37: the product of the primes -/
def rangeTool (cfg : Cfg) : List UBig → UBig → R UBig
  | [], range => .ok range
  | p :: l, range => do
    let range ← UBig.mul cfg .val .ref range p
    rangeTool cfg l range

/-- /repo/dev-tools/src/bin/ntt_primes.rs:32-38: the check of the range of the last three primes -/
def checkRangeTool (cfg : Cfg) (bits order : Nat) (primes : List UBig) : R Unit := do
  let u ← ubigLiteral cfg 1
  let s ← u.shl cfg .val bits
  let u ← ubigLiteral cfg 1
  let wordMax ← UBig.sub cfg .val .val s u
  let sq ← UBig.mul cfg .ref .ref wordMax wordMax
  let d ← ckSub order 1
  let sh ← sq.shl cfg .val d
  let u ← ubigLiteral cfg 1
  let needRange ← UBig.add cfg .val .val sh u
  let start ← ckSub primes.length 3
  let u ← ubigLiteral cfg 1
  let range ← rangeTool cfg (primes.drop start) u
  match ← range.cmp needRange with
  | .lt => .error .assertFailed
  | _ => .ok ()

/-- /repo/dev-tools/src/bin/ntt_primes.rs:11-43 `print_primes`: the order, and the primes with their roots; `none`
if one of the loops of `is_prime` was cut off.  `draw order mult` are the random numbers for the test of
`mult * 2^order + 1`. -/
def printPrimes (cfg : Cfg) (addr : Nat) (draw : Nat → UBig → Nat → UBig) (t bits : Nat) :
    R (Option (Nat × List (UBig × UBig))) := do
  match ← orderLoop cfg addr draw t bits bits [] with
  | none => .ok none
  | some (order, primes) => do
    let primes ← sortUBigs primes
    let roots ← rootsTool cfg addr order primes
    checkRangeTool cfg bits order primes
    .ok (some (order, roots))

end Ibig
