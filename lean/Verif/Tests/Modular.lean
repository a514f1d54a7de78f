import Verif.Tests.Basic
import Verif.Model.ModularFmt
/-! The tests of /repo/tests/modular.rs, run on the model. -/
namespace Ibig.Tests
open Ibig

/-- `let ring = ModuloRing::new(n)`, at address `addr` -/
def withRing {α : Type} (cfg : Cfg) (addr n : Nat) (k : Ring → R α) : R α := do
  let r ← Ring.new cfg addr (mkU cfg n)
  k r

/-- The result compares equal to `ring.from(z)`. -/
def isM (cfg : Cfg) (r : Ring) (z : Int) (x : R Modulo) : R Bool := do
  let x ← x
  let y ← r.fromIBig cfg .val (mkI cfg z)
  x.eq y

/-- `ring.from(z)` -/
def el (cfg : Cfg) (r : Ring) (z : Int) : R Modulo := r.fromIBig cfg .ref (mkI cfg z)

/-- All results are `true`. -/
def allR : List (R Bool) → R Bool
  | [] => .ok true
  | x :: xs => do
    let b ← x
    let c ← allR xs
    .ok (b && c)

/-- The condition holds. -/
def holds : R Bool → Bool := isV true

-- test_modulus, tests/modular.rs
example : onAll (fun cfg => isU cfg 100 (withRing cfg 1 100 fun r => r.modulus cfg) &&
    isU cfg (10 ^ 100) (withRing cfg 1 (10 ^ 100) fun r => r.modulus cfg)) = true := by decide +kernel

-- test_clone, tests/modular.rs
example : onAll (fun cfg => [100, 1000000000000000000000000000000].all fun n => holds (withRing cfg 1 n fun r => do
    let x ← el cfg r 512
    let z ← el cfg r 513
    let e1 ← x.eq x.clone
    let e2 ← x.eq z
    let z ← z.cloneFrom x
    let e3 ← x.eq z
    .ok (e1 && !e2 && e3))) = true := by decide +kernel

example : onAll (fun cfg => [(100, 1000000000000000000000000000000), (10 ^ 100, 1000000000000000000000000000000)].all
    fun (m, n) => holds (withRing cfg 1 m fun r1 => withRing cfg 2 n fun r2 => do
      let x ← el cfg r1 512
      let y ← el cfg r2 1
      let x ← x.cloneFrom y
      x.eq y)) = true := by decide +kernel

-- test_convert, tests/modular.rs
example : onAll (fun cfg => holds (withRing cfg 1 100 fun r => allR ([
      (PTy.u 8, 106), (.u 16, 106), (.u 32, 1006), (.u 64, 10000000006), (.u 128, 1000000000000000000006), (.u cfg.U, 106),
      (.i 8, 6), (.i 8, -94), (.i 16, -94), (.i 32, -94), (.i 64, -94), (.i 128, -94), (.i cfg.U, -94)].map
    fun (t, z) => isM cfg r 6 (r.fromPrim cfg t z)))) = true := by decide +kernel

example : onAll (fun cfg => owns fun o => holds (withRing cfg 1 100 fun r => allR [
    isM cfg r 6 (r.fromUBig cfg o (mkU cfg 306)), isM cfg r 6 (r.fromUBig cfg o (mkU cfg 18297381723918723981723981723906)),
    isM cfg r 6 (r.fromIBig cfg o (mkI cfg 18297381723918723981723981723906)),
    isM cfg r 6 (r.fromIBig cfg o (mkI cfg (-18297381723918723981723981723994))),
    isM cfg r 0 (r.fromBool cfg false), isM cfg r 1 (r.fromBool cfg true)]) &&
    isV false (withRing cfg 1 100 fun r => isM cfg r 6 (r.fromUBig cfg o (mkU cfg 313))) &&
    isV false (withRing cfg 1 100 fun r => isM cfg r 6 (r.fromUBig cfg o (mkU cfg 18297381723918723981723981723913)))) =
    true := by decide +kernel

example : onAll (fun cfg => owns fun o => holds (withRing cfg 1 (10 ^ 60) fun r => allR [
    isM cfg r 6 (r.fromUBig cfg o (mkU cfg (10 ^ 60 + 6))),
    isM cfg r 333333333333333333333333333333
      (r.fromUBig cfg o (mkU cfg 7000000000000000000000000000000333333333333333333333333333333))]) &&
    isV false (withRing cfg 1 (10 ^ 60) fun r => isM cfg r 6 (r.fromUBig cfg o (mkU cfg (10 ^ 60 + 7))))) = true := by
  decide +kernel

-- test_negate, tests/modular.rs
example : onAll (fun cfg => isU cfg 34 (withRing cfg 1 100 fun r => do
      let x ← el cfg r (-1234)
      let y ← x.neg cfg.W
      y.residue cfg) &&
    isU cfg 123456789012345678901234567890 (withRing cfg 1 1000000000000000000000000000000 fun r => do
      let x ← el cfg r (-33333123456789012345678901234567890)
      let y ← x.neg cfg.W
      y.residue cfg) &&
    holds (withRing cfg 1 1000000000000000000000000000000 fun r => do
      let x ← el cfg r (-33333123456789012345678901234567890)
      isM cfg r 44444123456789012345678901234567890 (x.neg cfg.W))) = true := by decide +kernel

-- test_different_rings, tests/modular.rs
example : onAll (fun cfg => holds (withRing cfg 1 100 fun r1 => withRing cfg 2 100 fun r2 =>
    .ok (r1.eq r1 && !r1.eq r2))) = true := by decide +kernel

/-- An operation on 5 modulo 100 and 5 modulo 200 panics. -/
def diffPanics (cfg : Cfg) {α : Type} (op : Modulo → Modulo → R α) : Bool :=
  panics .differentRings (withRing cfg 1 100 fun r1 => withRing cfg 2 200 fun r2 => do
    let x ← el cfg r1 1
    let y ← el cfg r2 1
    op x y)

-- test_cmp_different_rings, test_{add,sub,mul,div}_different_rings, tests/modular.rs
example : onAll (fun cfg => diffPanics cfg Modulo.eq && (owns2 fun o o' => diffPanics cfg (Modulo.add cfg.W o o') &&
    diffPanics cfg (Modulo.sub cfg.W o o') && diffPanics cfg (Modulo.mul cfg o o')) &&
    diffPanics cfg (Modulo.div cfg)) = true := by decide +kernel

-- test_add_sub, tests/modular.rs
example : onAll (fun cfg => ([(100, 1, 2, 3), (100, 99, 5, 4), (100, 99, 99, 98),
      (1000000000000000000000000000000, 111111111111111111111111111111, 222222222222222223333333333333,
        333333333333333334444444444444),
      (1000000000000000000000000000000, 111111111111111111111111111111, 888888888888888888888888888889, 0),
      (1000000000000000000000000000000, 999999999999999999999999999999, 999999999999999999999999999997,
        999999999999999999999999999996)] : List (Nat × Int × Int × Int)).all fun (n, a, b, c) => owns2 fun o o' =>
    holds (withRing cfg 1 n fun r => do
      let x ← el cfg r a
      let y ← el cfg r b
      let z ← el cfg r c
      allR [isM cfg r c (x.add cfg.W o o' y), isM cfg r c (y.add cfg.W o o' x),
        isM cfg r b (z.sub cfg.W o o' x), isM cfg r a (z.sub cfg.W o o' y)])) = true := by decide +kernel

-- test_mul, tests/modular.rs (10^200 instead of 10^10000)
example : onAll (fun cfg => ([(100, 23, 96, 8),
      (1000000000000000000000000000000, 46301564276035228370597101114, 170100953649249045221461413048,
        399394418012748758198974935472),
      (10 ^ 200, 10 ^ 200 - 1, 10 ^ 200 - 1, 1)] : List (Nat × Int × Int × Int)).all fun (n, a, b, c) => owns2 fun o o' =>
    holds (withRing cfg 1 n fun r => do
      let x ← el cfg r a
      let y ← el cfg r b
      allR [isM cfg r c (x.mul cfg o o' y), isM cfg r c (y.mul cfg o o' x)])) = true := by decide +kernel

/-- `unwrap` -/
def unwrapM (x : R (Option Modulo)) : R Modulo := do
  match ← x with
  | some m => .ok m
  | none => .error .unwrap

-- test_inverse, tests/modular.rs
example : onAll (fun cfg => ([(1, 0, 0), (103, 20, 67),
      (1000000000000000000000000000057, 123456789, 951144331155413413514262063034)] : List (Nat × Int × Int)).all
    fun (n, a, e) => holds (withRing cfg 1 n fun r => do
      let x ← el cfg r a
      isM cfg r e (unwrapM (x.inverse cfg)))) = true := by decide +kernel

example : onAll (fun cfg => ([(100, 9), (1000000000000000000000000000000, 3333312345678901234567890123456789)] :
      List (Nat × Int)).all fun (n, a) => holds (withRing cfg 1 n fun r => do
      let x ← el cfg r a
      let y ← unwrapM (x.inverse cfg)
      isM cfg r 1 (x.mul cfg .val .val y))) = true := by decide +kernel

example : onAll (fun cfg => ([100, 1000000000000000000000000000000] : List Nat).all fun n =>
    holds (withRing cfg 1 n fun r => do
      let x ← el cfg r 10
      let y ← x.inverse cfg
      .ok y.isNone)) = true := by decide +kernel

-- test_div, test_div_by_noninvertible, tests/modular.rs
example : onAll (fun cfg => ([(1, 0, 0, 0), (10, 2, 3, 4)] : List (Nat × Int × Int × Int)).all (fun (n, a, b, c) =>
    holds (withRing cfg 1 n fun r => do
      let x ← el cfg r a
      let y ← el cfg r b
      isM cfg r c (x.div cfg y))) &&
    panics .notInvertible (withRing cfg 1 100 fun r => do
      let x ← el cfg r 10
      let y ← el cfg r 2
      x.div cfg y)) = true := by decide +kernel

-- test_pow, tests/modular.rs (smaller exponents instead of the last two)
example : onAll (fun cfg => ([(100, 0, 0, 1), (100, 13, 0, 1), (100, 13, 1, 13), (100, 13, 2, 69), (100, 13, 12837918273, 53),
      (1000000000000000000000000000000, 658571505947767552546868380533, 0, 1),
      (1000000000000000000000000000000, 658571505947767552546868380533, 1, 658571505947767552546868380533)] :
      List (Nat × Int × Nat × Int)).all
    fun (n, a, e, c) => holds (withRing cfg 1 n fun r => do
      let x ← el cfg r a
      isM cfg r c (x.pow cfg (mkU cfg e)))) = true := by decide +kernel

example : ([(100, 13, (1 <<< 200) * 40 + 3, 97), (1000000000000000000000000000000, 658571505947767552546868380533,
        794990856522773482558337459018, 660533815789733011052086421209), (2 ^ 89 - 1, 13, 2 ^ 89 - 2, 1)] :
      List (Nat × Int × Nat × Int)).all
    (fun (n, a, e, c) => holds (withRing cfg64 1 n fun r => do
      let x ← el cfg64 r a
      isM cfg64 r c (x.pow cfg64 (mkU cfg64 e)))) = true := by decide +kernel

-- test_pow_signed, test_pow_signed_noninvertible, tests/modular.rs
example : onAll (fun cfg => ([(100, 2, 10, 24), (100, 3, -3, 63)] : List (Nat × Int × Int × Int)).all (fun (n, a, e, c) =>
    holds (withRing cfg 1 n fun r => do
      let x ← el cfg r a
      isM cfg r c (x.powSigned cfg (mkI cfg e)))) &&
    panics .notInvertible (withRing cfg 1 100 fun r => do
      let x ← el cfg r 2
      x.powSigned cfg (mkI cfg (-2)))) = true := by decide +kernel

-- test_format, tests/modular.rs
example : onAll (fun cfg => isV (asciiBytes "mod 100") (withRing cfg 1 100 fun r => r.fmt cfg false .display .default) &&
    ([("", "5 (mod 100)"), ("=^5", "==5== (mod =100=)"), ("b", "101 (mod 1100100)"), ("o", "5 (mod 144)"),
      ("#x", "0x5 (mod 0x64)"), ("X", "5 (mod 64)")] : List (String × String)).all fun (s, e) =>
    isV (asciiBytes e) (withRing cfg 1 100 fun r => do
      let x ← el cfg r 105
      format s fun t => x.fmt cfg false t)) = true := by decide +kernel

example : onAll (fun cfg => isV (asciiBytes "mod 1000000000000000000000000000000")
      (withRing cfg 1 1000000000000000000000000000000 fun r => r.fmt cfg false .display .default) &&
    ([("", "999999999999999999999999999999 (mod 1000000000000000000000000000000)"),
      ("35", "     999999999999999999999999999999 (mod     1000000000000000000000000000000)"),
      ("b", "1100100111110010110010011100110100000100011001110100111011011110101000111111111111111111111111111111 (mod 1100100111110010110010011100110100000100011001110100111011011110101001000000000000000000000000000000)"),
      ("#o", "0o1447626234640431647336507777777777 (mod 0o1447626234640431647336510000000000)"),
      ("x", "c9f2c9cd04674edea3fffffff (mod c9f2c9cd04674edea40000000)"),
      ("X", "C9F2C9CD04674EDEA3FFFFFFF (mod C9F2C9CD04674EDEA40000000)")] : List (String × String)).all fun (s, e) =>
    isV (asciiBytes e) (withRing cfg 1 1000000000000000000000000000000 fun r => do
      let x ← el cfg r 1
      let x ← x.neg cfg.W
      format s fun t => x.fmt cfg false t)) = true := by decide +kernel

end Ibig.Tests
