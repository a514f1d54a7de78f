import Verif.Tests.Basic
import Verif.Model.PrimOps
import Verif.Model.Gcd
import Verif.Model.DivOps
/-! The tests of /repo/tests/{add,mul,div,gcd,shift}.rs, run on the model. -/
namespace Ibig.Tests
open Ibig

/-- `test_add_sub`: `a + b = c`, `c - a = b`. -/
def addSubU (cfg : Cfg) (a b c : Nat) : Bool :=
  owns2 fun o o' => isU cfg c (UBig.add cfg o o' (mkU cfg a) (mkU cfg b)) &&
    isU cfg b (UBig.sub cfg o o' (mkU cfg c) (mkU cfg a))

/-- `test_add_sub`: `a + b = c`, `c - a = b`. -/
def addSubI (cfg : Cfg) (a b c : Int) : Bool :=
  owns2 fun o o' => isI cfg c (IBig.add cfg o o' (mkI cfg a) (mkI cfg b)) &&
    isI cfg b (IBig.sub cfg o o' (mkI cfg c) (mkI cfg a))

-- test_add_sub_ubig, tests/add.rs
example : onAll (fun cfg => ([(3, 4, 7), (0xffffffffffffffff, 1, 0x10000000000000000),
      (0x10000000000000003, 4, 0x10000000000000007),
      (0xeeeeeeeeeeeeeeeeffffffffffffffff, 1, 0xeeeeeeeeeeeeeeef0000000000000000),
      (0xffffffffffffffffffffffffffffffff, 2, 0x100000000000000000000000000000001),
      (0x88888888888888888888888888888888, 0x88888888888888888888888888888888, 0x111111111111111111111111111111110),
      (0x888888888888888888888888888888888888888888888888, 0x88888888888888888888888888888888,
        0x888888888888888911111111111111111111111111111110),
      (0x888888888888888888888888888888888888888888888888, 0, 0x888888888888888888888888888888888888888888888888)] :
      List (Nat × Nat × Nat)).all fun (a, b, c) => addSubU cfg a b c && addSubU cfg b a c) = true := by decide +kernel

-- test_sub_ubig_overflow, tests/add.rs
example : onAll (fun cfg => owns2 fun o o' => panics .negativeUBig (UBig.sub cfg o o' (mkU cfg 3) (mkU cfg 4))) = true := by
  decide +kernel

-- test_add_sub_ibig, tests/add.rs
example : onAll (fun cfg => ([(3, 4, 7), (3, -4, -1), (-3, 4, 1), (-3, -4, -7),
      (0x10000000000000000, -4, 0xfffffffffffffffc),
      (0x10000000000000000, 0x200000000000000000000000000000000, 0x200000000000000010000000000000000),
      (-0x200000000000000010000000000000000, 0x200000000000000000000000000000000, -0x10000000000000000),
      (0x200000000000000010000000000000000, -0x200000000000000000000000000000000, 0x10000000000000000)] :
      List (Int × Int × Int)).all fun (a, b, c) => addSubI cfg a b c && addSubI cfg b a c) = true := by decide +kernel

-- test_add_sub_ubig_primitive, tests/add.rs
example : onAll (fun cfg => owns fun o =>
    isU cfg 10 (UBig.addUnsigned cfg o (mkU cfg 3) 16 7) && isU cfg 2 (UBig.subUnsigned cfg o (mkU cfg 7) 16 5) &&
    isU cfg 2 (UBig.addSigned cfg o (mkU cfg 3) 32 (-1)) && isU cfg 4 (UBig.subSigned cfg o (mkU cfg 3) 32 (-1)) &&
    isU cfg 4 (do let x ← UBig.addSigned cfg o (mkU cfg 3) 32 (-1); x.addSigned cfg o 32 2) &&
    isU cfg 2 (do let x ← UBig.subSigned cfg o (mkU cfg 3) 32 (-1); x.subSigned cfg o 32 2) &&
    -- test_add_ubig_primitive_overflow, test_sub_ubig_primitive_overflow
    panics .negativeUBig (UBig.addSigned cfg o (mkU cfg 3) 16 (-5)) &&
    panics .negativeUBig (UBig.subUnsigned cfg o (mkU cfg 3) 16 5)) = true := by decide +kernel

-- test_add_sub_ibig_primitive, tests/add.rs
example : onAll (fun cfg => owns fun o =>
    isI cfg 4 (IBig.addPrim cfg o (mkI cfg (-3)) (.u 16) 7) && isI cfg 2 (IBig.subPrim cfg o (mkI cfg 7) (.u 16) 5) &&
    isI cfg (-2) (IBig.subFromPrim cfg o (mkI cfg 7) (.u 16) 5) &&
    isI cfg 2 (IBig.addPrim cfg o (mkI cfg 3) (.i 32) (-1)) && isI cfg 4 (IBig.subPrim cfg o (mkI cfg 3) (.i 32) (-1)) &&
    isI cfg (-1) (IBig.subFromPrim cfg o (mkI cfg 4) (.i 32) 3)) = true := by decide +kernel

-- test_mul_ubig, tests/mul.rs
example : onAll (fun cfg => ([(0, 4, 0), (3, 4, 12), (0x123456789abc, 0x444333222111fff, 0x4daae4d8531f8de7e1fb5ae544),
      (0, 1 <<< 100, 0), (1, 0x123456789123456789123456789123456789, 0x123456789123456789123456789123456789),
      (0x10, 0x123456789123456789123456789123456789, 0x1234567891234567891234567891234567890),
      (0x1000000000000000, 0x123456789123456789123456789123456789, 0x123456789123456789123456789123456789000000000000000),
      (0x123456789123456789123456789123456789123456789123456789, 0xabcdefabcdefabcdefabcdefabcdef,
        0xc379ab6dbd40ef67e528bfffd3039491348e20491348e20491348d5ccf67db24c3a1cca8f7891375de7)] :
      List (Nat × Nat × Nat)).all fun (a, b, c) => owns2 fun o o' =>
    isU cfg c (UBig.mul cfg o o' (mkU cfg a) (mkU cfg b)) &&
    isU cfg c (UBig.mul cfg o o' (mkU cfg b) (mkU cfg a))) = true := by decide +kernel

-- test_mul_ibig, tests/mul.rs
example : onAll (fun cfg => ([(3, 4, 12), (-3, 4, -12), (-3, -4, 12)] : List (Int × Int × Int)).all fun (a, b, c) =>
    owns2 fun o o' => isI cfg c (IBig.mul cfg o o' (mkI cfg a) (mkI cfg b)) &&
      isI cfg c (IBig.mul cfg o o' (mkI cfg b) (mkI cfg a))) = true := by decide +kernel

-- test_mul_ubig_primitive, test_mul_ubig_primitive_overflow, test_mul_ibig_primitive, tests/mul.rs
example : onAll (fun cfg => owns fun o =>
    isU cfg 12 (UBig.mulUnsigned cfg o (mkU cfg 3) 8 4) && isU cfg 12 (UBig.mulSigned cfg o (mkU cfg 3) 32 4) &&
    isU cfg 0 (UBig.mulSigned cfg o (mkU cfg 0) 32 (-1)) && isU cfg 0 (UBig.mulSigned cfg o (mkU cfg 5) 32 0) &&
    panics .negativeUBig (UBig.mulSigned cfg o (mkU cfg 3) 32 (-5)) &&
    isI cfg (-12) (IBig.mulPrim cfg o (mkI cfg (-3)) (.u 8) 4) &&
    isI cfg 12 (IBig.mulPrim cfg o (mkI cfg (-3)) (.i 32) (-4))) = true := by decide +kernel

-- test_div_rem_ubig, tests/div.rs (without the divisions by thousands of bits)
example : onAll (fun cfg => ([(331, 10, 33, 1),
      (17, 0x987987123984798abbcc213789723948792138479837492837498cc, 0, 17),
      (0x987987123984798abbcc213789723948792138479837492837498cc, 0x1234,
        0x86054c502f0a4e43e2d0de91f1029d251ce67bbdb88dc3edbb40, 0xfcc),
      (0x987987123984798abbcc213789723948792138479837492837498cc, 0x1000,
        0x987987123984798abbcc21378972394879213847983749283749, 0x8cc),
      (0x987987123984798abbcc213789723948792138479837492837498cc, 0xf234567812345678,
        0xa128cfb49d0d746cc0295e163c343aafbffbfa8, 0x9068d997bb10520c),
      (0x987987123984798abbcc213789723948792138479837492837498ce,
        0x987987123984798abbcc213789723948792138479837492837498cc, 1, 2),
      (0xffffffffffffffffffffffffffffffff00000000000000000000000000000000,
        0xffffffffffffffffffffffffffffffff0000000000000001, 0xffffffffffffffff,
        0xfffffffffffffffffffffffffffffffe0000000000000001),
      (0x2b8f1bb75f1ca5bf3400549a663d503d298da7f53942cd3c5c6a1bc50598d091e8ca30896413783e9b001572e28808c4dc9598bdd17ef3ce35b40e0368b60,
        0x3e880309f5e48d145337aae47694a74f2860db8e49665f03978f1b11665dc80,
        0xb254145d6f736c22ed5fca6a41f4c883a59fc32c638710758bb50fa532b31f,
        0x195afda8e35e347c65ed01409c73d1c820ed78a87e83cf6cfdad1a25fb357e0),
      (0x3e880309f5e48d145337aae47694a74f2860db8e49665f03978f1b11665dc80,
        0x2b8f1bb75f1ca5bf3400549a663d503d298da7f53942cd3c5c6a1bc50598d091e8ca30896413783e9b001572e28808c4dc9598bdd17ef3ce35b40e0368b60,
        0, 0x3e880309f5e48d145337aae47694a74f2860db8e49665f03978f1b11665dc80),
      (0xb39cfff485a5dbf4d6aae030b91bfb0ec6bba389cd8d7f85bba3985c19c5e24e40c543a123c6e028a873e9e3874e1b4623a44be39b34e67dc5c2670,
        0x359ba2b98ca11d6864a331b45ae7114c01ffbdcf60cc16e692fb63c6e219,
        0x359ba2b98ca11d6864a331b45ae7114c01ffbdcf60cc16e692fb63c6e218,
        0x359ba2b98ca11d6864a331b45ae7114c01ffbdcf60cc16e692fb63c6e218),
      (0x16dc8782276b9f7addf9768f33c8007ce903866a4546c1a190, 0x4c8077a58a0a8cb7c24960e57,
        0x4c8077a58a0a8cb7c24960e56, 0x4c8077a58a0a8cb7c24960e56)] :
      List (Nat × Nat × Nat × Nat)).all fun (a, b, q, r) => owns2 fun o o' =>
    isU cfg q (UBig.div cfg o o' (mkU cfg a) (mkU cfg b)) && isU cfg r (UBig.rem cfg o o' (mkU cfg a) (mkU cfg b)) &&
    isUU cfg q r (UBig.divRem cfg o o' (mkU cfg a) (mkU cfg b)) &&
    isU cfg q (UBig.divEuclid cfg o o' (mkU cfg a) (mkU cfg b)) &&
    isU cfg r (UBig.remEuclid cfg o o' (mkU cfg a) (mkU cfg b)) &&
    isUU cfg q r (UBig.divRemEuclid cfg o o' (mkU cfg a) (mkU cfg b))) = true := by decide +kernel

-- test_divide_by_0_ubig, test_divide_by_0_ibig, tests/div.rs
example : onAll (fun cfg => owns2 fun o o' => panics .divideByZero (UBig.div cfg o o' (mkU cfg 5) (mkU cfg 0)) &&
    panics .divideByZero (IBig.div cfg o o' (mkI cfg 5) (mkI cfg 0))) = true := by decide +kernel

-- test_div_rem_ibig, test_div_rem_euclid_ibig, tests/div.rs (64-bit words; some of the pairs)
example : ((ints (-20) 41).all fun a => [-20, -19, -7, -3, -2, -1, 1, 2, 3, 6, 11, 19, 20].all fun b =>
    owns2 fun o o' =>
    isI cfg64 (a.tdiv b) (IBig.div cfg64 o o' (mkI cfg64 a) (mkI cfg64 b)) &&
    isI cfg64 (a.tmod b) (IBig.rem cfg64 o o' (mkI cfg64 a) (mkI cfg64 b)) &&
    isII cfg64 (a.tdiv b) (a.tmod b) (IBig.divRem cfg64 o o' (mkI cfg64 a) (mkI cfg64 b)) &&
    isI cfg64 (a / b) (IBig.divEuclid cfg64 o o' (mkI cfg64 a) (mkI cfg64 b)) &&
    isI cfg64 (a % b) (IBig.remEuclid cfg64 o o' (mkI cfg64 a) (mkI cfg64 b)) &&
    isII cfg64 (a / b) (a % b) (IBig.divRemEuclid cfg64 o o' (mkI cfg64 a) (mkI cfg64 b))) = true := by
  decide +kernel

-- test_div_rem_ubig_unsigned, test_div_rem_euclid_ubig_unsigned, tests/div.rs
example : onAll (fun cfg => owns fun o =>
    isU cfg 2 (UBig.divUnsigned cfg o (mkU cfg 23) 8 10) && isV 3 (UBig.remUnsigned cfg o (mkU cfg 23) 8 10) &&
    isU cfg 3 (UBig.remAssignUnsigned cfg (mkU cfg 23) 8 10) &&
    isUV cfg 2 3 (UBig.divRemUnsigned cfg o (mkU cfg 23) 8 10)) = true := by decide +kernel

-- test_div_rem_ubig_signed and the overflow tests, tests/div.rs
example : onAll (fun cfg => owns fun o =>
    isU cfg 2 (UBig.divSigned cfg o (mkU cfg 23) 32 10) && isV 3 (UBig.remSigned cfg o (mkU cfg 23) 32 10) &&
    isU cfg 3 (UBig.remAssignSigned cfg (mkU cfg 23) 32 10) &&
    isUV cfg 2 3 (UBig.divRemSigned cfg o (mkU cfg 23) 32 10) &&
    isU cfg 0 (UBig.divSigned cfg o (mkU cfg 3) 32 (-100)) && isV 1 (UBig.remSigned cfg o (mkU cfg 21) 32 (-10)) &&
    isUV cfg 0 1 (UBig.divRemSigned cfg o (mkU cfg 1) 32 (-10)) &&
    panics .negativeUBig (UBig.divSigned cfg o (mkU cfg 100) 32 (-10)) &&
    panics .negativeUBig (UBig.divRemSigned cfg o (mkU cfg 101) 32 (-10)) &&
    isU cfg 2 (UBig.divEuclidSigned cfg o (mkU cfg 23) 32 10) &&
    isUV cfg 2 3 (UBig.divRemEuclidSigned cfg o (mkU cfg 23) 32 10) &&
    isU cfg 0 (UBig.divEuclidSigned cfg o (mkU cfg 1) 32 (-10)) &&
    isUV cfg 0 1 (UBig.divRemEuclidSigned cfg o (mkU cfg 1) 32 (-10)) &&
    panics .negativeUBig (UBig.divEuclidSigned cfg o (mkU cfg 11) 32 (-10)) &&
    panics .negativeUBig (UBig.divRemEuclidSigned cfg o (mkU cfg 11) 32 (-10))) = true := by decide +kernel

-- test_div_rem_ibig_unsigned, test_div_rem_euclid_ibig_unsigned, tests/div.rs
example : onAll (fun cfg => owns fun o =>
    isI cfg (-2) (IBig.divPrim cfg o (mkI cfg (-23)) (.u 8) 10) &&
    isI cfg (-3) (IBig.remPrimBig cfg o (mkI cfg (-23)) (.u 8) 10) &&
    isII cfg (-2) (-3) (IBig.divRemUnsigned cfg o (mkI cfg (-23)) 8 10) &&
    isI cfg (-3) (IBig.divEuclidPrim cfg o (mkI cfg (-23)) (.u 8) 10) &&
    isV 7 (IBig.remEuclidPrim cfg o (mkI cfg (-23)) (.u 8) 10) &&
    isIV cfg (-3) 7 (IBig.divRemEuclidPrim cfg o (mkI cfg (-23)) (.u 8) 10)) = true := by decide +kernel

-- test_div_rem_ibig_signed, test_div_rem_euclid_ibig_signed, tests/div.rs
example : onAll (fun cfg => owns fun o =>
    isI cfg 2 (IBig.divPrim cfg o (mkI cfg (-23)) (.i 32) (-10)) &&
    isV (-3) (IBig.remSigned cfg o (mkI cfg (-23)) 32 (-10)) &&
    isI cfg (-3) (IBig.remPrimBig cfg o (mkI cfg (-23)) (.i 32) (-10)) &&
    isIV cfg 2 (-3) (IBig.divRemSigned cfg o (mkI cfg (-23)) 32 (-10)) &&
    isI cfg 3 (IBig.divEuclidPrim cfg o (mkI cfg (-23)) (.i 32) (-10)) &&
    isV 7 (IBig.remEuclidPrim cfg o (mkI cfg (-23)) (.i 32) (-10)) &&
    isIV cfg 3 7 (IBig.divRemEuclidPrim cfg o (mkI cfg (-23)) (.i 32) (-10))) = true := by decide +kernel

/-- The integer of a result of the model. -/
def intOf (cfg : Cfg) (x : IBig) : Int :=
  (if x.sign = .neg then -1 else 1) * (val cfg.W x.mag.asWords : Int)

/-- The checks of `extended_gcd` in tests/gcd.rs. -/
def isExtGcd (cfg : Cfg) (a b g : Nat) : R (UBig × IBig × IBig) → Bool
  | .ok (d, x, y) => d.beq (mkU cfg g) && decide (intOf cfg x * a + intOf cfg y * b = g) &&
      decide ((intOf cfg x).natAbs ≤ max b 1) && decide ((intOf cfg y).natAbs ≤ max a 1)
  | .error _ => false

/-- The checks of `extended_gcd` in tests/gcd.rs. -/
def isExtGcdI (cfg : Cfg) (a b : Int) (g : Nat) : R (IBig × IBig × IBig) → Bool
  | .ok (d, x, y) => d.beq (mkI cfg g) && decide (intOf cfg x * a + intOf cfg y * b = g) &&
      decide ((intOf cfg x).natAbs ≤ max b.natAbs 1) && decide ((intOf cfg y).natAbs ≤ max a.natAbs 1)
  | .error _ => false

-- test_gcd_ubig, tests/gcd.rs
example : onAll (fun cfg => ([(0, 123, 123), (1, 123, 1), (123, 123, 123),
      (0, 0x123456789123456789123456789123456789, 0x123456789123456789123456789123456789),
      (1, 0x123456789123456789123456789123456789, 1),
      (0x123456789123456789123456789123456789, 0x123456789123456789123456789123456789, 0x123456789123456789123456789123456789),
      (3, 7, 1), (8, 9, 1), (42, 56, 14), (7966496, 314080416, 32)] :
      List (Nat × Nat × Nat)).all fun (a, b, c) => [(a, b), (b, a)].all fun (a, b) =>
    isU cfg c (UBig.gcd cfg (mkU cfg a) (mkU cfg b)) &&
    isExtGcd cfg a b c (UBig.extendedGcd cfg (mkU cfg a) (mkU cfg b))) = true := by decide +kernel

example : ([(0x123456789123456789123456789123456789, 0x987654321, 0x2d),
      (0x5a4653ca673768565b41f775d6947d55cf3813d1, 0x1000000000000000000000000000000000000000, 1),
      (0xffffffffffffffffffffffff1, 0x7ffffffffffffffffffffff8d, 1),
      (0xffffffffffffffffffffffffffffff61, 0xffffffffffffffffffffffffffffff53, 1),
      (0x3ffffffffffffffffffffffffffffffffffffd, 0x1fffffffffffffffffffffffffffffffffffe1, 1),
      (0x123456789123456789123456789123456789, 0x987654321987654321987654321987654321, 0x2d00000002d00000002d00000002d)] :
      List (Nat × Nat × Nat)).all (fun (a, b, c) => [(a, b), (b, a)].all fun (a, b) =>
    isU cfg64 c (UBig.gcd cfg64 (mkU cfg64 a) (mkU cfg64 b)) &&
    isExtGcd cfg64 a b c (UBig.extendedGcd cfg64 (mkU cfg64 a) (mkU cfg64 b))) = true := by decide +kernel

example : ((ints 0 21).all fun a => (ints 0 21).all fun b => (a == 0 && b == 0) ||
    isU cfg64 (Int.gcd a b) (UBig.gcd cfg64 (mkU cfg64 a.natAbs) (mkU cfg64 b.natAbs)) &&
    isExtGcd cfg64 a.natAbs b.natAbs (Int.gcd a b)
      (UBig.extendedGcd cfg64 (mkU cfg64 a.natAbs) (mkU cfg64 b.natAbs))) = true := by decide +kernel

-- test_gcd_ubig_0_0, test_extended_gcd_ubig_0_0, test_gcd_ibig_0_0, test_extended_gcd_ibig_0_0, tests/gcd.rs
example : onAll (fun cfg => panics .gcdZero (UBig.gcd cfg (mkU cfg 0) (mkU cfg 0)) &&
    panics .gcdZero (UBig.extendedGcd cfg (mkU cfg 0) (mkU cfg 0)) &&
    panics .gcdZero (IBig.gcd cfg (mkI cfg 0) (mkI cfg 0)) &&
    panics .gcdZero (IBig.extendedGcd cfg (mkI cfg 0) (mkI cfg 0))) = true := by decide +kernel

-- test_gcd_ibig, tests/gcd.rs (some of the pairs)
example : onAll (fun cfg => ([(12, 18), (12, -18), (-12, 18), (-12, -18)] : List (Int × Int)).all fun (a, b) =>
    isI cfg 6 (IBig.gcd cfg (mkI cfg a) (mkI cfg b))) = true := by decide +kernel

example : ((ints (-20) 41).all fun a => [-20, -12, -5, -1, 0, 1, 2, 15, 16].all fun b => (a == 0 && b == 0) ||
    isI cfg64 (Int.gcd a b) (IBig.gcd cfg64 (mkI cfg64 a) (mkI cfg64 b)) &&
    isExtGcdI cfg64 a b (Int.gcd a b) (IBig.extendedGcd cfg64 (mkI cfg64 a) (mkI cfg64 b))) = true := by decide +kernel

-- test_ubig_shl, tests/shift.rs
example : onAll (fun cfg => ([(0, 17, 0), (0xef, 0, 0xef), (0xef, 4, 0xef0), (0xef, 128, 0xef00000000000000000000000000000000),
      (0xef, 124, 0xef0000000000000000000000000000000), (0xef, 10240, 0xef <<< 10240), (0xef, 10244, 0xef <<< 10244),
      (0x0123456789abcdef0123456789abcdef, 0, 0x0123456789abcdef0123456789abcdef),
      (0x0123456789abcdef0123456789abcdef, 4, 0x0123456789abcdef0123456789abcdef0),
      (0x0123456789abcdef0123456789abcdef, 128, 0x0123456789abcdef0123456789abcdef00000000000000000000000000000000),
      (0x0123456789abcdef0123456789abcdef, 124, 0x0123456789abcdef0123456789abcdef0000000000000000000000000000000),
      (0x0123456789abcdef0123456789abcdef, 10240, 0x0123456789abcdef0123456789abcdef <<< 10240),
      (0x0123456789abcdef0123456789abcdef, 10244, 0x0123456789abcdef0123456789abcdef <<< 10244)] :
      List (Nat × Nat × Nat)).all fun (a, n, e) => owns fun o => isU cfg e ((mkU cfg a).shl cfg o n)) = true := by
  decide +kernel

-- test_ubig_shl_too_large, test_ibig_shl, tests/shift.rs
example : (owns fun o => panics .tooLarge ((mkU cfg16 1).shl cfg16 o (2 ^ cfg16.U - 1)) &&
    panics .tooLarge ((mkU cfg64 1).shl cfg64 o (2 ^ cfg64.U - 1))) = true := by decide +kernel

example : onAll (fun cfg => owns fun o => isI cfg 0 ((mkI cfg 0).shl cfg o 4) && isI cfg 0 ((mkI cfg 0).shl cfg o (2 ^ cfg.U - 1)) &&
    isI cfg 0xef0 ((mkI cfg 0xef).shl cfg o 4)) = true := by decide +kernel

-- test_ubig_shr, tests/shift.rs (`>> 1000000` only if that is a `usize`)
example : onAll (fun cfg => ([(0xef, 4, 0xe), (0xef, 100, 0), (0xef, 2 ^ cfg.U - 1, 0), (0xef <<< 63, 63, 0xef),
      (0xef <<< 64, 64, 0xef), (0xef <<< 1023, 1023, 0xef), (0xef <<< 1024, 1024, 0xef), (0xef <<< 1024, 512, 0xef <<< 512),
      (0xef <<< 1024, 510, 0xef <<< 514), (0xef <<< 514, 514, 0xef),
      (0x0123456789abcdef0123456789abcdef0123456789abcdef, 0, 0x0123456789abcdef0123456789abcdef0123456789abcdef),
      (0x0123456789abcdef0123456789abcdef0123456789abcdef, 1000000 % 2 ^ cfg.U, 0),
      (0x0123456789abcdef0123456789abcdef0123456789abcdef, 1000001 % 2 ^ cfg.U, 0),
      (0x0123456789abcdef0123456789abcdef0123456789abcdef, 4, 0x0123456789abcdef0123456789abcdef0123456789abcde),
      (0x0123456789abcdef0123456789abcdef0123456789abcdef, 64, 0x0123456789abcdef0123456789abcdef),
      (0x0123456789abcdef0123456789abcdef0123456789abcdef, 124, 0x123456789abcdef0),
      (0x0123456789abcdef0123456789abcdef0123456789abcdef, 128, 0x123456789abcdef)] :
      List (Nat × Nat × Nat)).all fun (a, n, e) => owns fun o => isU cfg e ((mkU cfg a).shr cfg o n)) = true := by
  decide +kernel

-- test_ibig_shr, tests/shift.rs
example : onAll (fun cfg => ([(0xe0, 4, 0xe), (0xef, 4, 0xe), (0xef, 100, 0), (-0xe0, 4, -0xe), (-0xef, 4, -0xf),
      (-0xef, 100, -1), (0xff <<< 1000, 1000, 0xff), (0xff <<< 1000 + 1, 1000, 0xff), (-(0xff <<< 1000), 1000, -0xff),
      (-(0xff <<< 1000) - 1, 1000, -0x100), (-(0xff <<< 1000) - 1 <<< 999, 1000, -0x100), (-(0xff <<< 1000), 2000, -1)] :
      List (Int × Nat × Int)).all fun (a, n, e) => owns fun o => isI cfg e ((mkI cfg a).shr cfg o n)) = true := by
  decide +kernel

end Ibig.Tests
