import Verif.Tests.Basic
import Verif.Model.PrimOps
/-! The tests of /repo/tests/bits.rs, run on the model. -/
namespace Ibig.Tests
open Ibig

-- test_bit, tests/bits.rs
example : onAll (fun cfg => ([(0, 0, false), (0, 1000, false), (0b11101, 0, true), (0b11101, 1, false), (0b11101, 4, true),
      (0b11101, 5, false), (0b11101, 1000, false), (0xffffffffffffffffffffffffffffffff, 127, true),
      (0xffffffffffffffffffffffffffffffff, 128, false)] : List (Nat × Nat × Bool)).all fun (a, n, e) =>
    isV e ((mkU cfg a).bit cfg n)) = true := by decide +kernel

-- test_set_bit, tests/bits.rs
example : onAll (fun cfg => ([(0, 3, 0b1000), (0b1000, 129, 0x200000000000000000000000000000008),
      (0x200000000000000000000000000000008, 1, 0x20000000000000000000000000000000a),
      (0x20000000000000000000000000000000a, 1, 0x20000000000000000000000000000000a),
      (0x20000000000000000000000000000000a, 127, 0x28000000000000000000000000000000a),
      (0x28000000000000000000000000000000a, 194, 0x400000000000000028000000000000000000000000000000a)] :
      List (Nat × Nat × Nat)).all fun (a, n, e) => isU cfg e ((mkU cfg a).setBit cfg n)) = true := by decide +kernel

-- test_clear_bit, tests/bits.rs
example : onAll (fun cfg => ([
      (0x400000000000000028000000000000000000000000000000a, 10000, 0x400000000000000028000000000000000000000000000000a),
      (0x400000000000000028000000000000000000000000000000a, 194, 0x28000000000000000000000000000000a),
      (0x28000000000000000000000000000000a, 1, 0x280000000000000000000000000000008),
      (0x280000000000000000000000000000008, 129, 0x80000000000000000000000000000008),
      (0x80000000000000000000000000000008, 127, 0b1000), (0b1000, 3, 0)] :
      List (Nat × Nat × Nat)).all fun (a, n, e) => isU cfg e ((mkU cfg a).clearBit cfg n)) = true := by decide +kernel

-- test_trailing_zeros, test_bit_len, tests/bits.rs
example : onAll (fun cfg => ([(0, none, 0), (0xf0000, some 16, 20),
      (0xfffffffffffffffffffff00000000000000000000000000000000000000000000000000, some 200, 284)] :
      List (Nat × Option Nat × Nat)).all fun (a, e, l) =>
    isV e ((mkU cfg a).trailingZeros cfg) && isV e ((mkI cfg a).trailingZeros cfg) &&
    isV e ((mkI cfg (-a)).trailingZeros cfg) && isV l ((mkU cfg a).bitLen cfg)) = true := by decide +kernel

-- test_is_power_of_two, tests/bits.rs
example : onAll (fun cfg => ([(0, false), (1, true), (16, true), (17, false),
      (0x4000000000000000000000000000000000000000000000, true), (0x5000000000000000000000000000000000000000000000, false),
      (0x4000000000000000000000010000000000000000000000, false)] : List (Nat × Bool)).all fun (a, e) =>
    isV e (mkU cfg a).isPowerOfTwo) = true := by decide +kernel

-- test_next_power_of_two, tests/bits.rs
example : onAll (fun cfg => ([(0, 1), (16, 16), (17, 32), (0xffffffff, 0x100000000),
      (0xffffffffffffffff, 0x10000000000000000),
      (0xffffffffffffffffffffffffffffffff, 0x100000000000000000000000000000000),
      (0xf0000000000000000000000000000000, 0x100000000000000000000000000000000),
      (0xffffffffffffffff0000000000000000, 0x100000000000000000000000000000000),
      (0x100000000000000000000000000000000, 0x100000000000000000000000000000000),
      (0x100000000000000000000000000000001, 0x200000000000000000000000000000000),
      (0x100100000000000000000000000000000, 0x200000000000000000000000000000000)] : List (Nat × Nat)).all fun (a, e) =>
    owns fun o => isU cfg e ((mkU cfg a).nextPowerOfTwo cfg o)) = true := by decide +kernel

-- test_and_ubig, test_or_ubig, test_xor_ubig, test_and_not_ubig, tests/bits.rs
example : onAll (fun cfg => ([(0xf0f0, 0xff00, 0xf000, 0xfff0, 0xff0, 0xf0),
      (0xeeeeeeeeeeeeeeeeeeeeeeeeeeeeeeee, 0xff, 0xee, 0xeeeeeeeeeeeeeeeeeeeeeeeeeeeeeeff,
        0xeeeeeeeeeeeeeeeeeeeeeeeeeeeeee11, 0xeeeeeeeeeeeeeeeeeeeeeeeeeeeeee00),
      (0xff, 0xeeeeeeeeeeeeeeeeeeeeeeeeeeeeeeee, 0xee, 0xeeeeeeeeeeeeeeeeeeeeeeeeeeeeeeff,
        0xeeeeeeeeeeeeeeeeeeeeeeeeeeeeee11, 0x11),
      (0xeeeeeeeeeeeeeeeeeeeeeeeeeeeeeeee, 0xdddddddddddddddddddddddddddddddddddddddddddddddddddddddddddddddd,
        0xcccccccccccccccccccccccccccccccc, 0xddddddddddddddddddddddddddddddddffffffffffffffffffffffffffffffff,
        0xdddddddddddddddddddddddddddddddd33333333333333333333333333333333, 0x22222222222222222222222222222222),
      (0xdddddddddddddddddddddddddddddddddddddddddddddddddddddddddddddddd, 0xeeeeeeeeeeeeeeeeeeeeeeeeeeeeeeee,
        0xcccccccccccccccccccccccccccccccc, 0xddddddddddddddddddddddddddddddddffffffffffffffffffffffffffffffff,
        0xdddddddddddddddddddddddddddddddd33333333333333333333333333333333,
        0xdddddddddddddddddddddddddddddddd11111111111111111111111111111111)] :
      List (Nat × Nat × Nat × Nat × Nat × Nat)).all fun (a, b, c, d, e, f) => owns2 fun o o' =>
    isU cfg c (UBig.bitand cfg o o' (mkU cfg a) (mkU cfg b)) && isU cfg d (UBig.bitor cfg o o' (mkU cfg a) (mkU cfg b)) &&
    isU cfg e (UBig.bitxor cfg o o' (mkU cfg a) (mkU cfg b)) &&
    isU cfg f (UBig.andNot cfg o o' (mkU cfg a) (mkU cfg b))) = true := by decide +kernel

/-- An `i8` operation. -/
def i8op (f : Nat → Nat → Nat) (a b : Int) : Int := asSigned 8 (f (asUnsigned 8 a) (asUnsigned 8 b))

-- test_not_ibig, tests/bits.rs
example : onAll (fun cfg => (ints (-20) 41).all fun a => owns fun o =>
    isI cfg (asSigned 8 (255 - asUnsigned 8 a)) ((mkI cfg a).not cfg o)) = true := by decide +kernel

-- test_and_ibig, test_or_ibig, test_xor_ibig, test_and_not_ibig, tests/bits.rs (64-bit words; some of the pairs)
example : ((ints (-20) 41).all fun a => [-20, -17, -16, -15, -9, -8, -2, -1, 0, 1, 2, 7, 8, 12, 15, 16, 19].all fun b =>
    owns2 fun o o' =>
    isI cfg64 (i8op (· &&& ·) a b) (IBig.bitand cfg64 o o' (mkI cfg64 a) (mkI cfg64 b)) &&
    isI cfg64 (i8op (· ||| ·) a b) (IBig.bitor cfg64 o o' (mkI cfg64 a) (mkI cfg64 b)) &&
    isI cfg64 (i8op (· ^^^ ·) a b) (IBig.bitxor cfg64 o o' (mkI cfg64 a) (mkI cfg64 b)) &&
    isI cfg64 (i8op (fun x y => x &&& (255 - y)) a b) (IBig.andNot cfg64 o o' (mkI cfg64 a) (mkI cfg64 b))) = true := by
  decide +kernel

-- test_bit_ops_ubig_unsigned, tests/bits.rs
example : onAll (fun cfg => owns fun o =>
    isV 0xf (UBig.bitandUnsigned cfg o (mkU cfg 0xf0f) 8 0xff) &&
    isU cfg 0xf (UBig.bitandAssignUnsigned cfg (mkU cfg 0xf0f) 8 0xff) &&
    isU cfg 0xfff (UBig.bitorUnsigned cfg o (mkU cfg 0xf0f) 8 0xff) &&
    isU cfg 0xff0 (UBig.bitxorUnsigned cfg o (mkU cfg 0xf0f) 8 0xff) &&
    isU cfg 0xf00 (UBig.andNotUnsigned cfg o (mkU cfg 0xf0f) 8 0xff)) = true := by decide +kernel

-- test_bit_ops_ubig_signed, test_ubig_or_signed_overflow, test_ubig_xor_signed_overflow, tests/bits.rs
example : onAll (fun cfg => owns fun o =>
    isU cfg 0xf (UBig.bitandSigned cfg o (mkU cfg 0xf0f) 32 0xff) &&
    isU cfg 0xf0e (UBig.bitandSigned cfg o (mkU cfg 0xf0f) 32 (-2)) &&
    isU cfg 0xfff (UBig.bitorSigned cfg o (mkU cfg 0xf0f) 32 0xff) &&
    isU cfg 0xff0 (UBig.bitxorSigned cfg o (mkU cfg 0xf0f) 32 0xff) &&
    isU cfg 0xf00 (UBig.andNotSigned cfg o (mkU cfg 0xf0f) 32 0xff) &&
    isU cfg 1 (UBig.andNotSigned cfg o (mkU cfg 0xf0f) 32 (-2)) &&
    panics .negativeUBig (UBig.bitorSigned cfg o (mkU cfg 1) 32 (-1)) &&
    panics .negativeUBig (UBig.bitxorSigned cfg o (mkU cfg 1) 32 (-1))) = true := by decide +kernel

-- test_bit_ops_ibig_primitive, tests/bits.rs
example : onAll (fun cfg => owns fun o =>
    isV 0xf (IBig.bitandUnsigned cfg o (mkI cfg 0xf0f) 8 0xff) && isV 0xff (IBig.bitandUnsigned cfg o (mkI cfg (-1)) 8 0xff) &&
    isI cfg 0xf (IBig.bitandPrimBig cfg o (mkI cfg 0xf0f) (.i 32) 0xff) &&
    isI cfg (-1) (IBig.bitandPrimBig cfg o (mkI cfg (-1)) (.i 32) (-1)) &&
    isI cfg 0xfff (IBig.bitorPrim cfg o (mkI cfg 0xf0f) (.i 32) 0xff) &&
    isI cfg (-1) (IBig.bitorPrim cfg o (mkI cfg 17) (.i 32) (-1)) &&
    isI cfg 0xff0 (IBig.bitxorPrim cfg o (mkI cfg 0xf0f) (.i 32) 0xff) &&
    isI cfg 0xff0 (IBig.bitxorPrim cfg o (mkI cfg 0xf0f) (.u 8) 0xff) &&
    isI cfg 0 (IBig.bitxorPrim cfg o (mkI cfg (-1)) (.i 32) (-1)) &&
    isI cfg 0xf00 (IBig.andNotPrim cfg o (mkI cfg 0xf0f) (.i 32) 0xff) &&
    isI cfg 0 (IBig.andNotPrim cfg o (mkI cfg (-13)) (.i 32) (-1))) = true := by decide +kernel

end Ibig.Tests
