import Verif.Tests.Basic
import Verif.Model.Float
import Verif.Model.Serde
import Verif.Model.Pow
import Verif.Model.Unwind
/-! The tests of /repo/tests/{convert,serde,sign,cmp,hash,pow}.rs, run on the model. -/
namespace Ibig.Tests
open Ibig

-- test_from_to_le_bytes, tests/convert.rs
example : onAll (fun cfg => ([([], []), (List.replicate 100 0, []), ([1, 2, 3, 0], [1, 2, 3]),
      ([0, 1, 2, 3, 4, 5, 6, 7, 8, 9, 10, 11, 12, 13, 14, 15, 16, 17],
        [0, 1, 2, 3, 4, 5, 6, 7, 8, 9, 10, 11, 12, 13, 14, 15, 16, 17])] : List (List Nat × List Nat)).all fun (a, e) =>
    isV e (do
      let x ← UBig.fromLeBytes cfg a
      x.toLeBytes cfg)) = true := by decide +kernel

-- test_from_to_be_bytes, tests/convert.rs
example : onAll (fun cfg => ([([], []), (List.replicate 100 0, []), ([0, 1, 2, 3], [1, 2, 3]),
      ([100, 1, 2, 3, 4, 5, 6, 7, 8, 9, 10, 11, 12, 13, 14, 15, 16, 17],
        [100, 1, 2, 3, 4, 5, 6, 7, 8, 9, 10, 11, 12, 13, 14, 15, 16, 17])] : List (List Nat × List Nat)).all fun (a, e) =>
    isV e (do
      let x ← UBig.fromBeBytes cfg a
      x.toBeBytes cfg)) = true := by decide +kernel

-- test_ubig_from_unsigned, tests/convert.rs
example : onAll (fun cfg => ([(8, 0xf1, [0xf1]), (16, 0xf123, [0xf1, 0x23]),
      (32, 0xf1234567, [0xf1, 0x23, 0x45, 0x67]),
      (64, 0xf123456701234567, [0xf1, 0x23, 0x45, 0x67, 0x01, 0x23, 0x45, 0x67]),
      (128, 0xf1234567012345670123456701234567,
        [0xf1, 0x23, 0x45, 0x67, 0x01, 0x23, 0x45, 0x67, 0x01, 0x23, 0x45, 0x67, 0x01, 0x23, 0x45, 0x67]),
      (128, 5, [5]), (cfg.U, 5, [5])] : List (Nat × Nat × List Nat)).all fun (b, n, e) =>
    isU cfg n (UBig.fromUnsigned cfg b n) && isU cfg n (UBig.fromBeBytes cfg e)) = true := by decide +kernel

-- test_ubig_from_bool, test_ibig_from_bool, tests/convert.rs
example : onAll (fun cfg => isU cfg 0 (UBig.fromBool cfg false) && isU cfg 1 (UBig.fromBool cfg true) &&
    isI cfg 0 (IBig.fromBool cfg false) && isI cfg 1 (IBig.fromBool cfg true)) = true := by decide +kernel

/-- The optional result is the number `n`. -/
def isOU (cfg : Cfg) (e : Option Nat) (x : R (Option UBig)) : Bool :=
  match x with
  | .ok (some x) => match e with
    | some n => x.beq (mkU cfg n)
    | none => false
  | .ok none => decide (e = none)
  | .error _ => false

-- test_ubig_from_signed, tests/convert.rs
example : onAll (fun cfg => isOU cfg none (UBig.tryFromSigned cfg 32 (-5)) &&
    isOU cfg (some 5) (UBig.tryFromSigned cfg 32 5) &&
    isOU cfg (some (5 <<< 120)) (UBig.tryFromSigned cfg 128 (5 <<< 120 : Nat))) = true := by decide +kernel

-- test_ubig_to_unsigned, test_ubig_to_signed, tests/convert.rs
example : onAll (fun cfg => ([
      (.u 8, 0xee, some 0xee), (.u 8, 0x123, none), (.u 16, 0x1234, some 0x1234), (.u 16, 0x12345, none),
      (.u 32, 0xf1234567, some 0xf1234567), (.u 32, 0x101234567, none),
      (.u 64, 0xf123456789abcdef, some 0xf123456789abcdef), (.u 64, 0x10123456789abcdef, none),
      (.u 128, 0xf123456789abcdef0123456789abcdef, some 0xf123456789abcdef0123456789abcdef),
      (.u 8, 0x0100010203040506070809101112131415, none), (.u 128, 0x0100010203040506070809101112131415, none),
      (.u cfg.U, 5, some 5),
      (.i 8, 0x7e, some 0x7e), (.i 8, 0xee, none), (.i 8, 0x100, none), (.i 16, 0x1234, some 0x1234),
      (.i 16, 0x8234, none), (.i 32, 0x61234567, some 0x61234567), (.i 32, 0x91234567, none),
      (.i 64, 0x3123456789abcdef, some 0x3123456789abcdef), (.i 64, 0xf123456789abcdef, none),
      (.i 128, 0x6123456789abcdef0123456789abcdef, some 0x6123456789abcdef0123456789abcdef),
      (.i 128, 0xf123456789abcdef0123456789abcdef, none),
      (.i 8, 0x0100010203040506070809101112131415, none), (.i 128, 0x0100010203040506070809101112131415, none),
      (.i cfg.U, 5, some 5)] : List (PTy × Nat × Option Int)).all fun (t, n, e) =>
    isV e ((mkU cfg n).tryToPrim cfg t)) = true := by decide +kernel

-- test_ibig_from_unsigned, test_ibig_from_signed, tests/convert.rs
example : onAll (fun cfg => isI cfg 0 (IBig.fromUnsigned cfg 32 0) && isI cfg 100 (IBig.fromUnsigned cfg 32 100) &&
    isI cfg 0 (IBig.fromSigned cfg 32 0) && isI cfg 100 (IBig.fromSigned cfg 32 100) &&
    isV (asciiBytes "-ee") (do
      let x ← IBig.fromSigned cfg 32 (-0xee)
      x.inRadixFmt cfg false 16 .default)) = true := by decide +kernel

-- test_ibig_to_unsigned, test_ibig_to_signed, tests/convert.rs
example : onAll (fun cfg => ([
      (.u 8, 0, some 0), (.u 8, 0x7f, some 0x7f), (.u 8, 0xff, some 0xff), (.u 8, 0x100, none), (.u 8, -1, none),
      (.u 8, -0x7f, none), (.u 8, -0x80, none),
      (.i 8, 0, some 0), (.i 8, 0x7f, some 0x7f), (.i 8, 0x80, none), (.i 8, 0xff, none), (.i 8, 0x100, none),
      (.i 8, -1, some (-1)), (.i 8, -0x7f, some (-0x7f)), (.i 8, -0x80, some (-0x80)), (.i 8, -0x81, none),
      (.i 8, -0x100, none)] : List (PTy × Int × Option Int)).all fun (t, z, e) =>
    isV e ((mkI cfg z).tryToPrim cfg t)) = true := by decide +kernel

-- test_ubig_to_ibig, test_ibig_to_ubig, test_default, tests/convert.rs
example : onAll (fun cfg => (IBig.ofUBig (mkU cfg 0)).beq (mkI cfg 0) && (IBig.ofUBig (mkU cfg 100)).beq (mkI cfg 100) &&
    (owns fun o => isOU cfg (some 0) (UBig.tryFromIBig cfg o (mkI cfg 0)) &&
      isOU cfg (some 1000) (UBig.tryFromIBig cfg o (mkI cfg 1000)) &&
      isOU cfg none (UBig.tryFromIBig cfg o (mkI cfg (-1000)))) &&
    UBig.default.beq (mkU cfg 0) && IBig.beq .default (mkI cfg 0)) = true := by decide +kernel

-- test_to_f32, tests/convert.rs (fewer iterations)
example : onAll (fun cfg => ([(0, 0x00000000),
      (7, 0x40e00000),
      (0xffffff, 0x4b7fffff),
      (0x1000000, 0x4b800000),
      (0x1000001, 0x4b800000),
      (0x1000002, 0x4b800001),
      (0x1000003, 0x4b800002),
      (0x1000004, 0x4b800002),
      (0x1000005, 0x4b800002),
      (0xfff3330 <<< 10, 0x527ff333),
      (0xfff3331 <<< 10, 0x527ff333),
      (0xfff3337 <<< 10, 0x527ff333),
      (0xfff3338 <<< 10, 0x527ff334),
      (0xfff3338 <<< 10 + 1, 0x527ff334),
      (0xfff3339 <<< 10, 0x527ff334),
      (0xfff3347 <<< 10, 0x527ff334),
      (0xfff3348 <<< 10, 0x527ff334),
      (0xfff3348 <<< 10 + 1, 0x527ff335),
      (0xfff3349 <<< 10, 0x527ff335),
      (0xfff3330 <<< 11, 0x52fff333),
      (0xfff3331 <<< 11, 0x52fff333),
      (0xfff3337 <<< 11, 0x52fff333),
      (0xfff3338 <<< 11, 0x52fff334),
      (0xfff3338 <<< 11 + 1, 0x52fff334),
      (0xfff3339 <<< 11, 0x52fff334),
      (0xfff3347 <<< 11, 0x52fff334),
      (0xfff3348 <<< 11, 0x52fff334),
      (0xfff3348 <<< 11 + 1, 0x52fff335),
      (0xfff3349 <<< 11, 0x52fff335),
      (0xfff3330 <<< 15, 0x54fff333),
      (0xfff3331 <<< 15, 0x54fff333),
      (0xfff3337 <<< 15, 0x54fff333),
      (0xfff3338 <<< 15, 0x54fff334),
      (0xfff3338 <<< 15 + 1, 0x54fff334),
      (0xfff3339 <<< 15, 0x54fff334),
      (0xfff3347 <<< 15, 0x54fff334),
      (0xfff3348 <<< 15, 0x54fff334),
      (0xfff3348 <<< 15 + 1, 0x54fff335),
      (0xfff3349 <<< 15, 0x54fff335),
      (0xfff3330 <<< 20, 0x577ff333),
      (0xfff3331 <<< 20, 0x577ff333),
      (0xfff3337 <<< 20, 0x577ff333),
      (0xfff3338 <<< 20, 0x577ff334),
      (0xfff3338 <<< 20 + 1, 0x577ff334),
      (0xfff3339 <<< 20, 0x577ff334),
      (0xfff3347 <<< 20, 0x577ff334),
      (0xfff3348 <<< 20, 0x577ff334),
      (0xfff3348 <<< 20 + 1, 0x577ff335),
      (0xfff3349 <<< 20, 0x577ff335),
      (0xfff3330 <<< 31, 0x5cfff333),
      (0xfff3331 <<< 31, 0x5cfff333),
      (0xfff3337 <<< 31, 0x5cfff333),
      (0xfff3338 <<< 31, 0x5cfff334),
      (0xfff3338 <<< 31 + 1, 0x5cfff334),
      (0xfff3339 <<< 31, 0x5cfff334),
      (0xfff3347 <<< 31, 0x5cfff334),
      (0xfff3348 <<< 31, 0x5cfff334),
      (0xfff3348 <<< 31 + 1, 0x5cfff335),
      (0xfff3349 <<< 31, 0x5cfff335),
      (0xfff3330 <<< 32, 0x5d7ff333),
      (0xfff3331 <<< 32, 0x5d7ff333),
      (0xfff3337 <<< 32, 0x5d7ff333),
      (0xfff3338 <<< 32, 0x5d7ff334),
      (0xfff3338 <<< 32 + 1, 0x5d7ff334),
      (0xfff3339 <<< 32, 0x5d7ff334),
      (0xfff3347 <<< 32, 0x5d7ff334),
      (0xfff3348 <<< 32, 0x5d7ff334),
      (0xfff3348 <<< 32 + 1, 0x5d7ff335),
      (0xfff3349 <<< 32, 0x5d7ff335),
      (0xfff3330 <<< 36, 0x5f7ff333),
      (0xfff3331 <<< 36, 0x5f7ff333),
      (0xfff3337 <<< 36, 0x5f7ff333),
      (0xfff3338 <<< 36, 0x5f7ff334),
      (0xfff3338 <<< 36 + 1, 0x5f7ff334),
      (0xfff3339 <<< 36, 0x5f7ff334),
      (0xfff3347 <<< 36, 0x5f7ff334),
      (0xfff3348 <<< 36, 0x5f7ff334),
      (0xfff3348 <<< 36 + 1, 0x5f7ff335),
      (0xfff3349 <<< 36, 0x5f7ff335),
      (0xfff3330 <<< 37, 0x5ffff333),
      (0xfff3331 <<< 37, 0x5ffff333),
      (0xfff3337 <<< 37, 0x5ffff333),
      (0xfff3338 <<< 37, 0x5ffff334),
      (0xfff3338 <<< 37 + 1, 0x5ffff334),
      (0xfff3339 <<< 37, 0x5ffff334),
      (0xfff3347 <<< 37, 0x5ffff334),
      (0xfff3348 <<< 37, 0x5ffff334),
      (0xfff3348 <<< 37 + 1, 0x5ffff335),
      (0xfff3349 <<< 37, 0x5ffff335),
      (0xfff3330 <<< 40, 0x617ff333),
      (0xfff3331 <<< 40, 0x617ff333),
      (0xfff3337 <<< 40, 0x617ff333),
      (0xfff3338 <<< 40, 0x617ff334),
      (0xfff3338 <<< 40 + 1, 0x617ff334),
      (0xfff3339 <<< 40, 0x617ff334),
      (0xfff3347 <<< 40, 0x617ff334),
      (0xfff3348 <<< 40, 0x617ff334),
      (0xfff3348 <<< 40 + 1, 0x617ff335),
      (0xfff3349 <<< 40, 0x617ff335),
      (0xfff3330 <<< 48, 0x657ff333),
      (0xfff3331 <<< 48, 0x657ff333),
      (0xfff3337 <<< 48, 0x657ff333),
      (0xfff3338 <<< 48, 0x657ff334),
      (0xfff3338 <<< 48 + 1, 0x657ff334),
      (0xfff3339 <<< 48, 0x657ff334),
      (0xfff3347 <<< 48, 0x657ff334),
      (0xfff3348 <<< 48, 0x657ff334),
      (0xfff3348 <<< 48 + 1, 0x657ff335),
      (0xfff3349 <<< 48, 0x657ff335),
      (0xfff3330 <<< 63, 0x6cfff333),
      (0xfff3331 <<< 63, 0x6cfff333),
      (0xfff3337 <<< 63, 0x6cfff333),
      (0xfff3338 <<< 63, 0x6cfff334),
      (0xfff3338 <<< 63 + 1, 0x6cfff334),
      (0xfff3339 <<< 63, 0x6cfff334),
      (0xfff3347 <<< 63, 0x6cfff334),
      (0xfff3348 <<< 63, 0x6cfff334),
      (0xfff3348 <<< 63 + 1, 0x6cfff335),
      (0xfff3349 <<< 63, 0x6cfff335),
      (0xfff3330 <<< 64, 0x6d7ff333),
      (0xfff3331 <<< 64, 0x6d7ff333),
      (0xfff3337 <<< 64, 0x6d7ff333),
      (0xfff3338 <<< 64, 0x6d7ff334),
      (0xfff3338 <<< 64 + 1, 0x6d7ff334),
      (0xfff3339 <<< 64, 0x6d7ff334),
      (0xfff3347 <<< 64, 0x6d7ff334),
      (0xfff3348 <<< 64, 0x6d7ff334),
      (0xfff3348 <<< 64 + 1, 0x6d7ff335),
      (0xfff3349 <<< 64, 0x6d7ff335),
      (0xfff3330 <<< 65, 0x6dfff333),
      (0xfff3331 <<< 65, 0x6dfff333),
      (0xfff3337 <<< 65, 0x6dfff333),
      (0xfff3338 <<< 65, 0x6dfff334),
      (0xfff3338 <<< 65 + 1, 0x6dfff334),
      (0xfff3339 <<< 65, 0x6dfff334),
      (0xfff3347 <<< 65, 0x6dfff334),
      (0xfff3348 <<< 65, 0x6dfff334),
      (0xfff3348 <<< 65 + 1, 0x6dfff335),
      (0xfff3349 <<< 65, 0x6dfff335),
      (0xfff3330 <<< 79, 0x74fff333),
      (0xfff3331 <<< 79, 0x74fff333),
      (0xfff3337 <<< 79, 0x74fff333),
      (0xfff3338 <<< 79, 0x74fff334),
      (0xfff3338 <<< 79 + 1, 0x74fff334),
      (0xfff3339 <<< 79, 0x74fff334),
      (0xfff3347 <<< 79, 0x74fff334),
      (0xfff3348 <<< 79, 0x74fff334),
      (0xfff3348 <<< 79 + 1, 0x74fff335),
      (0xfff3349 <<< 79, 0x74fff335),
      (0xffffff7 <<< 100, 0x7f7fffff),
      (0xffffff8 <<< 100, 0x7f800000),
      (1 <<< 1000, 0x7f800000)] : List (Nat × Nat)).all fun (n, e) => isV e ((mkU cfg n).toF32 cfg)) = true := by
  decide +kernel

example : onAll (fun cfg => ([(0, 0x00000000),
      (7, 0x40e00000),
      (-7, 0xc0e00000),
      (-(0xffffff7 <<< 100 : Nat), 0xff7fffff),
      (-(0xffffff8 <<< 100 : Nat), 0xff800000)] : List (Int × Nat)).all fun (n, e) => isV e ((mkI cfg n).toF32 cfg)) = true := by
  decide +kernel

-- test_to_f64, tests/convert.rs (fewer iterations)
example : onAll (fun cfg => ([(0, 0x0000000000000000),
      (7, 0x401c000000000000),
      (0x1fffffffffffff, 0x433fffffffffffff),
      (0x20000000000000, 0x4340000000000000),
      (0x20000000000001, 0x4340000000000000),
      (0x20000000000002, 0x4340000000000001),
      (0x20000000000003, 0x4340000000000002),
      (0x20000000000004, 0x4340000000000002),
      (0x20000000000005, 0x4340000000000002),
      (0x1ffffffffff3330 <<< 10, 0x441ffffffffff333),
      (0x1ffffffffff3331 <<< 10, 0x441ffffffffff333),
      (0x1ffffffffff3337 <<< 10, 0x441ffffffffff333),
      (0x1ffffffffff3338 <<< 10, 0x441ffffffffff334),
      (0x1ffffffffff3338 <<< 10 + 1, 0x441ffffffffff334),
      (0x1ffffffffff3339 <<< 10, 0x441ffffffffff334),
      (0x1ffffffffff3347 <<< 10, 0x441ffffffffff334),
      (0x1ffffffffff3348 <<< 10, 0x441ffffffffff334),
      (0x1ffffffffff3348 <<< 10 + 1, 0x441ffffffffff335),
      (0x1ffffffffff3349 <<< 10, 0x441ffffffffff335),
      (0x1ffffffffff3330 <<< 11, 0x442ffffffffff333),
      (0x1ffffffffff3331 <<< 11, 0x442ffffffffff333),
      (0x1ffffffffff3337 <<< 11, 0x442ffffffffff333),
      (0x1ffffffffff3338 <<< 11, 0x442ffffffffff334),
      (0x1ffffffffff3338 <<< 11 + 1, 0x442ffffffffff334),
      (0x1ffffffffff3339 <<< 11, 0x442ffffffffff334),
      (0x1ffffffffff3347 <<< 11, 0x442ffffffffff334),
      (0x1ffffffffff3348 <<< 11, 0x442ffffffffff334),
      (0x1ffffffffff3348 <<< 11 + 1, 0x442ffffffffff335),
      (0x1ffffffffff3349 <<< 11, 0x442ffffffffff335),
      (0x1ffffffffff3330 <<< 31, 0x456ffffffffff333),
      (0x1ffffffffff3331 <<< 31, 0x456ffffffffff333),
      (0x1ffffffffff3337 <<< 31, 0x456ffffffffff333),
      (0x1ffffffffff3338 <<< 31, 0x456ffffffffff334),
      (0x1ffffffffff3338 <<< 31 + 1, 0x456ffffffffff334),
      (0x1ffffffffff3339 <<< 31, 0x456ffffffffff334),
      (0x1ffffffffff3347 <<< 31, 0x456ffffffffff334),
      (0x1ffffffffff3348 <<< 31, 0x456ffffffffff334),
      (0x1ffffffffff3348 <<< 31 + 1, 0x456ffffffffff335),
      (0x1ffffffffff3349 <<< 31, 0x456ffffffffff335),
      (0x1ffffffffff3330 <<< 32, 0x457ffffffffff333),
      (0x1ffffffffff3331 <<< 32, 0x457ffffffffff333),
      (0x1ffffffffff3337 <<< 32, 0x457ffffffffff333),
      (0x1ffffffffff3338 <<< 32, 0x457ffffffffff334),
      (0x1ffffffffff3338 <<< 32 + 1, 0x457ffffffffff334),
      (0x1ffffffffff3339 <<< 32, 0x457ffffffffff334),
      (0x1ffffffffff3347 <<< 32, 0x457ffffffffff334),
      (0x1ffffffffff3348 <<< 32, 0x457ffffffffff334),
      (0x1ffffffffff3348 <<< 32 + 1, 0x457ffffffffff335),
      (0x1ffffffffff3349 <<< 32, 0x457ffffffffff335),
      (0x1ffffffffff3330 <<< 63, 0x476ffffffffff333),
      (0x1ffffffffff3331 <<< 63, 0x476ffffffffff333),
      (0x1ffffffffff3337 <<< 63, 0x476ffffffffff333),
      (0x1ffffffffff3338 <<< 63, 0x476ffffffffff334),
      (0x1ffffffffff3338 <<< 63 + 1, 0x476ffffffffff334),
      (0x1ffffffffff3339 <<< 63, 0x476ffffffffff334),
      (0x1ffffffffff3347 <<< 63, 0x476ffffffffff334),
      (0x1ffffffffff3348 <<< 63, 0x476ffffffffff334),
      (0x1ffffffffff3348 <<< 63 + 1, 0x476ffffffffff335),
      (0x1ffffffffff3349 <<< 63, 0x476ffffffffff335),
      (0x1ffffffffff3330 <<< 64, 0x477ffffffffff333),
      (0x1ffffffffff3331 <<< 64, 0x477ffffffffff333),
      (0x1ffffffffff3337 <<< 64, 0x477ffffffffff333),
      (0x1ffffffffff3338 <<< 64, 0x477ffffffffff334),
      (0x1ffffffffff3338 <<< 64 + 1, 0x477ffffffffff334),
      (0x1ffffffffff3339 <<< 64, 0x477ffffffffff334),
      (0x1ffffffffff3347 <<< 64, 0x477ffffffffff334),
      (0x1ffffffffff3348 <<< 64, 0x477ffffffffff334),
      (0x1ffffffffff3348 <<< 64 + 1, 0x477ffffffffff335),
      (0x1ffffffffff3349 <<< 64, 0x477ffffffffff335),
      (0x1ffffffffff3330 <<< 65, 0x478ffffffffff333),
      (0x1ffffffffff3331 <<< 65, 0x478ffffffffff333),
      (0x1ffffffffff3337 <<< 65, 0x478ffffffffff333),
      (0x1ffffffffff3338 <<< 65, 0x478ffffffffff334),
      (0x1ffffffffff3338 <<< 65 + 1, 0x478ffffffffff334),
      (0x1ffffffffff3339 <<< 65, 0x478ffffffffff334),
      (0x1ffffffffff3347 <<< 65, 0x478ffffffffff334),
      (0x1ffffffffff3348 <<< 65, 0x478ffffffffff334),
      (0x1ffffffffff3348 <<< 65 + 1, 0x478ffffffffff335),
      (0x1ffffffffff3349 <<< 65, 0x478ffffffffff335),
      (0x1ffffffffff3330 <<< 100, 0x49bffffffffff333),
      (0x1ffffffffff3331 <<< 100, 0x49bffffffffff333),
      (0x1ffffffffff3337 <<< 100, 0x49bffffffffff333),
      (0x1ffffffffff3338 <<< 100, 0x49bffffffffff334),
      (0x1ffffffffff3338 <<< 100 + 1, 0x49bffffffffff334),
      (0x1ffffffffff3339 <<< 100, 0x49bffffffffff334),
      (0x1ffffffffff3347 <<< 100, 0x49bffffffffff334),
      (0x1ffffffffff3348 <<< 100, 0x49bffffffffff334),
      (0x1ffffffffff3348 <<< 100 + 1, 0x49bffffffffff335),
      (0x1ffffffffff3349 <<< 100, 0x49bffffffffff335),
      (0x1ffffffffff3330 <<< 127, 0x4b6ffffffffff333),
      (0x1ffffffffff3331 <<< 127, 0x4b6ffffffffff333),
      (0x1ffffffffff3337 <<< 127, 0x4b6ffffffffff333),
      (0x1ffffffffff3338 <<< 127, 0x4b6ffffffffff334),
      (0x1ffffffffff3338 <<< 127 + 1, 0x4b6ffffffffff334),
      (0x1ffffffffff3339 <<< 127, 0x4b6ffffffffff334),
      (0x1ffffffffff3347 <<< 127, 0x4b6ffffffffff334),
      (0x1ffffffffff3348 <<< 127, 0x4b6ffffffffff334),
      (0x1ffffffffff3348 <<< 127 + 1, 0x4b6ffffffffff335),
      (0x1ffffffffff3349 <<< 127, 0x4b6ffffffffff335),
      (0x1ffffffffff3330 <<< 128, 0x4b7ffffffffff333),
      (0x1ffffffffff3331 <<< 128, 0x4b7ffffffffff333),
      (0x1ffffffffff3337 <<< 128, 0x4b7ffffffffff333),
      (0x1ffffffffff3338 <<< 128, 0x4b7ffffffffff334),
      (0x1ffffffffff3338 <<< 128 + 1, 0x4b7ffffffffff334),
      (0x1ffffffffff3339 <<< 128, 0x4b7ffffffffff334),
      (0x1ffffffffff3347 <<< 128, 0x4b7ffffffffff334),
      (0x1ffffffffff3348 <<< 128, 0x4b7ffffffffff334),
      (0x1ffffffffff3348 <<< 128 + 1, 0x4b7ffffffffff335),
      (0x1ffffffffff3349 <<< 128, 0x4b7ffffffffff335),
      (0x1ffffffffff3330 <<< 300, 0x563ffffffffff333),
      (0x1ffffffffff3331 <<< 300, 0x563ffffffffff333),
      (0x1ffffffffff3337 <<< 300, 0x563ffffffffff333),
      (0x1ffffffffff3338 <<< 300, 0x563ffffffffff334),
      (0x1ffffffffff3338 <<< 300 + 1, 0x563ffffffffff334),
      (0x1ffffffffff3339 <<< 300, 0x563ffffffffff334),
      (0x1ffffffffff3347 <<< 300, 0x563ffffffffff334),
      (0x1ffffffffff3348 <<< 300, 0x563ffffffffff334),
      (0x1ffffffffff3348 <<< 300 + 1, 0x563ffffffffff335),
      (0x1ffffffffff3349 <<< 300, 0x563ffffffffff335),
      (0x1ffffffffff3330 <<< 499, 0x62affffffffff333),
      (0x1ffffffffff3331 <<< 499, 0x62affffffffff333),
      (0x1ffffffffff3337 <<< 499, 0x62affffffffff333),
      (0x1ffffffffff3338 <<< 499, 0x62affffffffff334),
      (0x1ffffffffff3338 <<< 499 + 1, 0x62affffffffff334),
      (0x1ffffffffff3339 <<< 499, 0x62affffffffff334),
      (0x1ffffffffff3347 <<< 499, 0x62affffffffff334),
      (0x1ffffffffff3348 <<< 499, 0x62affffffffff334),
      (0x1ffffffffff3348 <<< 499 + 1, 0x62affffffffff335),
      (0x1ffffffffff3349 <<< 499, 0x62affffffffff335),
      (0x1fffffffffffff7 <<< 967, 0x7fefffffffffffff),
      (0x1fffffffffffff8 <<< 967, 0x7ff0000000000000),
      (1 <<< 1500, 0x7ff0000000000000)] : List (Nat × Nat)).all fun (n, e) => isV e ((mkU cfg n).toF64 cfg)) = true := by
  decide +kernel

example : onAll (fun cfg => ([(0, 0x0000000000000000),
      (7, 0x401c000000000000),
      (-7, 0xc01c000000000000),
      (-(0x1fffffffffffff7 <<< 967 : Nat), 0xffefffffffffffff),
      (-(0x1fffffffffffff8 <<< 967 : Nat), 0xfff0000000000000)] : List (Int × Nat)).all fun (n, e) => isV e ((mkI cfg n).toF64 cfg)) = true := by
  decide +kernel

-- test_ubig_serde, tests/serde.rs
example : onAll (fun cfg => ([(0, []), (17, [17]), (0x123451234567890abcdef, [0x1234567890abcdef, 0x12345])] :
      List (Nat × List Nat)).all fun (n, ws) =>
    isV (ws.length, ws) ((mkU cfg n).serialize cfg) &&
    isU cfg n (UBig.deserialize cfg (some ws.length) ws) && isU cfg n (UBig.deserialize cfg none ws)) = true := by
  decide +kernel

-- test_ibig_serde, tests/serde.rs
example : onAll (fun cfg => ([(0, .pos, []), (17, .pos, [17]), (-17, .neg, [17])] :
      List (Int × Sign × List Nat)).all fun (n, s, ws) =>
    isV (s, ws.length, ws) ((mkI cfg n).serialize cfg) &&
    isI cfg n (IBig.deserialize cfg s (some ws.length) ws)) = true := by decide +kernel

example : onAll (fun cfg => isI cfg 0 (IBig.deserialize cfg .neg none [])) = true := by decide +kernel

-- test_neg, test_abs, test_unsigned_abs, test_signum, tests/sign.rs
example : onAll (fun cfg => owns fun o =>
    isI cfg (-123) ((mkI cfg 123).negOwn cfg o) && isI cfg 123 ((mkI cfg (-123)).negOwn cfg o) &&
    isI cfg 0 ((mkI cfg 0).negOwn cfg o) &&
    isI cfg 123 ((mkI cfg 123).abs cfg o) && isI cfg 123 ((mkI cfg (-123)).abs cfg o) &&
    isU cfg 123 ((mkI cfg 123).unsignedAbs cfg o) && isU cfg 123 ((mkI cfg (-123)).unsignedAbs cfg o) &&
    (mkI cfg (-500)).signum.beq (mkI cfg (-1)) && (mkI cfg 0).signum.beq (mkI cfg 0) &&
    (mkI cfg 500).signum.beq (mkI cfg 1)) = true := by decide +kernel

-- test_cmp, tests/cmp.rs
example : onAll (fun cfg => ([(500, 500, .eq), (100, 500, .lt), (500, 100, .gt), (0x10000000000000000, 100, .gt),
      (100, 0x100000000000000000000000000000000, .lt),
      (0x100000000000000020000000000000003, 0x100000000000000030000000000000002, .lt),
      (0x100000000000000030000000000000002, 0x100000000000000020000000000000003, .gt),
      (0x100000000000000030000000000000002, 0x100000000000000030000000000000002, .eq)] :
      List (Nat × Nat × Ordering)).all fun (a, b, e) => isV e (UBig.cmp (mkU cfg a) (mkU cfg b))) = true := by
  decide +kernel

example : onAll (fun cfg => ([(500, 500, .eq), (-500, -500, .eq), (5, 10, .lt), (10, 5, .gt), (-5, 10, .lt),
      (-15, 10, .lt), (10, -5, .gt), (10, -15, .gt), (-10, -5, .lt), (-5, -10, .gt)] :
      List (Int × Int × Ordering)).all fun (a, b, e) => isV e (IBig.cmp (mkI cfg a) (mkI cfg b))) = true := by
  decide +kernel

-- test_hash, tests/hash.rs (fewer iterations; what is fed to the hasher)
example : onAll (fun cfg => ([0, 1, 15, 16, 31, 32, 63, 64, 65, 500, 999, 1000].all fun i =>
    isV (mkU cfg (1 <<< 1000)).hashTokens (do
      let x ← (mkU cfg 1).shl cfg .val i
      let x ← x.shl cfg .val (1000 - i)
      .ok x.hashTokens)) &&
    (mkU cfg (2 <<< 1000)).hashTokens != (mkU cfg (1 <<< 1000)).hashTokens) = true := by decide +kernel

-- test_pow_ubig, tests/pow.rs
example : onAll (fun cfg => ([(0, 0, 1), (100, 0, 1), (0, 1, 0), (100, 1, 100), (0, 2, 0), (100, 2, 10000), (0, 100, 0),
      (1, 100, 1), (2, 10, 1024), (7, 10, 282475249), (123, 13, 1474913153392179474539944683)] :
      List (Nat × Nat × Nat)).all fun (a, b, e) => isU cfg e ((mkU cfg a).pow cfg b)) = true := by decide +kernel

-- test_pow_ibig, tests/pow.rs
example : onAll (fun cfg => ([(0, 0, 1), (0, 12, 0), (0, 13, 0), (7, 2, 49), (7, 3, 343), (-7, 2, 49), (-7, 3, -343)] :
      List (Int × Nat × Int)).all fun (a, b, e) => isI cfg e ((mkI cfg a).pow cfg b)) = true := by decide +kernel

end Ibig.Tests
