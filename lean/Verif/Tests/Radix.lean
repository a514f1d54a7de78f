import Verif.Tests.Basic
import Verif.Model.Macros
/-! The tests of /repo/tests/radix.rs, run on the model. -/
namespace Ibig.Tests
open Ibig

-- test_ubig_format, tests/radix.rs
example : onAll (fun cfg => ([("b", 0, "0"),
      ("b", 100, "1100100"),
      ("#b", 100, "0b1100100"),
      ("+b", 100, "+1100100"),
      ("+#b", 100, "+0b1100100"),
      ("10b", 100, "   1100100"),
      ("=<10b", 100, "1100100==="),
      ("=>10b", 100, "===1100100"),
      ("=^10b", 100, "=1100100=="),
      ("=^+10b", 100, "=+1100100="),
      ("+010b", 100, "+001100100"),
      ("+#010b", 100, "+0b1100100"),
      ("+#01b", 100, "+0b1100100"),
      ("o", 100, "144"),
      ("#o", 100, "0o144"),
      ("x", 3000, "bb8"),
      ("#x", 3000, "0xbb8"),
      ("X", 3000, "BB8"),
      ("#X", 3000, "0xBB8"),
      ("#10X", 3000, "     0xBB8"),
      ("", 123, "123"),
      ("", 123, "123"),
      ("=>5", 123, "==123"),
      ("x", 0x5ee0123456789abcdef0123456789abcdef0123456789abcdef0123456789abcdef0123456789abcdef, "5ee0123456789abcdef0123456789abcdef0123456789abcdef0123456789abcdef0123456789abcdef"),
      ("X", 0x5ee0123456789abcdef0123456789abcdef0123456789abcdef0123456789abcdef0123456789abcdef, "5EE0123456789ABCDEF0123456789ABCDEF0123456789ABCDEF0123456789ABCDEF0123456789ABCDEF"),
      ("^100X", 0x5ee0123456789abcdef0123456789abcdef0123456789abcdef0123456789abcdef0123456789abcdef, "        5EE0123456789ABCDEF0123456789ABCDEF0123456789ABCDEF0123456789ABCDEF0123456789ABCDEF         "),
      ("o", 0x5ee0123456789abcdef0123456789abcdef0123456789abcdef0123456789abcdef0123456789abcdef, "136700110642547423257157360044321263611527467570022150531704653633674011064254742325715736004432126361152746757"),
      (">120o", 0x5ee0123456789abcdef0123456789abcdef0123456789abcdef0123456789abcdef0123456789abcdef, "         136700110642547423257157360044321263611527467570022150531704653633674011064254742325715736004432126361152746757"),
      (">120", 0x5ee0123456789abcdef0123456789abcdef0123456789abcdef0123456789abcdef0123456789abcdef, "                    3242437813803656709120330082944443281812289638998304588119616982843278155375835513236887964094287343")] : List (String × Nat × String)).all fun (s, n, e) =>
    isV (asciiBytes e) (format s fun t => UBig.fmt cfg false t (mkU cfg n))) = true := by decide +kernel

-- test_ubig_in_radix, tests/radix.rs
example : onAll (fun cfg => ([("", 0, 2, "0"),
      ("", 100, 4, "1210"),
      ("", 3000, 16, "bb8"),
      ("+010", 3000, 16, "+000000bb8"),
      ("+#010", 3000, 16, "+000000BB8"),
      ("", 1294, 36, "zy"),
      ("#010", 1294, 36, "00000000ZY"),
      ("", 0xffffffff, 3, "102002022201221111210"),
      ("", 0xffffffffffffffff, 3, "11112220022122120101211020120210210211220"),
      ("", 0xffffffffffffffffffffffffffffffffffffffffffffffffffffffffffffffffffffffffffffffffffffffffffffffffffff, 32, "vvvvvvvvvvvvvvvvvvvvvvvvvvvvvvvvvvvvvvvvvvvvvvvvvvvvvvvvvvvvvvvvvvvvvvvvvvvvvvvv"),
      ("", 123456789, 10, "123456789"),
      ("", 123456789000000000000000000000000000000000123789749847509837450987340589273405, 10, "123456789000000000000000000000000000000000123789749847509837450987340589273405"),
      ("", 0x83c0d7401f0188462502c2e5f7035386b1c341d307e5fbe8200756201607769a706134cfab1, 10, "1048383517376714931597372965085953822045235087388094946568022880798260489887669110556129969"),
      ("", 1048383517376714931597372965085953822045235087388094946568022880798260489887669110556129969, 16, "83c0d7401f0188462502c2e5f7035386b1c341d307e5fbe8200756201607769a706134cfab1")] : List (String × Nat × Nat × String)).all fun (s, n, r, e) =>
    isV (asciiBytes e) (format s fun _ => UBig.inRadixFmt cfg false (mkU cfg n) r)) = true := by decide +kernel

-- test_ubig_in_radix, tests/radix.rs
example : onAll (fun cfg => ([("", 123456789, "123456789"),
      ("", 123456789000000000000000000000000000000000123789749847509837450987340589273405, "123456789000000000000000000000000000000000123789749847509837450987340589273405"),
      ("", 0x83c0d7401f0188462502c2e5f7035386b1c341d307e5fbe8200756201607769a706134cfab1, "1048383517376714931597372965085953822045235087388094946568022880798260489887669110556129969")] : List (String × Nat × String)).all fun (s, n, e) =>
    isV (asciiBytes e) (format s fun t => UBig.fmt cfg false t (mkU cfg n))) = true := by decide +kernel

-- test_ibig_format, tests/radix.rs
example : onAll (fun cfg => ([("b", 0, "0"),
      ("b", 100, "1100100"),
      ("b", (-100), "-1100100"),
      ("#b", 100, "0b1100100"),
      ("#b", (-100), "-0b1100100"),
      ("+b", 100, "+1100100"),
      ("+b", (-100), "-1100100"),
      ("+#b", 100, "+0b1100100"),
      ("+#b", (-100), "-0b1100100"),
      ("10b", 100, "   1100100"),
      ("10b", (-100), "  -1100100"),
      ("=<10b", 100, "1100100==="),
      ("=<10b", (-100), "-1100100=="),
      ("=>10b", 100, "===1100100"),
      ("=>10b", (-100), "==-1100100"),
      ("=^10b", 100, "=1100100=="),
      ("=^10b", (-100), "=-1100100="),
      ("=^+10b", 100, "=+1100100="),
      ("=^+10b", (-100), "=-1100100="),
      ("+010b", 100, "+001100100"),
      ("+010b", (-100), "-001100100"),
      ("+#010b", 100, "+0b1100100"),
      ("+#010b", (-100), "-0b1100100"),
      ("+#01b", 100, "+0b1100100"),
      ("+#01b", (-100), "-0b1100100"),
      ("o", 100, "144"),
      ("o", (-100), "-144"),
      ("#o", 100, "0o144"),
      ("#o", (-100), "-0o144"),
      ("x", 3000, "bb8"),
      ("x", (-3000), "-bb8"),
      ("#x", 3000, "0xbb8"),
      ("#x", (-3000), "-0xbb8"),
      ("X", 3000, "BB8"),
      ("X", (-3000), "-BB8"),
      ("#X", 3000, "0xBB8"),
      ("#X", (-3000), "-0xBB8"),
      ("#10X", 3000, "     0xBB8"),
      ("#10X", (-3000), "    -0xBB8"),
      ("", (-123), "-123"),
      ("", (-123), "-123"),
      ("=>10", (-123), "======-123")] : List (String × Int × String)).all fun (s, n, e) =>
    isV (asciiBytes e) (format s fun t => IBig.fmt cfg false t (mkI cfg n))) = true := by decide +kernel

-- test_ibig_in_radix, tests/radix.rs
example : onAll (fun cfg => ([("", 0, 2, "0"),
      ("", 100, 4, "1210"),
      ("", (-100), 4, "-1210"),
      ("", 3000, 16, "bb8"),
      ("", (-3000), 16, "-bb8"),
      ("+010", 3000, 16, "+000000bb8"),
      ("+010", (-3000), 16, "-000000bb8"),
      ("#010", 3000, 16, "0000000BB8"),
      ("#010", (-3000), 16, "-000000BB8"),
      ("#010", (-3000), 10, "-000003000"),
      ("", 0, 16, "0"),
      ("", 100, 4, "1210"),
      ("", (-100), 4, "-1210"),
      ("", 3000, 16, "bb8"),
      ("", (-3000), 16, "-bb8"),
      ("", 3000, 32, "2to"),
      ("", (-3000), 32, "-2to")] : List (String × Int × Nat × String)).all fun (s, n, r, e) =>
    isV (asciiBytes e) (format s fun _ => IBig.inRadixFmt cfg false (mkI cfg n) r)) = true := by decide +kernel

-- test_ibig_in_radix, tests/radix.rs
example : onAll (fun cfg => ([("", (-1234), "-1234")] : List (String × Int × String)).all fun (s, n, e) =>
    isV (asciiBytes e) (format s fun t => IBig.fmt cfg false t (mkI cfg n))) = true := by decide +kernel
/-- The result is the number `n`, or the given error. -/
def isPU (cfg : Cfg) (e : Except ParseError Nat) : R (PRes UBig) → Bool
  | .ok (.ok x) => match e with
    | .ok n => x.beq (mkU cfg n)
    | .error _ => false
  | .ok (.error q) => match e with
    | .ok _ => false
    | .error p => decide (p = q)
  | .error _ => false

/-- The result is the integer `z`, or the given error. -/
def isPI (cfg : Cfg) (e : Except ParseError Int) : R (PRes IBig) → Bool
  | .ok (.ok x) => match e with
    | .ok n => x.beq (mkI cfg n)
    | .error _ => false
  | .ok (.error q) => match e with
    | .ok _ => false
    | .error p => decide (p = q)
  | .error _ => false

-- test_ubig_from_str_radix, tests/radix.rs
example : onAll (fun cfg => ([
      ("", 2, .error .noDigits),
      ("+", 2, .error .noDigits),
      ("012", 2, .error .invalidDigit),
      ("ffffffffffffffffffffffffffffffffffffffffffffffg", 16, .error .invalidDigit),
      ("-0", 2, .error .invalidDigit),
      ("+0", 2, .ok 0),
      ("0", 2, .ok 0),
      ("0000000000000", 2, .ok 0),
      ("1010110", 2, .ok 0b1010110),
      ("f1Ee", 16, .ok 0xf1ee),
      ("Pp", 32, .ok 825),
      ("12345", 10, .ok 12345),
      ("abzz", 36, .ok 482111),
      ("1538958592398779500320098585338768070858734861441260196946465951498852935601537907018559511", 10,
        .ok 0xc167bcc5802bf76f345a9f2a738d9d3b75ea4560a9be33c330216cbd15efc15d872a781f017),
      ("c167bcc5802bf76f345a9f2a738d9d3b75ea4560a9be33c330216cbd15efc15d872a781f017", 16,
        .ok 1538958592398779500320098585338768070858734861441260196946465951498852935601537907018559511)
      ] : List (String × Nat × Except ParseError Nat)).all fun (s, r, e) =>
    isPU cfg e (UBig.fromStrRadix cfg (asciiBytes s) r)) = true := by decide +kernel

example : onAll (fun cfg => isPU cfg (.ok 1234) (UBig.fromStr cfg (asciiBytes "1234")) &&
    isPU cfg (.ok 1234) (UBig.fromStr cfg (asciiBytes "0000000000000000001234"))) = true := by decide +kernel

-- test_ibig_from_str_radix, tests/radix.rs
example : onAll (fun cfg => ([
      ("", 2, .error .noDigits),
      ("+", 2, .error .noDigits),
      ("-", 2, .error .noDigits),
      ("-+5", 2, .error .invalidDigit),
      ("-012", 2, .error .invalidDigit),
      ("0", 2, .ok 0),
      ("+0", 2, .ok 0),
      ("-0", 2, .ok 0),
      ("1010110", 2, .ok 0b1010110),
      ("-1010110", 2, .ok (-0b1010110))
      ] : List (String × Nat × Except ParseError Int)).all fun (s, r, e) =>
    isPI cfg e (IBig.fromStrRadix cfg (asciiBytes s) r)) = true := by decide +kernel

example : onAll (fun cfg => isPI cfg (.ok (-1234)) (IBig.fromStr cfg (asciiBytes "-1234"))) = true := by decide +kernel

/-- Parses and prints. -/
def roundU (cfg : Cfg) (s : String) (radix radix' : Nat) : R (List Nat) := do
  match ← UBig.fromStrRadix cfg (asciiBytes s) radix with
  | .ok x => x.inRadixFmt cfg false radix' .default
  | .error _ => .error .unwrap

/-- Parses and prints. -/
def roundI (cfg : Cfg) (s : String) (radix radix' : Nat) : R (List Nat) := do
  match ← IBig.fromStrRadix cfg (asciiBytes s) radix with
  | .ok x => x.inRadixFmt cfg false radix' .default
  | .error _ => .error .unwrap

/-- Prints and parses. -/
def roundTrip (cfg : Cfg) (n : Nat) : Bool :=
  isPU cfg (.ok n) (do
    let s ← (mkU cfg n).fmt cfg false .display .default
    UBig.fromStr cfg s)

-- test_radix_round_trip, tests/radix.rs (fewer iterations)
example : onAll (fun cfg =>
    isV (asciiBytes "abcccaacacbbcbabcbacbacbabcabcbabcabbc1000")
      (roundU cfg "abCCcaacacbbcbabcbacbacbabcabcbabcabbc1000" 16 16) &&
    isV (asciiBytes "a70a75394a70b95dde5ce5cee77397bb9dcecd2e72e72e")
      (roundU cfg "12341235234512341345356745634563563563457356356354645634563456" 8 16) &&
    isV (asciiBytes "1287912837409187345908734509873240897234")
      (roundU cfg "1287912837409187345908734509873240897234" 10 10) &&
    isV (asciiBytes "-abcccaacacbbcbabcbacbacbabcabcbabcabbc1000")
      (roundI cfg "-abCCcaacacbbcbabcbacbacbabcabcbabcabbc1000" 16 16)) = true := by decide +kernel

example : onAll (fun cfg => [0, 1, 2, 3, 4, 5, 8, 9, 10, 11, 18, 19, 20, 21, 37, 38, 39, 40, 57, 58, 76, 77, 78].all
    fun i => roundTrip cfg (10 ^ i) && roundTrip cfg (10 ^ i - 1)) = true := by decide +kernel

example : onAll (fun cfg => [0, 1, 2, 3, 4].all
    fun i => roundTrip cfg (2 ^ (64 * i)) && roundTrip cfg (2 ^ (64 * i) - 1)) = true := by decide +kernel

-- test_from_str_radix_with_radix_prefix, tests/radix.rs
example : onAll (fun cfg => ([
      ("17", .ok 17),
      ("+17", .ok 17),
      ("0b101", .ok 0b101),
      ("+0b101", .ok 0b101),
      ("0o177", .ok 0o177),
      ("+0o177", .ok 0o177),
      ("0x1eE", .ok 0x1ee),
      ("+0x1eE", .ok 0x1ee),
      ("", .error .noDigits),
      ("+", .error .noDigits),
      ("0b102", .error .invalidDigit)
      ] : List (String × Except ParseError Nat)).all fun (s, e) =>
    isPU cfg e (UBig.fromStrWithRadixPrefix cfg (asciiBytes s))) = true := by decide +kernel

example : onAll (fun cfg => ([
      ("17", .ok 17),
      ("+17", .ok 17),
      ("-17", .ok (-17)),
      ("0b101", .ok 0b101),
      ("+0b101", .ok 0b101),
      ("-0b101", .ok (-0b101)),
      ("0o177", .ok 0o177),
      ("+0o177", .ok 0o177),
      ("-0o177", .ok (-0o177)),
      ("0x1eE", .ok 0x1ee),
      ("+0x1eE", .ok 0x1ee),
      ("-0x1eE", .ok (-0x1ee)),
      ("", .error .noDigits),
      ("+", .error .noDigits),
      ("-", .error .noDigits),
      ("0x1fg", .error .invalidDigit)
      ] : List (String × Except ParseError Int)).all fun (s, e) =>
    isPI cfg e (IBig.fromStrWithRadixPrefix cfg (asciiBytes s))) = true := by decide +kernel

-- test_macros, tests/radix.rs
example : onAll (fun cfg =>
    isU cfg 17 (ubigLiteral cfg 17) && isU cfg 17 (UBig.fromUnsigned cfg 32 17) &&
    isU cfg 0b101 (ubigLiteral cfg 0b101) && isU cfg 0o177 (ubigLiteral cfg 0o177) &&
    isV (asciiBytes "1aaaaaaaaaaaaaaaaaaaaaaaaaaaaaaaaaaaaaaaaaaaaaaaaaa") (do
      let x ← ubigIdent cfg (asciiBytes "_0x1aaaaaaaaaaaaaaaaaaaaaaaaaaaaaaaaaaaaaaaaaaaaaaaaaa")
      x.fmt cfg false .lowerHex .default) &&
    isU cfg 1024 (ubigBase cfg (asciiBytes "100") 32) &&
    isV (asciiBytes "ppppppppppppppppppp") (do
      let x ← ubigBase cfg (asciiBytes "ppppppppppppppppppp") 32
      x.inRadixFmt cfg false 32 .default)) = true := by decide +kernel

example : onAll (fun cfg =>
    isI cfg 17 (ibigLiteral cfg false 17) && isI cfg (-17) (ibigLiteral cfg true 17) &&
    isI cfg 0b101 (ibigLiteral cfg false 0b101) && isI cfg (-0b101) (ibigLiteral cfg true 0b101) &&
    isI cfg 0o177 (ibigLiteral cfg false 0o177) && isI cfg (-0o177) (ibigLiteral cfg true 0o177) &&
    isI cfg 0x1ff (ibigLiteral cfg false 0x1ff) && isI cfg (-0x1ff) (ibigLiteral cfg true 0x1ff) &&
    isV (asciiBytes "-1aaaaaaaaaaaaaaaaaaaaaaaaaaaaaaaaaaaaaaaaaaaaaaaaaa") (do
      let x ← ibigIdent cfg true (asciiBytes "_0x1aaaaaaaaaaaaaaaaaaaaaaaaaaaaaaaaaaaaaaaaaaaaaaaaaa")
      x.fmt cfg false .lowerHex .default) &&
    isI cfg 1024 (ibigBase cfg false (asciiBytes "100") 32) &&
    isI cfg (-1024) (ibigBase cfg true (asciiBytes "100") 32) &&
    isV (asciiBytes "ppppppppppppppppppp") (do
      let x ← ibigBase cfg false (asciiBytes "ppppppppppppppppppp") 32
      x.inRadixFmt cfg false 32 .default) &&
    isV (asciiBytes "-ppppppppppppppppppp") (do
      let x ← ibigBase cfg true (asciiBytes "ppppppppppppppppppp") 32
      x.inRadixFmt cfg false 32 .default)) = true := by decide +kernel

end Ibig.Tests
