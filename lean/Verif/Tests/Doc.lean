import Verif.Tests.Radix
import Verif.Tests.Modular
import Verif.Model.Float
import Verif.Model.Gcd
import Verif.Model.Pow
import Verif.Model.PrimOps
/-! The examples in the documentation of the crate (`README.md`, /repo/src/lib.rs and doc comments) that the other
test modules do not cover, run on the model. -/
namespace Ibig.Tests
open Ibig

/-! ### /repo/README.md, /repo/src/lib.rs -/

-- `let e = 2 * &b + 1;`
example : onAll (fun cfg => isU cfg 0x21ff (do
    let b ← ubigLiteral cfg 0x10ff
    let t ← UBig.mulUnsigned cfg .ref b 32 2
    UBig.addUnsigned cfg .val t 32 1)) = true := by decide +kernel

-- `ibig!(-azz base 36).to_string()`
example : onAll (fun cfg => isV (asciiBytes "-14255") (do
    let c ← ibigBase cfg true (asciiBytes "azz") 36
    IBig.fmt cfg false .display c .default)) = true := by decide +kernel

-- `let f = a * b.pow(10);`
example : onAll (fun cfg => isV (asciiBytes "1589bda8effbfc495d8d73c83d8b27f94954e") (do
    let a ← ubigLiteral cfg 12345678
    let b ← ubigLiteral cfg 0x10ff
    let f ← UBig.mul cfg .val .val a (← b.pow cfg 10)
    UBig.inRadixFmt cfg false f 16 .default)) = true := by decide +kernel

-- `format!("hello {:#x}", d % ubig!(0xabcd1234134132451345))`
example : onAll (fun cfg => isV (asciiBytes "0x1a7e7c487267d2658a93") (do
    match ← UBig.fromStr cfg (asciiBytes "15033211231241234523452345345787") with
    | .ok d =>
      let m ← ubigLiteral cfg 0xabcd1234134132451345
      let r ← UBig.rem cfg .val .val d m
      format "#x" fun t => UBig.fmt cfg false t r
    | .error _ => .error .unwrap)) = true := by decide +kernel

-- `format!("{}", x - y)`
example : onAll (fun cfg => isV (asciiBytes "6902 (mod 10000)") (do
    let ring ← Ring.new cfg 1 (← ubigLiteral cfg 10000)
    let x ← ring.fromPrim cfg (.i 32) 12345
    let y ← ring.fromPrim cfg (.i 32) 55443
    let z ← Modulo.sub cfg.W .val .val x y
    Modulo.fmt cfg false .display z .default)) = true := by decide +kernel

/-! ### Doc comments -/

-- /repo/src/modular
example : onAll (fun cfg => holds (withRing cfg 1 10 fun r => do
    let i ← (← el cfg r 7).inverse cfg
    let j ← (← el cfg r 2).inverse cfg
    let e1 ← match i with
      | some x => isM cfg r 3 (.ok x)
      | none => .ok false
    let e2 ← isM cfg r 6 (do (← el cfg r 2).powSigned cfg (mkI cfg 4))
    let e3 ← isM cfg r 3 (do (← el cfg r 3).powSigned cfg (mkI cfg (-3)))
    .ok (e1 && j.isNone && e2 && e3))) = true := by decide +kernel

example : onAll (fun cfg => isU cfg 66 (withRing cfg 1 100 fun r => do
    (← r.fromPrim cfg (.i 32) (-1234)).residue cfg) &&
    holds (withRing cfg 1 100 fun r => do
      let x ← r.fromPrim cfg (.i 32) (-1234)
      let y ← r.fromUBig cfg .val (← ubigLiteral cfg 3366)
      x.eq y)) = true := by decide +kernel

-- /repo/src/bits.rs
example : onAll (fun cfg =>
    isV true ((mkU cfg 0b10010).bit cfg 1) && isV false ((mkU cfg 0b10010).bit cfg 3) &&
    isV false ((mkU cfg 0b10010).bit cfg 100) &&
    isU cfg 0b101 ((mkU cfg 0b100).setBit cfg 0) && isU cfg 0b10000000101 ((mkU cfg 0b101).setBit cfg 10) &&
    isU cfg 0b100 ((mkU cfg 0b101).clearBit cfg 0) &&
    isV (some 0) ((mkU cfg 17).trailingZeros cfg) && isV (some 4) ((mkU cfg 48).trailingZeros cfg) &&
    isV (some 6) ((mkU cfg 0b101000000).trailingZeros cfg) && isV none ((mkU cfg 0).trailingZeros cfg) &&
    isV 5 ((mkU cfg 17).bitLen cfg) && isV 9 ((mkU cfg 0b101000000).bitLen cfg) && isV 0 ((mkU cfg 0).bitLen cfg) &&
    isV false (mkU cfg 0).isPowerOfTwo && isV true (mkU cfg 8).isPowerOfTwo &&
    isV false (mkU cfg 9).isPowerOfTwo &&
    isV (some 0) ((mkI cfg 17).trailingZeros cfg) && isV (some 4) ((mkI cfg (-48)).trailingZeros cfg) &&
    isV (some 6) ((mkI cfg (-0b101000000)).trailingZeros cfg) && isV none ((mkI cfg 0).trailingZeros cfg)) = true := by
  decide +kernel

-- /repo/src/ops.rs
example : onAll (fun cfg =>
    isU cfg 0xee (UBig.andNot cfg .val .val (mkU cfg 0xff) (mkU cfg 0x1111)) &&
    isU cfg 8 (UBig.nextPowerOfTwo cfg .val (mkU cfg 5)) &&
    isUU cfg 2 3 (UBig.divRem cfg .val .val (mkU cfg 23) (mkU cfg 10)) &&
    isI cfg (-3) (IBig.divEuclid cfg .val .val (mkI cfg (-23)) (mkI cfg 10)) &&
    isI cfg 7 (IBig.remEuclid cfg .val .val (mkI cfg (-23)) (mkI cfg 10)) &&
    isII cfg (-3) 7 (IBig.divRemEuclid cfg .val .val (mkI cfg (-23)) (mkI cfg 10))) = true := by decide +kernel

-- /repo/src/macros.rs
example : onAll (fun cfg =>
    isU cfg (((11 * 32 + 1) * 32) * 32 + 2) (ubigBase cfg (asciiBytes "_0b102") 32) &&
    isU cfg (((11 * 32 + 1) * 32) * 32 + 2) (ubigBase cfg (asciiBytes "b102") 32) &&
    isI cfg (((11 * 32 + 1) * 32) * 32 + 2) (ibigBase cfg false (asciiBytes "_0b102") 32) &&
    isU cfg 314159265358979323846264338327950288419716939937
      (ubigIdent cfg (asciiBytes "_314159265358979323846264338327950288419716939937"))) = true := by decide +kernel

-- /repo/src/fmt/mod.rs
example : onAll (fun cfg =>
    isV (asciiBytes "10002") (format "" fun _ => UBig.inRadixFmt cfg false (mkU cfg 83) 3) &&
    isV (asciiBytes "+00000000z") (format "+010" fun _ => UBig.inRadixFmt cfg false (mkU cfg 35) 36) &&
    isV (asciiBytes "-10002") (format "" fun _ => IBig.inRadixFmt cfg false (mkI cfg (-83)) 3) &&
    isV (asciiBytes "-00000000z") (format "010" fun _ => IBig.inRadixFmt cfg false (mkI cfg (-35)) 36) &&
    isV (asciiBytes "bb8") (format "x" fun t => UBig.fmt cfg false t (mkU cfg 3000)) &&
    isV (asciiBytes "-bb8") (format "x" fun t => IBig.fmt cfg false t (mkI cfg (-3000)))) = true := by decide +kernel

-- /repo/src/parse/mod.rs
example : onAll (fun cfg =>
    isPU cfg (.ok 7499) (UBig.fromStrRadix cfg (asciiBytes "+7ab") 32) &&
    isPU cfg (.ok 15) (UBig.fromStrWithRadixPrefix cfg (asciiBytes "+0o17")) &&
    isPU cfg (.ok 31) (UBig.fromStrWithRadixPrefix cfg (asciiBytes "0x1f")) &&
    isPI cfg (.ok (-7499)) (IBig.fromStrRadix cfg (asciiBytes "-7ab") 32) &&
    isPI cfg (.ok 15) (IBig.fromStrWithRadixPrefix cfg (asciiBytes "+0o17")) &&
    isPI cfg (.ok (-31)) (IBig.fromStrWithRadixPrefix cfg (asciiBytes "-0x1f"))) = true := by decide +kernel

-- /repo/src/convert.rs; `134.0` as bit patterns
example : onAll (fun cfg =>
    isU cfg 0x010203 (UBig.fromLeBytes cfg [3, 2, 1]) && isU cfg 0x010203 (UBig.fromBeBytes cfg [1, 2, 3]) &&
    isV [] ((mkU cfg 0).toLeBytes cfg) && isV [3, 2, 1] ((mkU cfg 0x010203).toLeBytes cfg) &&
    isV [] ((mkU cfg 0).toBeBytes cfg) && isV [1, 2, 3] ((mkU cfg 0x010203).toBeBytes cfg) &&
    isV 0x43060000 ((mkU cfg 134).toF32 cfg) && isV 0x4060c00000000000 ((mkU cfg 134).toF64 cfg) &&
    isV 0xc3060000 ((mkI cfg (-134)).toF32 cfg) && isV 0xc060c00000000000 ((mkI cfg (-134)).toF64 cfg)) = true := by
  decide +kernel

-- /repo/src/pow.rs, /repo/src/gcd.rs, /repo/src/sign.rs
example : onAll (fun cfg =>
    isU cfg 27 ((mkU cfg 3).pow cfg 3) && isI cfg (-27) ((mkI cfg (-3)).pow cfg 3) &&
    isU cfg 6 ((mkU cfg 12).gcd cfg (mkU cfg 18)) && isI cfg 6 ((mkI cfg (-12)).gcd cfg (mkI cfg 18)) &&
    (mkI cfg (-500)).signum.beq (mkI cfg (-1))) = true := by decide +kernel

end Ibig.Tests
