import Verif.Spec.Examples
import Verif.Spec.Float
import Verif.Model.EuclidTime
import Verif.Model.GcdTime
import Verif.Model.SerdeTime
import Verif.Model.RandTime
import Verif.Model.BitSetTime
import Verif.Model.ModularTime
import Verif.Model.FmtTime
import Verif.Spec.Parse
/-!
Exact numbers of steps of the counting functions (C60-C65, C67-C69, C77, C79-C82), added up over many arguments.

The bounds in `Props/` say that the functions do not take more steps than stated; these totals say that none of the steps is
forgotten: leaving out the count of any loop or operation that these arguments reach makes a total smaller.
-/
namespace Ibig.Tests
open Ibig

/-- the steps of all calls together; a call that panics counts as 0 -/
def total (l : List (Option Nat)) : Nat := (l.map fun o => o.getD 0).sum

/-- numbers of one and of several words on the 16-bit build -/
def exSizes : List UBig :=
  [.small 0, .small 65535, bigOf [0, 1], bigOf [65535, 65535], bigOf [3, 0, 65535, 0, 9], bigOf (List.replicate 12 65535)]

/-- the same for signed numbers -/
def exSigned : List IBig :=
  [⟨.pos, .small 0⟩, ⟨.pos, .small 9⟩, ⟨.neg, .small 7⟩, ⟨.pos, bigOf [0, 1]⟩, ⟨.neg, bigOf [0, 1]⟩,
    ⟨.pos, bigOf [3, 0, 65535, 0, 9]⟩, ⟨.neg, bigOf [4, 0, 65535, 1]⟩]

/-- both ways of passing an argument -/
def exOwn : List Own := [.val, .ref]

/-- all pairs from a list and all ways of passing them -/
def totalPairs {α β : Type} (l : List α) (f : Own → Own → α → α → Timed β) : Nat :=
  total (l.flatMap fun x => l.flatMap fun y => exOwn.flatMap fun o => exOwn.map fun p => (f o p x y).steps)

/-- all numbers from a list and all ways of passing them -/
def totalEach {α β : Type} (l : List α) (f : Own → α → Timed β) : Nat :=
  total (l.flatMap fun x => exOwn.map fun o => (f o x).steps)

/-- 70 words, for the algorithms for long numbers -/
def exWide (w : Nat) : UBig := bigOf (List.replicate 70 w)

/-- moduli of rings -/
def exRings : List UBig := [.small 1, .small 10007, bigOf [5, 1], bigOf [1, 2, 3]]
/-- elements of rings -/
def exElems : List IBig := [⟨.pos, .small 5⟩, ⟨.neg, .small 2⟩, ⟨.neg, bigOf [7, 8, 9]⟩]

/-- pairs of elements of the rings -/
def totalRing {α : Type} (f : Modulo → Modulo → Timed α) : Nat :=
  total (exRings.flatMap fun m => exElems.flatMap fun x => exElems.map fun y =>
    (do let r ← Timed.Ring.new cfg16 1000 m
        let a ← Timed.Ring.fromIBig cfg16 r .ref x
        let b ← Timed.Ring.fromIBig cfg16 r .val y
        f a b).steps)

/-! ### sums and differences (C62) -/

example : (totalPairs exSizes (Timed.UBig.add cfg16)) = 3959 := by decide +kernel
example : (totalPairs exSizes (Timed.UBig.sub cfg16)) = 1620 := by decide +kernel
example : (totalPairs exSigned (Timed.IBig.add cfg16)) = 2549 := by decide +kernel
example : (totalPairs exSigned (Timed.IBig.sub cfg16)) = 2583 := by decide +kernel

/-! ### products (C60) and powers (C63) -/

example : (totalPairs exSizes (Timed.UBig.mul cfg16)) = 6636 := by decide +kernel
example : (totalPairs exSigned (Timed.IBig.mul cfg16)) = 4720 := by decide +kernel
example : ((Timed.UBig.mul cfg16 .ref .ref (exWide 65535) (exWide 3)).steps.getD 0) = 5730 := by decide +kernel
example : (total (exSizes.flatMap fun x => [0, 1, 2, 5].map fun e => (Timed.UBig.pow cfg16 x e).steps)) = 3286 := by
    decide +kernel
example : (total (exSigned.flatMap fun x => [0, 1, 2, 3].map fun e => (Timed.IBig.pow cfg16 x e).steps)) = 871 := by
    decide +kernel

/-! ### quotients and remainders (C61) -/

example : (totalPairs exSizes (Timed.UBig.div cfg16)) = 4808 := by decide +kernel
example : (totalPairs exSizes (Timed.UBig.rem cfg16)) = 4651 := by decide +kernel
example : (totalPairs exSizes (Timed.UBig.divRem cfg16)) = 5705 := by decide +kernel
example : (totalPairs exSizes (Timed.UBig.divEuclid cfg16)) = 4808 := by decide +kernel
example : (totalPairs exSizes (Timed.UBig.remEuclid cfg16)) = 4651 := by decide +kernel
example : (totalPairs exSizes (Timed.UBig.divRemEuclid cfg16)) = 5705 := by decide +kernel
example : (totalPairs exSigned (Timed.IBig.div cfg16)) = 3522 := by decide +kernel
example : (totalPairs exSigned (Timed.IBig.rem cfg16)) = 3359 := by decide +kernel
example : (totalPairs exSigned (Timed.IBig.divRem cfg16)) = 4347 := by decide +kernel
example : (totalPairs exSigned (Timed.IBig.divEuclid cfg16)) = 4507 := by decide +kernel
example : (totalPairs exSigned (Timed.IBig.remEuclid cfg16)) = 4140 := by decide +kernel
example : (totalPairs exSigned (Timed.IBig.divRemEuclid cfg16)) = 5288 := by decide +kernel
example : ((Timed.UBig.divRem cfg16 .ref .ref (exWide 65535) (exWide 3)).steps.getD 0) = 812 := by decide +kernel

/-! ### shifts, bitwise operators and comparison (C67) -/

example : (total (exSizes.flatMap fun x => exOwn.flatMap fun o => [0, 16, 37, 100].map fun n => (Timed.UBig.shl cfg16
    o x n).steps)) = 1448 := by decide +kernel
example : (total (exSizes.flatMap fun x => exOwn.flatMap fun o => [0, 16, 37, 100].map fun n => (Timed.UBig.shr cfg16
    o x n).steps)) = 551 := by decide +kernel
example : (total (exSigned.flatMap fun x => exOwn.flatMap fun o => [0, 16, 37, 100].map fun n => (Timed.IBig.shl cfg16
    o x n).steps)) = 1452 := by decide +kernel
example : (total (exSigned.flatMap fun x => exOwn.flatMap fun o => [0, 16, 37, 100].map fun n => (Timed.IBig.shr cfg16
    o x n).steps)) = 495 := by decide +kernel
example : (totalPairs exSizes (Timed.UBig.bitand cfg16)) = 881 := by decide +kernel
example : (totalPairs exSizes (Timed.UBig.bitor cfg16)) = 2651 := by decide +kernel
example : (totalPairs exSizes (Timed.UBig.bitxor cfg16)) = 2651 := by decide +kernel
example : (totalPairs exSizes (Timed.UBig.andNot cfg16)) = 1800 := by decide +kernel
example : (totalPairs exSigned (Timed.IBig.bitand cfg16)) = 3389 := by decide +kernel
example : (totalPairs exSigned (Timed.IBig.bitor cfg16)) = 3693 := by decide +kernel
example : (totalPairs exSigned (Timed.IBig.bitxor cfg16)) = 4529 := by decide +kernel
example : (totalPairs exSigned (Timed.IBig.andNot cfg16)) = 3522 := by decide +kernel
example : (totalEach exSigned (Timed.IBig.not cfg16)) = 103 := by decide +kernel
example : (totalEach exSizes fun _ => Timed.UBig.trailingZeros cfg16) = 42 := by decide +kernel
example : (totalPairs exSizes fun _ _ => Timed.UBig.cmp) = 236 := by decide +kernel

/-! ### reading and writing (C64, C65) -/

example : (total (["0", "12345", "+999999999999999999999999", "-17", "1x", "", "0000000000000000001"].flatMap fun s =>
    [2, 10, 16, 36].flatMap fun r => [(Timed.UBig.fromStrRadix cfg16 (asciiBytes s) r).steps, (Timed.IBig.fromStrRadix
    cfg16 (asciiBytes s) r).steps])) = 1641 := by decide +kernel
example : (total (["0b101", "0o777", "+0xfffffffffffff", "-0x0", "12_34"].flatMap fun s =>
    [(Timed.UBig.fromStrWithRadixPrefix cfg16 (asciiBytes s)).steps, (Timed.IBig.fromStrWithRadixPrefix cfg16
    (asciiBytes s)).steps])) = 296 := by decide +kernel
example : ((Timed.UBig.fromStrRadix cfg16 (List.replicate 400 57) 10).steps.getD 0) = 5924 := by decide +kernel
example : (total (exSizes.flatMap fun x => [.display, .binary, .octal, .lowerHex, .upperHex].map fun t =>
    (Timed.UBig.fmt cfg16 true t x .default).steps)) = 5527 := by decide +kernel
example : (total (exSigned.flatMap fun x => [none, some .left, some .center, some .right].map fun a => (Timed.IBig.fmt
    cfg16 false .display x ⟨some 30, 42, a, true, true, false⟩).steps)) = 2952 := by decide +kernel
example : (total (exSigned.map fun x => (Timed.IBig.fmt cfg16 false .lowerHex x ⟨some 30, 42, none, true, true,
    true⟩).steps)) = 559 := by decide +kernel
example : (total (exSizes.flatMap fun x => [3, 8, 32, 36].map fun r => (Timed.UBig.inRadixFmt cfg16 true x r
    .default).steps)) = 3801 := by decide +kernel
example : (total (exSigned.map fun x => (Timed.IBig.inRadixFmt cfg16 true x 27 .default).steps)) = 530 := by
    decide +kernel
example : ((Timed.UBig.fmt cfg16 true .display (exWide 65535) .default).steps.getD 0) = 10603 := by decide +kernel

/-! ### greatest common divisors (C68) -/

example : (totalPairs (exSizes.take 5) fun _ _ => Timed.UBig.gcd cfg16) = 8576 := by decide +kernel
example : (totalPairs (exSizes.take 4) fun _ _ => Timed.UBig.extendedGcd cfg16) = 116344 := by decide +kernel
example : (totalPairs (exSigned.take 5) fun _ _ => Timed.IBig.gcd cfg16) = 3896 := by decide +kernel
example : (totalPairs (exSigned.take 5) fun _ _ => Timed.IBig.extendedGcd cfg16) = 46376 := by decide +kernel

/-! ### rings (C69) -/

example : (totalRing fun a _ => pure a) = 2826 := by decide +kernel
example : (totalRing fun a _ => Timed.Modulo.residue cfg16 a) = 3150 := by decide +kernel
example : (totalRing fun a _ => Timed.Modulo.neg 16 a) = 3180 := by decide +kernel
example : (total (exRings.map fun m => (Timed.Ring.new cfg16 1000 m >>= Timed.Ring.modulus cfg16).steps)) = 64 := by
    decide +kernel
example : (total (exOwn.flatMap fun o => exOwn.map fun p => some (totalRing (Timed.Modulo.add 16 o p)))) = 12687 := by
    decide +kernel
example : (total (exOwn.flatMap fun o => exOwn.map fun p => some (totalRing (Timed.Modulo.sub 16 o p)))) = 12451 := by
    decide +kernel
example : (total (exOwn.flatMap fun o => exOwn.map fun p => some (totalRing (Timed.Modulo.mul cfg16 o p)))) = 18259 :=
    by decide +kernel
example : (totalRing fun a b => Timed.Modulo.div cfg16 a b) = 85242 := by decide +kernel
example : (totalRing fun a _ => Timed.Modulo.inverse cfg16 a) = 140010 := by decide +kernel
example : (total ([.small 0, .small 1, .small 2, .small 4097, bigOf [65535, 3]].map fun e => some (totalRing fun a _
    => Timed.Modulo.pow cfg16 a e))) = 89427 := by decide +kernel
example : (total ([ibigOf .pos [1, 1], ibigOf .neg [1, 1]].map fun e => some (totalRing fun a _ =>
    Timed.Modulo.powSigned cfg16 a e))) = 139491 := by decide +kernel
example : (total (exRings.flatMap fun m => exSizes.flatMap fun x => exOwn.map fun o => (Timed.Ring.new cfg16 1000 m
    >>= fun r => Timed.Ring.fromUBig cfg16 r o x).steps)) = 2354 := by decide +kernel

/-! ### conversions and bits (C77) -/

example : (total ([[], [1], [1, 2], [1, 2, 3], [255, 255, 255, 255, 255, 255, 255, 0, 0]].flatMap fun b =>
    [(Timed.UBig.fromLeBytes cfg16 b).steps, (Timed.UBig.fromBeBytes cfg16 b).steps])) = 82 := by decide +kernel
example : (total (exSizes.flatMap fun x => [(Timed.UBig.toLeBytes cfg16 x).steps, (Timed.UBig.toBeBytes cfg16
    x).steps])) = 76 := by decide +kernel
example : (total ([8, 16, 32, 64, 128].flatMap fun b => [(Timed.UBig.tryFromPrim cfg16 (.u b) (2 ^ b - 1)).steps,
    (Timed.UBig.tryFromPrim cfg16 (.i b) (2 ^ (b - 1) - 1)).steps, (Timed.IBig.fromPrim cfg16 (.u b) (2 ^ b -
    1)).steps, (Timed.IBig.fromPrim cfg16 (.i b) (-2 ^ (b - 1))).steps])) = 284 := by decide +kernel
example : (total ([PTy.u 8, .u 16, .u 32, .u 64, .u 128, .i 8, .i 16, .i 32, .i 64, .i 128].flatMap fun t =>
    exSizes.map fun x => (Timed.UBig.tryToPrim cfg16 x t).steps)) = 88 := by decide +kernel
example : (total ([PTy.u 8, .u 16, .u 32, .u 64, .u 128, .i 8, .i 16, .i 32, .i 64, .i 128].flatMap fun t =>
    exSigned.map fun x => (Timed.IBig.tryToPrim cfg16 x t).steps)) = 79 := by decide +kernel
example : (total (exSizes.flatMap fun x => [(Timed.UBig.toFloat cfg16 code32 f32 x).steps, (Timed.UBig.toFloat cfg16
    code64 f64 x).steps])) = 161 := by decide +kernel
example : (total (exSigned.map fun x => (Timed.IBig.toFloat cfg16 code64 f64 x).steps)) = 63 := by decide +kernel
example : (total (exSizes.flatMap fun x => [0, 5, 16, 100].flatMap fun n => [(Timed.UBig.bit cfg16 x n).steps,
    (Timed.UBig.setBit cfg16 x n).steps, (Timed.UBig.clearBit cfg16 x n).steps])) = 593 := by decide +kernel
example : (total (exSizes.flatMap fun x => [(Timed.UBig.isPowerOfTwo x).steps, (Timed.UBig.bitLen cfg16 x).steps])) =
    40 := by decide +kernel
example : (totalEach exSizes (Timed.UBig.nextPowerOfTwo cfg16)) = 257 := by decide +kernel

/-! ### serialisation (C79) -/

example : (totalEach exSizes fun _ => Timed.UBig.serialize cfg16) = 116 := by decide +kernel
example : (totalEach exSigned fun _ => Timed.IBig.serialize cfg16) = 102 := by decide +kernel
example : (total ([[], [1], [1, 2], [5, 0, 2 ^ 64 - 1, 0]].flatMap fun l => [none, some l.length].map fun h =>
    (Timed.UBig.deserialize cfg16 h l).steps)) = 341 := by decide +kernel
example : (total ([[], [1], [1, 2], [5, 0, 2 ^ 64 - 1, 0]].flatMap fun l => [none, some l.length].map fun h =>
    (Timed.IBig.deserialize cfg16 .neg h l).steps)) = 349 := by decide +kernel

/-! ### random numbers (C80) -/

/-- the steps of a random computation if the numbers drawn are those in the list, modulo the size of the range, and then 0 -/
def path {α : Type} : Draw (α × Nat) → List Nat → Option Nat
  | .ret p, _ => some p.2
  | .fail _, _ => none
  | .draw _ k, [] => path (k 0) []
  | .draw m k, x :: l => path (k (x % m)) l

/-- numbers drawn: all 0; a first attempt that fails at each place -/
def exDraws : List (List Nat) := [[], [9, 0, 0, 0, 5], [0, 65535], [9, 65535, 65535, 65535, 65535, 1, 2, 3]]

example : (total (exSizes.flatMap fun x => exSizes.flatMap fun y => exDraws.flatMap fun l => [false, true].map fun i =>
    path (TDraw.genUBig cfg16 i x y 3) l)) = 11055 := by decide +kernel
example : (total (exSigned.flatMap fun x => exSigned.flatMap fun y => exDraws.flatMap fun l => [false, true].map fun i =>
    path (TDraw.genIBig cfg16 i x y 3) l)) = 21924 := by decide +kernel

/-! ### accumulators (C81) -/

/-- numbers that get longer -/
def exGrowing : List (Own × UBig) := (List.range 40).map fun i => (.ref, bigOf (List.replicate (i + 2) 65535))

example : (total (exSizes.flatMap fun x => exSizes.flatMap fun y => exOwn.map fun o =>
    (Timed.Exact.addAll cfg16 x [(o, y), (o, x), (o, y)]).steps)) = 2321 := by decide +kernel
example : (total (exSizes.flatMap fun x => exSizes.flatMap fun y => exOwn.map fun o =>
    (do let z ← Timed.Exact.addAll cfg16 x [(o, y), (o, x), (o, y)]
        Timed.Exact.subAll cfg16 z [(o, y), (o, .small 1), (o, x)]).steps)) = 3729 := by decide +kernel
example : ((do let z ← Timed.Exact.addAll cfg16 (.small 0) exGrowing
               Timed.Exact.subAll cfg16 z exGrowing.reverse).steps) = some 2576 := by decide +kernel
example : (Timed.Exact.upDown cfg16 (bigOf (List.replicate 12 65535)) 5).steps = some 183 := by decide +kernel

/-! ### sets of bits (C82) -/

example : (total (exSizes.flatMap fun x => [3, 20, 40, 100, 300].flatMap fun i => [true, false].map fun v =>
    (Timed.Exact.putAll cfg16 x [(v, i), (true, 50), (v, 2 * i)]).steps)) = 1519 := by decide +kernel
example : (Timed.Exact.putAll cfg16 (.small 0) ((List.range 60).map fun i => (true, 9 * i))).steps = some 479 := by decide +kernel
example : (Timed.Exact.putAll cfg16 (bigOf (List.replicate 12 32768)) ((List.range 12).reverse.map fun i => (false, 16 * i + 15))).steps =
    some 77 := by decide +kernel

end Ibig.Tests
