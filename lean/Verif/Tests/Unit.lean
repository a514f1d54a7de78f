import Verif.Tests.Basic
import Verif.Model.Add
import Verif.Model.Ntt
import Verif.Model.Address
/-!
The unit tests inside the source files of the crate (the modules `tests` under /repo/src), run on the model.

Where the crate's tests compare capacities they assume that a `Vec` gets exactly the capacity it asks for, and
so do these (`onTight`).
-/
namespace Ibig.Tests
open Ibig

/-- `Word::MAX` -/
def wmax (cfg : Cfg) : Nat := base cfg.W - 1

/-! ### /repo/src/add.rs -/

example : onAll (fun cfg =>
    decide (addOne cfg.W [1, 2, 3] = ([2, 2, 3], false)) &&
    decide (addOne cfg.W [wmax cfg, wmax cfg, 3] = ([0, 0, 4], false)) &&
    decide (addOne cfg.W [wmax cfg, wmax cfg, wmax cfg] = ([0, 0, 0], true)) &&
    decide (addOne cfg.W [] = ([], true))) = true := by decide +kernel

example : onAll (fun cfg =>
    isV ([8, 2, 3], false) (addWord cfg.W [1, 2, 3] 7) &&
    isV ([1, 0, 4], false) (addWord cfg.W [wmax cfg / 2, wmax cfg, 3] (wmax cfg / 2 + 3)) &&
    isV ([1, 0, 0], true) (addWord cfg.W [wmax cfg / 2, wmax cfg, wmax cfg] (wmax cfg / 2 + 3))) = true := by
  decide +kernel

example : onAll (fun cfg =>
    isV ([], -5) (addSignedWord cfg.W [] (-5)) &&
    isV ([5, 2, 3], 0) (addSignedWord cfg.W [1, 2, 3] 4) &&
    isV ([wmax cfg, wmax cfg], -1) (addSignedWord cfg.W [3, 0] (-4))) = true := by decide +kernel

example : onAll (fun cfg =>
    isV ([4, 9, 3], false) (addInPlace cfg.W [1, 2, 3] [3, 7]) &&
    isV ([1, 1, 0], true) (addInPlace cfg.W [wmax cfg / 2, 1, wmax cfg] [wmax cfg / 2 + 3, wmax cfg])) = true := by
  decide +kernel

example : onAll (fun cfg =>
    decide (subOne cfg.W [2, 2, 3] = ([1, 2, 3], false)) &&
    decide (subOne cfg.W [0, 0, 4] = ([wmax cfg, wmax cfg, 3], false)) &&
    decide (subOne cfg.W [0, 0, 0] = ([wmax cfg, wmax cfg, wmax cfg], true)) &&
    decide (subOne cfg.W [] = ([], true))) = true := by decide +kernel

example : onAll (fun cfg =>
    isV ([1, 2, 3], false) (subWord cfg.W [8, 2, 3] 7) &&
    isV ([wmax cfg / 2, wmax cfg, 3], false) (subWord cfg.W [1, 0, 4] (wmax cfg / 2 + 3)) &&
    isV ([wmax cfg / 2, wmax cfg, wmax cfg], true) (subWord cfg.W [1, 0, 0] (wmax cfg / 2 + 3))) = true := by
  decide +kernel

example : onAll (fun cfg =>
    isV ([1, 2, 3], false) (subInPlace cfg.W [4, 9, 3] [3, 7]) &&
    isV ([wmax cfg / 2, 1, wmax cfg], true) (subInPlace cfg.W [1, 1, 0] [wmax cfg / 2 + 3, wmax cfg])) = true := by
  decide +kernel

example : onAll (fun cfg =>
    isV ([1, 2, 3], .pos) (subInPlaceWithSign cfg.W [4, 9, 3] [3, 7]) &&
    isV ([wmax cfg - 2, 1, 0, 0], .neg) (subInPlaceWithSign cfg.W [4, 0, 0, 0] [1, 2, 0]) &&
    isV ([1, 0, 0], .pos) (subInPlaceWithSign cfg.W [4, 9, 3] [3, 9, 3]) &&
    isV ([1, 0, 0], .neg) (subInPlaceWithSign cfg.W [4, 9, 3] [5, 9, 3])) = true := by decide +kernel

/-! ### /repo/src/buffer.rs -/

/-- On all builds, with vectors that get exactly the capacity they ask for. -/
def onTight (p : Cfg → Bool) : Bool := onAll fun cfg => p ⟨cfg.W, cfg.U, cfg.maxLen, fun _ => 0⟩

/-- A buffer with room for `n` words that contains `ws`. -/
def buf (cfg : Cfg) (n : Nat) (ws : List Nat) : R Buffer := do
  let b ← Buffer.allocate cfg n
  ws.foldlM (fun b w => b.push w) b

/-- The contents. -/
def contents (b : R Buffer) : R (List Nat) := b.map Buffer.words

/-- The capacity. -/
def capOf (b : R Buffer) : R Nat := b.map Buffer.cap

example : onTight (fun cfg =>
    isV 4 (defaultCapacity cfg 2) && isV 1127 (defaultCapacity cfg 1000) &&
    isV 6 (maxCompactCapacity cfg 2) && isV 1254 (maxCompactCapacity cfg 1000) &&
    isV ([], 1127) ((Buffer.allocate cfg 1000).map fun b => (b.words, b.cap)) &&
    panics .tooLarge (Buffer.allocate cfg (cfg.maxCap + 1))) = true := by decide +kernel

example : onTight (fun cfg =>
    isV 4 (capOf (buf cfg 2 [7])) &&
    isV 4 (capOf (do (← buf cfg 2 [7]).ensureCapacity cfg 4)) &&
    isV ⟨[7], 7⟩ (do (← (← buf cfg 2 [7]).ensureCapacity cfg 4).ensureCapacity cfg 5) &&
    isV ⟨[7, 8], 4⟩ (do (← buf cfg 100 [7, 8]).shrink cfg)) = true := by decide +kernel

example : onTight (fun cfg =>
    isV [1, 2] (contents (buf cfg 5 [1, 2])) &&
    isV [1, 2] (contents ((buf cfg 5 [1, 2, 0, 0]).map Buffer.popLeadingZeros)) &&
    isV [1, 2, 3] (contents (do (← buf cfg 5 [1]).extend [2, 3])) &&
    isV [1, 0, 0] (contents (do (← buf cfg 5 [1]).pushZeros 2)) &&
    isV [0, 0, 1] (contents (do (← buf cfg 5 [1]).pushZerosFront 2)) &&
    isV [1] (contents (do (← buf cfg 5 [1, 2, 3]).truncate 1)) &&
    isV [3] (contents (do (← buf cfg 5 [1, 2, 3]).eraseFront 2))) = true := by decide +kernel

example : onTight (fun cfg =>
    panics .assertFailed (buf cfg 2 (List.replicate 10 7)) &&
    isV 10 ((do
      let b ← Buffer.allocate cfg 2
      (List.replicate 10 7).foldlM (fun (b : Buffer) w => b.pushMayReallocate cfg w) b).map Buffer.len)) = true := by
  decide +kernel

example : onTight (fun cfg =>
    isV ⟨[7, 8], 4⟩ (do (← buf cfg 100 [7, 8]).clone cfg) &&
    isV true (do
      let b ← buf cfg 100 [7, 8]
      let c ← (← Buffer.allocate cfg 50).cloneFrom b
      .ok (decide (c.words = [7, 8]) && isV c.cap (defaultCapacity cfg 50)))) = true := by decide +kernel

example : onTight (fun cfg =>
    isV true (do
      let b ← Buffer.allocate cfg 5
      let b2 ← buf cfg 4 [0, 1, 2, 3]
      let b3 ← buf cfg 100 (List.range 100)
      let r ← b.resizingCloneFrom cfg b2
      let r3 ← r.resizingCloneFrom cfg b3
      let r2 ← r3.resizingCloneFrom cfg b2
      .ok (decide (b.cap = 7) && decide (b2.cap = 6) && decide (r = ⟨[0, 1, 2, 3], 7⟩) &&
        isV r3.cap (defaultCapacity cfg 100) && decide (r3.len = 100) && decide (r2 = ⟨[0, 1, 2, 3], 6⟩)))) = true := by
  decide +kernel

/-! ### /repo/src/ubig.rs -/

/-- `capacity` of the tests -/
def capacity : UBig → Nat
  | .small _ => 1
  | .large b => b.cap

example : onTight (fun cfg =>
    isU cfg 0 (do UBig.ofBuffer cfg (← buf cfg 5 [])) &&
    isU cfg 7 (do UBig.ofBuffer cfg (← buf cfg 5 [7])) &&
    isU cfg 7 (do UBig.ofBuffer cfg (← buf cfg 100 [7, 0, 0])) &&
    isV 7 ((do UBig.ofBuffer cfg (← buf cfg 5 [1, 2, 3, 4])).map capacity) &&
    isV 6 ((do UBig.ofBuffer cfg (← buf cfg 100 [1, 2, 3, 4])).map capacity)) = true := by decide +kernel

/-- `gen_ubig` -/
def genUbig (cfg : Cfg) (n : Nat) : R UBig := do UBig.ofBuffer cfg (← buf cfg n (List.range n))

/-- `clone_from` of a number of `n` words onto one of `k` words: is the value right, old and new capacity,
capacity of the source. -/
def cloneOnto (cfg : Cfg) (k n : Nat) : R (Bool × Nat × Nat × Nat) := do
  let num ← genUbig cfg n
  let a ← genUbig cfg k
  let r ← a.cloneFrom cfg num
  .ok (r.beq num, capacity a, capacity r, capacity num)

example : onTight (fun cfg =>
    isU cfg 5 ((UBig.small 5).clone cfg) &&
    isV (true, true) (do
      let a ← genUbig cfg 10
      let b ← a.clone cfg
      .ok (b.beq a, decide (capacity a = capacity b))) &&
    isV (true, true, true) (do
      let num ← genUbig cfg 10
      let a ← (UBig.small 3).cloneFrom cfg num
      let b ← a.cloneFrom cfg (.small 7)
      let c ← b.cloneFrom cfg (.small 7)
      .ok (a.beq num, b.beq (.small 7), c.beq (.small 7))) &&
    isV (true, true, true) ((cloneOnto cfg 9 10).map fun (eq, before, after, src) =>
      (eq, decide (after = before), decide (after ≠ src))) &&
    isV (true, true, true) ((cloneOnto cfg 2 10).map fun (eq, before, after, src) =>
      (eq, decide (after ≠ before), decide (after = src))) &&
    isV (true, true, true) ((cloneOnto cfg 100 10).map fun (eq, before, after, src) =>
      (eq, decide (after ≠ before), decide (after = src)))) = true := by decide +kernel

/-! ### /repo/src/radix.rs -/

/-- The test compares `digits_per_word` with a floating-point logarithm; here: `radix^digits` fits in a word and
`radix^(digits+1)` does not (for powers of two, the digits are those that fit). -/
example : onAll (fun cfg =>
    (List.range 35).all fun i => (radixInfo cfg.W (i + 2)).toOption.any fun info =>
      if isRadixPow2 (i + 2) then decide (info.digitsPerWord = cfg.W / logRadix (i + 2))
      else decide (info.rangePerWord = (i + 2) ^ info.digitsPerWord) &&
        decide ((i + 2) ^ info.digitsPerWord < base cfg.W) &&
        decide (base cfg.W ≤ (i + 2) ^ (info.digitsPerWord + 1))) = true := by decide +kernel

example :
    digitFromByte 55 10 = some 7 ∧ digitFromByte 97 16 = some 10 ∧ digitFromByte 122 36 = some 35 ∧
    digitFromByte 90 36 = some 35 ∧ digitFromByte 63 10 = none ∧ digitFromByte 97 10 = none ∧
    digitFromByte 122 35 = none ∧ digitFromByte 255 35 = none := by decide +kernel

/-! ### /repo/src/memory.rs -/

/-- A target with 32-bit words aligned to 4 bytes -/
def target32 : Target := ⟨cfg32, 4, 2 ^ 31 - 1, false⟩

/-- Eight bytes of memory at address 16. -/
def eight : MemoryAllocation := ⟨⟨8, 4⟩, 16⟩

/-- The words read by the operations, starting with nothing allocated. -/
def scratchRun (ops : List MemOp) : List Nat × Option Fault :=
  runScratch target32 eight ⟨fun _ => none, []⟩ ops

example : (MemoryAllocation.new target32 ⟨8, 4⟩ 16).toOption.any (fun A =>
    decide (A.start = eight.start) && decide (A.layout = eight.layout)) = true := by decide +kernel

example : scratchRun [.fill 1 3, .read 0 0, .fill 1 4, .read 0 0, .release, .release,
    .copy [4, 5], .read 0 0, .read 0 1, .release, .copyFill 2 [4] 7, .read 0 0, .read 0 1] =
    ([3, 4, 4, 5, 4, 7], none) := by decide +kernel

example : scratchRun [.fill 1 3, .read 0 0, .fill 2 4] = ([3], some (.panic .allocatedTooLittle)) := by
  decide +kernel

example : isV ⟨12, 4⟩ (addLayout target32 ⟨1, 1⟩ ⟨8, 4⟩) = true := by decide +kernel
example : isV ⟨100, 4⟩ (maxLayout target32 ⟨100, 1⟩ ⟨8, 4⟩) = true := by decide +kernel

/-! ### /repo/src/primitive.rs -/

example : onAll (fun cfg =>
    isV 0x0201 (wordFromLeBytesPartial cfg [1, 2]) && isV 0x0102 (wordFromBeBytesPartial cfg [1, 2]) &&
    decide (splitDoubleWord cfg.W (doubleWord cfg.W 3 4) = (3, 4))) = true := by decide +kernel

example :
    toSignMagnitude 32 0 = (.pos, 0) ∧ toSignMagnitude 32 5 = (.pos, 5) ∧
    toSignMagnitude 32 0x7fffffff = (.pos, 0x7fffffff) ∧
    toSignMagnitude 32 (-0x80000000) = (.neg, 0x80000000) := by decide +kernel

example :
    tryFromSignMagnitude 32 .pos 0 = some 0 ∧ tryFromSignMagnitude 32 .pos 5 = some 5 ∧
    tryFromSignMagnitude 32 .pos 0x7fffffff = some 0x7fffffff ∧ tryFromSignMagnitude 32 .pos 0x80000000 = none ∧
    tryFromSignMagnitude 32 .neg 0 = some 0 ∧ tryFromSignMagnitude 32 .neg 5 = some (-5) ∧
    tryFromSignMagnitude 32 .neg 0x7fffffff = some (-0x7fffffff) ∧
    tryFromSignMagnitude 32 .neg 0x80000000 = some (-0x80000000) ∧
    tryFromSignMagnitude 32 .neg 0x80000001 = none ∧ tryFromSignMagnitude 32 .neg 0xffffffff = none := by
  decide +kernel

/-! ### /repo/src/math.rs -/

example : bitLen 0 = 0 ∧ bitLen 0b10011101 = 8 ∧ bitLen 0b10000000 = 8 ∧ bitLen 0b1111111 = 7 := by decide +kernel

example : ([(1, 0), (7, 3), (8, 3), (9, 4), (0xffffffff, 32)].all fun (x, r) => isV r (ceilLog2 x)) = true := by
  decide +kernel

example :
    ceilDiv 0 10 = 0 ∧ ceilDiv 9 10 = 1 ∧ ceilDiv 10 10 = 1 ∧ ceilDiv 11 10 = 2 ∧
    roundUp 0 10 = 0 ∧ roundUp 9 10 = 10 ∧ roundUp 10 10 = 10 ∧ roundUp 11 10 = 20 ∧
    onesWord 32 0 = 0 ∧ onesWord 32 5 = 0b11111 ∧ onesWord 32 32 = 0xffffffff := by decide +kernel

/-! ### /repo/src/div/mod.rs, /repo/src/modular/pow.rs, /repo/src/mul/ntt.rs -/

example : onAll (fun cfg =>
    isV 0 ((divByWord cfg.W [] 7).map Prod.snd) && isV 0 (remByWord cfg.W [] 7)) = true := by decide +kernel

example : onAll (fun cfg => isV (1, 93) (do
    let ring ← RingSmall.new cfg.W 100
    let a ← ring.fromWord cfg.W 17
    let x ← ring.powWord cfg.W a 0
    let y ← ring.powWord cfg.W a 15
    .ok (← ring.residue cfg.W x, ← ring.residue cfg.W y))) = true := by decide +kernel

example : onAll (fun cfg => isV (true, true) (do
    let fields ← nttFields cfg.W
    let one ← nttFromWord cfg.W 1 fields
    let root ← nttMaxOrderRoot cfg.W (nttPrimes cfg.W) fields
    let inv ← nttInverse cfg.W (nttPrimes cfg.W) fields root
    let prod ← nttMul cfg.W fields inv root
    let back ← nttInverse cfg.W (nttPrimes cfg.W) fields inv
    .ok (decide (prod = one), decide (back = root)))) = true := by decide +kernel

/-- `MAX_ORDER` -/
def maxOrder (W : Nat) : Nat := if W = 16 then 12 else if W = 32 then 27 else 57

example : onAll (fun cfg => isV (true, true, true, true) (do
    let fields ← nttFields cfg.W
    let one ← nttFromWord cfg.W 1 fields
    let roots ← nttRoots cfg.W (maxOrder cfg.W)
    let invs ← nttInverseRoots cfg.W (maxOrder cfg.W)
    .ok (decide (roots[0]? = some one), decide (roots[1]? ≠ some one),
      decide (invs[0]? = some one), decide (invs[1]? ≠ some one)))) = true := by decide +kernel

end Ibig.Tests
