import Verif.Model.Ntt
import Verif.Model.Fmt
import Verif.Model.Serde
import Verif.Model.Arch
/-!
Model of the constants that the compiler evaluates, and of the static assertions (`const_assert!`): a panic, an
overflow or a false assertion in one of them is a compilation error.

The numbers in this file are written out as in the source: the assertions compare them.
-/
namespace Ibig

/-- /repo/src/arch/generic_16_bit/ntt.rs:6, generic_32_bit/ntt.rs:6, generic_64_bit/ntt.rs:6 `MAX_ORDER`;
x86/mod.rs and x86_64/mod.rs use the generic tables -/
def Arch.maxOrder : Arch → Nat
  | .generic16 => 12
  | .generic32 | .x86 => 27
  | .generic64 | .x86_64 => 57

/-- /repo/src/ubig.rs:94-100 `MAX_LEN`, with the operations on `usize` that it consists of: a division, a
`checked_shl`, a minimum and a bitwise and with `!1` -/
def constMaxLen (W U order : Nat) : R Nat := do
  let q ← if W = 0 then .error .divideByZero else .ok ((2 ^ U - 1) / W)
  let nttLen := if order < U then 2 ^ order % 2 ^ U else 2 ^ U - 1
  .ok (min q nttLen &&& (2 ^ U - 1 - 1))

/-- /repo/src/radix.rs:115-131 `generate_radix_info_table`, the entries from `radix` on (`n` of them) -/
def radixTableFrom (W : Nat) : Nat → Nat → R (List RadixInfo)
  | 0, _ => .ok []
  | n + 1, radix => do
    let info ← RadixInfo.forRadix W radix
    let rest ← radixTableFrom W n (radix + 1)
    .ok (info :: rest)

/-- The constants. -/
structure Consts where
  maxLen : Nat
  maxBitLen : Nat
  maxCapacity : Nat
  wordsPerU64 : Nat
  allOnes : Nat
  digitBufferLen : Nat
  /-- `RADIX_INFO_TABLE[2..]` -/
  radixTable : List RadixInfo
  maxWordDigits : Nat
  fields : List RingSmall
  roots : List (List Nat)
  inverseRoots : List (List Nat)

/-- All constants of a build that are not literals. -/
def Consts.eval (arch : Arch) (U : Nat) : R Consts := do
  let W := arch.W
  -- ubig.rs:94, 114, buffer.rs:155
  let maxLen ← constMaxLen W U arch.maxOrder
  let maxBitLen ← ckMul U maxLen W
  let maxCapacity ← ckAdd U maxLen 4
  -- arch/generic/digits.rs:14, fmt/digit_writer.rs:9 (math.rs:45-51, 61-63)
  let bufferLen ← ckMul U ((32 - 1) / (W / 8) + 1) (W / 8)
  -- radix.rs:57, 115
  let table ← radixTableFrom W 35 2
  let digits ← Ibig.maxWordDigits W
  -- mul/ntt.rs:23, 86, 90
  let fields ← nttFields W
  let roots ← nttRoots W arch.maxOrder
  let inv ← nttInverseRoots W arch.maxOrder
  .ok ⟨maxLen, maxBitLen, maxCapacity, 64 / W, (2 ^ W - 1) / 255, bufferLen, table, digits, fields, roots, inv⟩

/-- The static assertions: serde.rs:10, 88; mul_ops.rs:328; radix.rs:30; fmt/non_power_two.rs:186;
div/divide_conquer.rs:76; mul/mod.rs:16, 17, 21 -/
def Consts.asserts (arch : Arch) (c : Consts) : List Bool :=
  [64 % arch.W == 0,
   c.maxCapacity - c.maxLen ≥ c.wordsPerU64 - 1,
   c.maxCapacity - c.maxLen ≥ 1,
   97 > 48 + 10 && 65 > 48 + 10,
   c.maxLen % 2 == 0,
   divMaxLenSimple ≥ 3,
   mulMaxLenSimple ≤ mulChunkLen,
   mulMaxLenSimple + 1 ≥ 3,
   mulMaxLenKaratsuba + 1 ≥ 16]

/-- Compilation: evaluate the constants and check the assertions. -/
def Consts.compile (arch : Arch) (U : Nat) : R Consts := do
  let c ← Consts.eval arch U
  assertR ((c.asserts arch).all id = true)
  .ok c

end Ibig
