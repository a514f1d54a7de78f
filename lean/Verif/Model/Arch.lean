import Verif.Model.Add
/-!
Model of the architecture-specific additions, /repo/src/arch/x86/add.rs and /repo/src/arch/x86_64/add.rs, and
of the choice of architecture, /repo/src/arch/mod.rs.
The other parts of the x86 modules are those of the generic 32-bit and 64-bit modules
(/repo/src/arch/x86/mod.rs, /repo/src/arch/x86_64/mod.rs).
-/
namespace Ibig

/-- `_addcarry_u32`, `_addcarry_u64`, from Intel's documentation: "Add unsigned integers a and b with unsigned
8-bit carry-in c_in (carry or overflow flag), and store the unsigned result in out, and the carry-out in dst":
`tmp := a + b + (c_in > 0 ? 1 : 0); out := tmp[bits-1:0]; dst[0] := tmp[bits]; dst[7:1] := 0`.
Result: the carry-out and the new contents of `*out`. -/
def addcarryU (bits cIn a b : Nat) : Nat × Nat :=
  let tmp := a + b + (if cIn > 0 then 1 else 0)
  (tmp / 2 ^ bits % 2, tmp % 2 ^ bits)

/-- `_subborrow_u32`, `_subborrow_u64`, from Intel's documentation: "Add unsigned 8-bit borrow c_in to unsigned
integer b, and subtract the result from unsigned integer a. Store the unsigned result in out, and the carry-out
in dst": `tmp := a - (b + (c_in > 0 ? 1 : 0))` in two's complement with one more bit. -/
def subborrowU (bits cIn a b : Nat) : Nat × Nat :=
  let tmp := (a + 2 ^ (bits + 1) - (b + if cIn > 0 then 1 else 0)) % 2 ^ (bits + 1)
  (tmp / 2 ^ bits % 2, tmp % 2 ^ bits)

/-- /repo/src/arch/x86_64/add.rs:7-11 and /repo/src/arch/x86/add.rs:7-11 `add_with_carry` -/
def addWithCarryX86 (W a b : Nat) (carry : Bool) : Nat × Bool :=
  let (carry, sum) := addcarryU W carry.toNat a b
  (sum, carry != 0)

/-- /repo/src/arch/x86_64/add.rs:17-21 and /repo/src/arch/x86/add.rs:17-21 `sub_with_borrow` -/
def subWithBorrowX86 (W a b : Nat) (borrow : Bool) : Nat × Bool :=
  let (borrow, diff) := subborrowU W borrow.toNat a b
  (diff, borrow != 0)

/-- The modules that /repo/src/arch/mod.rs chooses from. -/
inductive Arch where
  | generic16
  | generic32
  | generic64
  | x86
  | x86_64
deriving DecidableEq, Repr

/-- Number of bits of `Word`: /repo/src/arch/generic_16_bit/word.rs, generic_32_bit/word.rs,
generic_64_bit/word.rs; x86/mod.rs:9-10 and x86_64/mod.rs:9-10 -/
def Arch.W : Arch → Nat
  | .generic16 => 16
  | .generic32 => 32
  | .generic64 => 64
  | .x86 => 32
  | .x86_64 => 64

/-- `arch::add::add_with_carry` -/
def Arch.addWithCarry (arch : Arch) (a b : Nat) (carry : Bool) : Nat × Bool :=
  match arch with
  | .x86 | .x86_64 => addWithCarryX86 arch.W a b carry
  | _ => Ibig.addWithCarry arch.W a b carry

/-- `arch::add::sub_with_borrow` -/
def Arch.subWithBorrow (arch : Arch) (a b : Nat) (borrow : Bool) : Nat × Bool :=
  match arch with
  | .x86 | .x86_64 => subWithBorrowX86 arch.W a b borrow
  | _ => Ibig.subWithBorrow arch.W a b borrow

/-- The target architectures named in /repo/src/arch/mod.rs, and all others. -/
inductive TargetArch where
  | x86
  | x86_64
  | arm
  | mips
  | powerpc
  | sparc
  | wasm32
  | aarch64
  | mips64
  | powerpc64
  | other
deriving DecidableEq, Repr

/-- /repo/src/arch/mod.rs:15-69: the choice by `force_bits` (if set), target architecture and pointer width -/
def chooseArch (forceBits : Option Nat) (target : TargetArch) (pointerWidth : Nat) : Arch :=
  if forceBits = some 16 then .generic16
  else if forceBits = some 32 then .generic32
  else if forceBits = some 64 then .generic64
  else if target = .x86 then .x86
  else if target = .x86_64 then .x86_64
  else if target = .arm ∨ target = .mips ∨ target = .powerpc ∨ target = .sparc ∨ target = .wasm32 then .generic32
  else if target = .aarch64 ∨ target = .mips64 ∨ target = .powerpc64 then .generic64
  else if pointerWidth = 16 then .generic16
  else if pointerWidth = 32 then .generic32
  else .generic64

end Ibig
