import Verif.Model.Shift
import Verif.Model.FastDivide
/-! Model of the single-word divisor part of /repo/src/div/mod.rs. -/
namespace Ibig

/-- `Word::is_power_of_two` -/
def isPow2Word (x : Nat) : Bool := decide (x ≠ 0 ∧ 2 ^ Nat.log2 x = x)

/-- `trailing_zeros` of a non-zero integer, counting at most `fuel` bits
(`Word::trailing_zeros` is `trailingZerosAux W`, giving `W` for zero). -/
def trailingZerosAux : Nat → Nat → Nat
  | 0, _ => 0
  | f + 1, x => if x % 2 = 1 then 0 else 1 + trailingZerosAux f (x / 2)

/-- loop of /repo/src/div/mod.rs:62-67 (most significant word first) -/
def fastDivLoop (W : Nat) (fd : FastDivideNormalized) : List Nat → Nat → R (List Nat × Nat)
  | [], rem => .ok ([], rem)
  | w :: ws, rem => do
    let (qs, rem) ← fastDivLoop W fd ws rem
    let (q, r) ← fd.divRem W (doubleWord W w rem)
    .ok (q :: qs, r)

/-- /repo/src/div/mod.rs:54-69 `fast_div_by_word_in_place` -/
def fastDivByWord (W : Nat) (words : List Nat) (rhs : Nat) (fd : FastDivideNormalized) :
    R (List Nat × Nat) := do
  let shift := leadingZeros W rhs
  let (words, rem) ← shlInPlace W words shift
  let (qs, rem) ← fastDivLoop W fd words rem
  .ok (qs, rem / 2 ^ shift)

/-- /repo/src/div/mod.rs:35-48 `div_by_word_in_place`.
Simplification: the shifted word is not reduced modulo the size of its type (no bits are lost, see `C66_shift_word`). -/
def divByWord (W : Nat) (words : List Nat) (rhs : Nat) : R (List Nat × Nat) := do
  assertR (rhs ≠ 0)
  if words = [] then .ok (words, 0)
  else if isPow2Word rhs then shrInPlace W words (trailingZerosAux W rhs)
  else
    let fd ← FastDivideNormalized.new W (rhs * 2 ^ leadingZeros W rhs)
    fastDivByWord W words rhs fd

/-- loop of /repo/src/div/mod.rs:102-106 over the remaining words, most significant first
(`words` is given little-endian, without the top word) -/
def fastRemLoop (W : Nat) (fd : FastDivideNormalized) : List Nat → Nat → R Nat
  | [], rem => .ok rem
  | w :: ws, rem => do
    let rem ← fastRemLoop W fd ws rem
    let (_, r) ← fd.divRem W (doubleWord W w rem)
    .ok r

/-- /repo/src/div/mod.rs:90-109 `fast_rem_by_normalized_word` -/
def fastRemByNormalizedWord (W : Nat) (words : List Nat) (fd : FastDivideNormalized) : R Nat :=
  match words.getLast? with
  | none => .ok 0
  | some w => fastRemLoop W fd words.dropLast (fd.divRemWord w).2

/-- /repo/src/div/mod.rs:72-87 `rem_by_word`.
Simplification: the shifted word is not reduced modulo the size of its type (no bits are lost, see `C66_shift_word`). -/
def remByWord (W : Nat) (words : List Nat) (rhs : Nat) : R Nat := do
  assertR (rhs ≠ 0)
  match words with
  | [] => .ok 0
  | w0 :: _ =>
    if isPow2Word rhs then .ok (w0 &&& (rhs - 1))
    else
      let shift := leadingZeros W rhs
      let fd ← FastDivideNormalized.new W (rhs * 2 ^ shift)
      let rem ← fastRemByNormalizedWord W words fd
      let (_, rem) ← fd.divRem W (rem * 2 ^ shift)
      .ok (rem / 2 ^ shift)

end Ibig
