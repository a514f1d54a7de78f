import Verif.Model.AddOpsTime
import Verif.Model.ParseTime
import Verif.Model.FmtTime
import Verif.Model.ShiftOps
/-!
Shifts and `trailing_zeros` with the number of their steps: the text of Model/ShiftOps.lean and of a part of
Model/Bits.lean with counting functions.
-/
namespace Ibig.Timed

/-- /repo/src/buffer.rs:99-102: moves the words and writes the zeros -/
def Buffer.pushZerosFront (self : Buffer) (n : Nat) : Timed Buffer :=
  pass (self.words.length + n + 1) (Ibig.Buffer.pushZerosFront self n)
/-- /repo/src/convert.rs:506-517: the words of one primitive integer, of at most 128 bits -/
def UBig.fromUnsigned (cfg : Cfg) (bits x : Nat) : Timed UBig := pass 32 (Ibig.UBig.fromUnsigned cfg bits x)

/-- /repo/src/shift_ops.rs:204-213 `shl_word_slow` -/
def UBig.shlWordSlow (cfg : Cfg) (word rhs : Nat) : Timed UBig := do
  let shiftWords := rhs / cfg.W
  let shiftBits := rhs % cfg.W
  let (lo, hi) := splitDoubleWord cfg.W (word * 2 ^ shiftBits)
  let n ← ckAdd cfg.U shiftWords 2
  let buffer ← Buffer.allocate cfg n
  let buffer ← Buffer.pushZeros buffer shiftWords
  let buffer ← Buffer.push buffer lo
  let buffer ← Buffer.push buffer hi
  UBig.ofBuffer cfg buffer

/-- /repo/src/shift_ops.rs:193-201 `shl_word` -/
def UBig.shlWord (cfg : Cfg) (word rhs : Nat) : Timed UBig := do
  assertR (word ≠ 0)
  if rhs ≤ cfg.W then UBig.fromUnsigned cfg (2 * cfg.W) (word * 2 ^ rhs % 2 ^ (2 * cfg.W))
  else UBig.shlWordSlow cfg word rhs

/-- /repo/src/shift_ops.rs:231-241 `shl_ref_large` -/
def UBig.shlRefLarge (cfg : Cfg) (words : List Nat) (rhs : Nat) : Timed UBig := do
  let shiftWords := rhs / cfg.W
  let shiftBits := rhs % cfg.W
  let n ← ckAdd cfg.U shiftWords words.length
  let n ← ckAdd cfg.U n 1
  let buffer ← Buffer.allocate cfg n
  let buffer ← Buffer.pushZeros buffer shiftWords
  let buffer ← Buffer.extend buffer words
  let (ws, carry) ← onSlice buffer.words shiftWords buffer.len (fun s => shlInPlace cfg.W s shiftBits)
  let buffer ← Buffer.push { buffer with words := ws } carry
  UBig.ofBuffer cfg buffer

/-- /repo/src/shift_ops.rs:216-228 `shl_large` -/
def UBig.shlLarge (cfg : Cfg) (buffer : Buffer) (rhs : Nat) : Timed UBig := do
  let shiftWords := rhs / cfg.W
  let n ← ckAdd cfg.U buffer.len shiftWords
  let n ← ckAdd cfg.U n 1
  if buffer.cap < n then UBig.shlRefLarge cfg buffer.words rhs
  else
    let shiftBits := rhs % cfg.W
    let (ws, carry) ← shlInPlace cfg.W buffer.words shiftBits
    let buffer ← Buffer.push { buffer with words := ws } carry
    let buffer ← Buffer.pushZerosFront buffer shiftWords
    UBig.ofBuffer cfg buffer

/-- /repo/src/shift_ops.rs:88-112 `Shl<usize> for UBig`, `Shl<usize> for &UBig` -/
def UBig.shl (cfg : Cfg) (o : Own) (x : UBig) (rhs : Nat) : Timed UBig :=
  match x with
  | .small w => if w = 0 then pure (.small 0) else UBig.shlWord cfg w rhs
  | .large b =>
    match o with
    | .val => UBig.shlLarge cfg b rhs
    | .ref => UBig.shlRefLarge cfg b.words rhs

/-- /repo/src/shift_ops.rs:255-264 `shr_large` -/
def UBig.shrLarge (cfg : Cfg) (buffer : Buffer) (rhs : Nat) : Timed UBig := do
  let shiftWords := rhs / cfg.W
  if buffer.len ≤ shiftWords then pure (.small 0)
  else
    let shiftBits := rhs % cfg.W
    let buffer ← Buffer.eraseFront buffer shiftWords
    let (ws, _) ← shrInPlace cfg.W buffer.words shiftBits
    UBig.ofBuffer cfg { buffer with words := ws }

/-- /repo/src/shift_ops.rs:267-284 `shr_large_ref` -/
def UBig.shrLargeRef (cfg : Cfg) (words : List Nat) (rhs : Nat) : Timed UBig := do
  let shiftWords := rhs / cfg.W
  let shiftBits := rhs % cfg.W
  let words ← sliceR words (min shiftWords words.length) words.length
  match words with
  | [] => pure (.small 0)
  | [w] => pure (.small (w / 2 ^ shiftBits))
  | [lo, hi] => UBig.fromUnsigned cfg (2 * cfg.W) (doubleWord cfg.W lo hi / 2 ^ shiftBits)
  | words => do
    let buffer ← Buffer.allocate cfg words.length
    let buffer ← Buffer.extend buffer words
    let (ws, _) ← shrInPlace cfg.W buffer.words shiftBits
    UBig.ofBuffer cfg { buffer with words := ws }

/-- /repo/src/shift_ops.rs:114-136 `Shr<usize> for UBig`, `Shr<usize> for &UBig` -/
def UBig.shr (cfg : Cfg) (o : Own) (x : UBig) (rhs : Nat) : Timed UBig :=
  match x with
  | .small w => pass 1 (.ok (UBig.shrWord cfg w rhs))
  | .large b =>
    match o with
    | .val => UBig.shrLarge cfg b rhs
    | .ref => UBig.shrLargeRef cfg b.words rhs

/-- /repo/src/shift_ops.rs:138-156 `Shl<usize> for IBig`, `Shl<usize> for &IBig` -/
def IBig.shl (cfg : Cfg) (o : Own) (x : IBig) (rhs : Nat) : Timed IBig := do
  let m ← UBig.shl cfg o x.mag rhs
  pure (.fromSignMagnitude x.sign m)

/-- /repo/src/bits.rs:929-946 `are_low_bits_nonzero` -/
def UBig.areLowBitsNonzero (cfg : Cfg) (x : UBig) (n : Nat) : Timed Bool :=
  pass (x.len + 1) (Ibig.UBig.areLowBitsNonzero cfg x n)

/-- /repo/src/shift_ops.rs:158-188 `Shr<usize> for IBig`, `Shr<usize> for &IBig` -/
def IBig.shr (cfg : Cfg) (o : Own) (x : IBig) (rhs : Nat) : Timed IBig :=
  match x.sign with
  | .pos => ofUBigR (UBig.shr cfg o x.mag rhs)
  | .neg => do
    let b ← UBig.areLowBitsNonzero cfg x.mag rhs
    let m ← UBig.shr cfg o x.mag rhs
    IBig.sub cfg .val .val (IBig.ofUBig m).neg (.ofUBig (.small b.toNat))

/-- the loop of /repo/src/bits.rs:146-151 -/
def trailingZerosLoop (W U : Nat) : List Nat → Nat → Timed Nat
  | [], _ => throwT .assertFailed
  | w :: ws, idx => do
    tick
    if w ≠ 0 then
      let n ← ckMul U idx W
      ckAdd U n (trailingZeros W w)
    else trailingZerosLoop W U ws (idx + 1)

/-- /repo/src/bits.rs:143-152 `trailing_zeros_large` -/
def UBig.trailingZerosLarge (cfg : Cfg) (words : List Nat) : Timed Nat := do
  let l ← lastR words
  assertR (l ≠ 0)
  trailingZerosLoop cfg.W cfg.U words 0

/-- /repo/src/bits.rs:135-141 `UBig::trailing_zeros` -/
def UBig.trailingZeros (cfg : Cfg) : UBig → Timed (Option Nat)
  | .small w => if w = 0 then pure none else pure (some (Ibig.trailingZeros cfg.W w))
  | .large b => do
    let n ← UBig.trailingZerosLarge cfg b.words
    pure (some n)

end Ibig.Timed
