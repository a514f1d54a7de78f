import Verif.Model.Bits
import Verif.Model.Shift
/-! Model of /repo/src/shift_ops.rs.  The assigning forms (37-49, 69-81) apply the by-value operator to
the old value, and the `&usize` forms (19-35, 51-67) dereference. -/
namespace Ibig

/-- /repo/src/shift_ops.rs:204-213 `shl_word_slow`.
Simplification: the shifted word is not reduced modulo the size of its type (no bits are lost, see `C66_shift_word`). -/
def UBig.shlWordSlow (cfg : Cfg) (word rhs : Nat) : R UBig := do
  let shiftWords := rhs / cfg.W
  let shiftBits := rhs % cfg.W
  let (lo, hi) := splitDoubleWord cfg.W (word * 2 ^ shiftBits)
  let n ← ckAdd cfg.U shiftWords 2
  let buffer ← Buffer.allocate cfg n
  let buffer ← buffer.pushZeros shiftWords
  let buffer ← buffer.push lo
  let buffer ← buffer.push hi
  UBig.ofBuffer cfg buffer

/-- /repo/src/shift_ops.rs:193-201 `shl_word` (`extend_word(word) << rhs` in a double word: bits beyond
the type would be lost) -/
def UBig.shlWord (cfg : Cfg) (word rhs : Nat) : R UBig := do
  assertR (word ≠ 0)
  if rhs ≤ cfg.W then UBig.fromUnsigned cfg (2 * cfg.W) (word * 2 ^ rhs % 2 ^ (2 * cfg.W))
  else UBig.shlWordSlow cfg word rhs

/-- /repo/src/shift_ops.rs:231-241 `shl_ref_large` -/
def UBig.shlRefLarge (cfg : Cfg) (words : List Nat) (rhs : Nat) : R UBig := do
  let shiftWords := rhs / cfg.W
  let shiftBits := rhs % cfg.W
  let n ← ckAdd cfg.U shiftWords words.length
  let n ← ckAdd cfg.U n 1
  let buffer ← Buffer.allocate cfg n
  let buffer ← buffer.pushZeros shiftWords
  let buffer ← buffer.extend words
  let (ws, carry) ← onSlice buffer.words shiftWords buffer.len (fun s => shlInPlace cfg.W s shiftBits)
  let buffer ← ({ buffer with words := ws } : Buffer).push carry
  UBig.ofBuffer cfg buffer

/-- /repo/src/shift_ops.rs:216-228 `shl_large` -/
def UBig.shlLarge (cfg : Cfg) (buffer : Buffer) (rhs : Nat) : R UBig := do
  let shiftWords := rhs / cfg.W
  let n ← ckAdd cfg.U buffer.len shiftWords
  let n ← ckAdd cfg.U n 1
  if buffer.cap < n then UBig.shlRefLarge cfg buffer.words rhs
  else
    let shiftBits := rhs % cfg.W
    let (ws, carry) ← shlInPlace cfg.W buffer.words shiftBits
    let buffer ← ({ buffer with words := ws } : Buffer).push carry
    let buffer ← buffer.pushZerosFront shiftWords
    UBig.ofBuffer cfg buffer

/-- /repo/src/shift_ops.rs:88-112 `Shl<usize> for UBig`, `Shl<usize> for &UBig` -/
def UBig.shl (cfg : Cfg) (o : Own) (x : UBig) (rhs : Nat) : R UBig :=
  match x with
  | .small w => if w = 0 then .ok (.small 0) else UBig.shlWord cfg w rhs
  | .large b =>
    match o with
    | .val => UBig.shlLarge cfg b rhs
    | .ref => UBig.shlRefLarge cfg b.words rhs

/-- /repo/src/shift_ops.rs:245-252 `shr_word`; a shift of a word uses the amount modulo the width of the word -/
def UBig.shrWord (cfg : Cfg) (word rhs : Nat) : UBig :=
  .small (if rhs < cfg.W then word / 2 ^ (rhs % cfg.W) else 0)

/-- /repo/src/shift_ops.rs:255-264 `shr_large` -/
def UBig.shrLarge (cfg : Cfg) (buffer : Buffer) (rhs : Nat) : R UBig := do
  let shiftWords := rhs / cfg.W
  if buffer.len ≤ shiftWords then .ok (.small 0)
  else
    let shiftBits := rhs % cfg.W
    let buffer ← buffer.eraseFront shiftWords
    let (ws, _) ← shrInPlace cfg.W buffer.words shiftBits
    UBig.ofBuffer cfg { buffer with words := ws }

/-- /repo/src/shift_ops.rs:267-284 `shr_large_ref` -/
def UBig.shrLargeRef (cfg : Cfg) (words : List Nat) (rhs : Nat) : R UBig := do
  let shiftWords := rhs / cfg.W
  let shiftBits := rhs % cfg.W
  let words ← sliceR words (min shiftWords words.length) words.length
  match words with
  | [] => .ok (.small 0)
  | [w] => .ok (.small (w / 2 ^ shiftBits))
  | [lo, hi] => UBig.fromUnsigned cfg (2 * cfg.W) (doubleWord cfg.W lo hi / 2 ^ shiftBits)
  | words => do
    let buffer ← Buffer.allocate cfg words.length
    let buffer ← buffer.extend words
    let (ws, _) ← shrInPlace cfg.W buffer.words shiftBits
    UBig.ofBuffer cfg { buffer with words := ws }

/-- /repo/src/shift_ops.rs:114-136 `Shr<usize> for UBig`, `Shr<usize> for &UBig` -/
def UBig.shr (cfg : Cfg) (o : Own) (x : UBig) (rhs : Nat) : R UBig :=
  match x with
  | .small w => .ok (UBig.shrWord cfg w rhs)
  | .large b =>
    match o with
    | .val => UBig.shrLarge cfg b rhs
    | .ref => UBig.shrLargeRef cfg b.words rhs

/-- /repo/src/shift_ops.rs:138-156 `Shl<usize> for IBig`, `Shl<usize> for &IBig` -/
def IBig.shl (cfg : Cfg) (o : Own) (x : IBig) (rhs : Nat) : R IBig := do
  let m ← x.mag.shl cfg o rhs
  .ok (.fromSignMagnitude x.sign m)

/-- /repo/src/shift_ops.rs:158-188 `Shr<usize> for IBig`, `Shr<usize> for &IBig`
(`IBig::from(bool)`: convert.rs:422-427) -/
def IBig.shr (cfg : Cfg) (o : Own) (x : IBig) (rhs : Nat) : R IBig :=
  match x.sign with
  | .pos => ofUBigR (x.mag.shr cfg o rhs)
  | .neg => do
    let b ← x.mag.areLowBitsNonzero cfg rhs
    let m ← x.mag.shr cfg o rhs
    IBig.sub cfg .val .val (IBig.ofUBig m).neg (.ofUBig (.small b.toNat))

end Ibig
