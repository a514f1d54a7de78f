import Verif.Model.AddOps
import Verif.Model.Bytes
/-! Model of /repo/src/bits.rs (operators between big integers). -/
namespace Ibig

/-- `!x` on a word -/
def wordNot (W x : Nat) : Nat := base W - 1 - x

/-- /repo/src/math.rs:68-78 `ones`, in a type with `bits` bits (`T::MAX >> (T::BITS - n)`) -/
def ones (bits n : Nat) : R Nat :=
  if n = 0 then .ok 0
  else do
    let k ← ckSub bits n
    .ok ((2 ^ bits - 1) / 2 ^ k)

/-- `Word::trailing_zeros`; the first number is the number of bits (the result for 0). -/
def trailingZeros : Nat → Nat → Nat
  | 0, _ => 0
  | n + 1, x => if x % 2 = 1 then 0 else trailingZeros n (x / 2) + 1

/-- `Word::is_power_of_two` -/
def wordIsPow2 (x : Nat) : Bool := decide (x ≠ 0 ∧ x = 2 ^ Nat.log2 x)

/-- `Word::checked_next_power_of_two` -/
def wordNextPow2 (W x : Nat) : Option Nat :=
  let p := if x ≤ 1 then 1 else 2 ^ (Nat.log2 (x - 1) + 1)
  if p < base W then some p else none

/-- `slice.first().unwrap()` -/
def firstR : List Nat → R Nat
  | [] => .error .unwrap
  | x :: _ => .ok x

/-- `slice.last().unwrap()` -/
def lastR (l : List Nat) : R Nat :=
  match l.getLast? with
  | some x => .ok x
  | none => .error .unwrap

/-- `*slice.first_mut().unwrap() = f(..)` -/
def modFirstR (f : Nat → Nat) : List Nat → R (List Nat)
  | [] => .error .unwrap
  | x :: l => .ok (f x :: l)

/-- /repo/src/bits.rs:31-39 `bit`; a shift of a word uses the amount modulo the width of the word -/
def UBig.bit (cfg : Cfg) (x : UBig) (n : Nat) : R Bool :=
  match x with
  | .small word => .ok (decide (n < cfg.W) && decide (word &&& 2 ^ (n % cfg.W) ≠ 0))
  | .large buffer =>
    let idx := n / cfg.W
    if idx < buffer.len then do
      let w ← getR buffer.words idx
      .ok (decide (w &&& 2 ^ (n % cfg.W) ≠ 0))
    else .ok false

/-- /repo/src/bits.rs:67-75 `with_bit_word_slow`.
Simplification: a sum is not checked for overflow (see `C66_indices`). -/
def UBig.withBitWordSlow (cfg : Cfg) (word n : Nat) : R UBig := do
  assertR (cfg.W ≤ n)
  let idx := n / cfg.W
  let buffer ← Buffer.allocate cfg (idx + 1)
  let buffer ← buffer.push word
  let buffer ← buffer.extend (List.replicate (idx - 1) 0)
  let buffer ← buffer.push (2 ^ (n % cfg.W))
  UBig.ofBuffer cfg buffer

/-- /repo/src/bits.rs:77-87 `with_bit_large`.
Simplification: a sum is not checked for overflow (see `C66_indices`). -/
def UBig.withBitLarge (cfg : Cfg) (buffer : Buffer) (n : Nat) : R UBig := do
  let idx := n / cfg.W
  if idx < buffer.len then
    let w ← getR buffer.words idx
    let ws ← setR buffer.words idx (w ||| 2 ^ (n % cfg.W))
    UBig.ofBuffer cfg { buffer with words := ws }
  else
    let buffer ← buffer.ensureCapacity cfg (idx + 1)
    let k ← ckSub idx buffer.len
    let buffer ← buffer.pushZeros k
    let buffer ← buffer.push (2 ^ (n % cfg.W))
    UBig.ofBuffer cfg buffer

/-- /repo/src/bits.rs:54-65 `set_bit`: the new value of `self` -/
def UBig.setBit (cfg : Cfg) (x : UBig) (n : Nat) : R UBig :=
  match x with
  | .small word =>
    if n < cfg.W then .ok (.small (word ||| 2 ^ (n % cfg.W))) else UBig.withBitWordSlow cfg word n
  | .large buffer => UBig.withBitLarge cfg buffer n

/-- /repo/src/bits.rs:111-117 `without_bit_large` -/
def UBig.withoutBitLarge (cfg : Cfg) (buffer : Buffer) (n : Nat) : R UBig := do
  let idx := n / cfg.W
  if idx < buffer.len then
    let w ← getR buffer.words idx
    let ws ← setR buffer.words idx (w &&& wordNot cfg.W (2 ^ (n % cfg.W)))
    UBig.ofBuffer cfg { buffer with words := ws }
  else UBig.ofBuffer cfg buffer

/-- /repo/src/bits.rs:100-109 `clear_bit`: the new value of `self`.  `mem::take(self)` leaves the
default value (zero) behind, and it stays there when the `if` has no effect. -/
def UBig.clearBit (cfg : Cfg) (x : UBig) (n : Nat) : R UBig :=
  match x with
  | .small word =>
    if n < cfg.W then .ok (.small (word &&& wordNot cfg.W (2 ^ (n % cfg.W)))) else .ok UBig.default
  | .large buffer => UBig.withoutBitLarge cfg buffer n

/-- loop of /repo/src/bits.rs:146-151 -/
def trailingZerosLoop (W U : Nat) : List Nat → Nat → R Nat
  | [], _ => .error .assertFailed
  | w :: ws, idx =>
    if w ≠ 0 then do
      let n ← ckMul U idx W
      ckAdd U n (trailingZeros W w)
    else trailingZerosLoop W U ws (idx + 1)

/-- /repo/src/bits.rs:143-152 `trailing_zeros_large` -/
def UBig.trailingZerosLarge (cfg : Cfg) (words : List Nat) : R Nat := do
  let l ← lastR words
  assertR (l ≠ 0)
  trailingZerosLoop cfg.W cfg.U words 0

/-- /repo/src/bits.rs:135-141 `UBig::trailing_zeros` -/
def UBig.trailingZeros (cfg : Cfg) : UBig → R (Option Nat)
  | .small w => if w = 0 then .ok none else .ok (some (Ibig.trailingZeros cfg.W w))
  | .large b => do
    let n ← UBig.trailingZerosLarge cfg b.words
    .ok (some n)

/-- /repo/src/bits.rs:229-231 `IBig::trailing_zeros` -/
def IBig.trailingZeros (cfg : Cfg) (x : IBig) : R (Option Nat) := x.mag.trailingZeros cfg

/-- /repo/src/bits.rs:178-185 `bit_len` -/
def UBig.bitLen (cfg : Cfg) : UBig → R Nat
  | .small w => .ok (Ibig.bitLen w)
  | .large b => do
    let n ← ckMul cfg.U b.len cfg.W
    let l ← lastR b.words
    ckSub n (leadingZeros cfg.W l)

/-- /repo/src/bits.rs:205-209 `is_power_of_two_large` -/
def UBig.isPowerOfTwoLarge (words : List Nat) : R Bool := do
  let l ← lastR words
  assertR (l ≠ 0)
  let low ← sliceR words 0 (words.length - 1)
  .ok (low.all (fun x => x == 0) && wordIsPow2 l)

/-- /repo/src/bits.rs:198-203 `is_power_of_two` -/
def UBig.isPowerOfTwo : UBig → R Bool
  | .small w => .ok (wordIsPow2 w)
  | .large b => UBig.isPowerOfTwoLarge b.words

/-- /repo/src/bits.rs:278-281: `last.checked_add(carry).and_then(checked_next_power_of_two)` -/
def wordNextPow2Carry (W last carry : Nat) : Option Nat :=
  if last + carry < base W then wordNextPow2 W (last + carry) else none

/-- /repo/src/bits.rs:259-290 `next_power_of_two_large`.  `iter` skips the zero words of
`buffer[..n-1]`; everything after that is overwritten with 0. -/
def UBig.nextPowerOfTwoLarge (cfg : Cfg) (buffer : Buffer) : R UBig := do
  let l ← lastR buffer.words
  assertR (l ≠ 0)
  let n := buffer.len
  let low ← sliceR buffer.words 0 (n - 1)
  let zeros := low.takeWhile (fun x => x == 0)
  let rest := low.dropWhile (fun x => x == 0)
  let carry := if rest = [] then 0 else 1
  let low := zeros ++ rest.map (fun _ => 0)
  match wordNextPow2Carry cfg.W l carry with
  | some p => UBig.ofBuffer cfg { buffer with words := low ++ [p] }
  | none => do
    let buffer ← ({ buffer with words := low ++ [0] } : Buffer).ensureCapacity cfg (n + 1)
    let buffer ← buffer.push 1
    UBig.ofBuffer cfg buffer

/-- /repo/src/bits.rs:238-246 `next_power_of_two` for `UBig` (`UBig::from(double_word(0, 1))`) -/
def UBig.nextPowerOfTwoV (cfg : Cfg) : UBig → R UBig
  | .small w =>
    match wordNextPow2 cfg.W w with
    | some p => .ok (.small p)
    | none => UBig.fromUnsigned cfg (2 * cfg.W) (doubleWord cfg.W 0 1)
  | .large b => UBig.nextPowerOfTwoLarge cfg b

/-- /repo/src/bits.rs:234-256 `NextPowerOfTwo for UBig`, `NextPowerOfTwo for &UBig` -/
def UBig.nextPowerOfTwo (cfg : Cfg) (o : Own) (x : UBig) : R UBig :=
  match o with
  | .val => UBig.nextPowerOfTwoV cfg x
  | .ref => do
    let x ← x.clone cfg
    UBig.nextPowerOfTwoV cfg x

/-- `for (x, y) in buffer.iter_mut().zip(rhs.iter()) { *x = f(*x, *y) }` -/
def zipInPlace (f : Nat → Nat → Nat) : List Nat → List Nat → List Nat
  | x :: xs, y :: ys => f x y :: zipInPlace f xs ys
  | xs, _ => xs

/-- /repo/src/bits.rs:372-374: cut `buffer` to at most `n` words -/
def Buffer.truncateTo (buffer : Buffer) (n : Nat) : R Buffer :=
  if n < buffer.len then buffer.truncate n else .ok buffer

/-- /repo/src/bits.rs:371-379 `bitand_large` -/
def UBig.bitandLarge (cfg : Cfg) (buffer : Buffer) (rhs : List Nat) : R UBig := do
  let buffer ← buffer.truncateTo rhs.length
  UBig.ofBuffer cfg { buffer with words := zipInPlace (· &&& ·) buffer.words rhs }

/-- Part common to /repo/src/bits.rs:298-301, 318-321, 341-344: `word & buffer.first().unwrap()` -/
def UBig.bitandWordLarge (word : Nat) (buffer : Buffer) : R UBig := do
  let x ← firstR buffer.words
  .ok (.small (word &&& x))

/-- /repo/src/bits.rs:293-311 `BitAnd<UBig> for UBig` -/
def UBig.bitandVV (cfg : Cfg) : UBig → UBig → R UBig
  | .small w0, .small w1 => .ok (.small (w0 &&& w1))
  | .small w0, .large b1 => UBig.bitandWordLarge w0 b1
  | .large b0, .small w1 => UBig.bitandWordLarge w1 b0
  | .large b0, .large b1 =>
    if b0.len ≤ b1.len then UBig.bitandLarge cfg b0 b1.words else UBig.bitandLarge cfg b1 b0.words

/-- /repo/src/bits.rs:313-325 `BitAnd<&UBig> for UBig` -/
def UBig.bitandVR (cfg : Cfg) : UBig → UBig → R UBig
  | .small w0, .small w1 => .ok (.small (w0 &&& w1))
  | .small w0, .large b1 => UBig.bitandWordLarge w0 b1
  | .large b0, .small w1 => UBig.bitandWordLarge w1 b0
  | .large b0, .large b1 => UBig.bitandLarge cfg b0 b1.words

/-- /repo/src/bits.rs:336-354 `BitAnd<&UBig> for &UBig` -/
def UBig.bitandRR (cfg : Cfg) : UBig → UBig → R UBig
  | .small w0, .small w1 => .ok (.small (w0 &&& w1))
  | .small w0, .large b1 => UBig.bitandWordLarge w0 b1
  | .large b0, .small w1 => UBig.bitandWordLarge w1 b0
  | .large b0, .large b1 =>
    if b0.len ≤ b1.len then do
      let b0 ← b0.clone cfg
      UBig.bitandLarge cfg b0 b1.words
    else do
      let b1 ← b1.clone cfg
      UBig.bitandLarge cfg b1 b0.words

/-- The four `BitAnd` impls (/repo/src/bits.rs:293-354). -/
def UBig.bitand (cfg : Cfg) : Own → Own → UBig → UBig → R UBig
  | .val, .val, a, b => UBig.bitandVV cfg a b
  | .val, .ref, a, b => UBig.bitandVR cfg a b
  | .ref, .val, a, b => UBig.bitandVR cfg b a
  | .ref, .ref, a, b => UBig.bitandRR cfg a b

/-- /repo/src/bits.rs:460-465 `bitor_large_word`, 557-562 `bitxor_large_word`,
634-639 `and_not_large_word`, which differ only in the word operation -/
def UBig.bitopLargeWord (f : Nat → Nat → Nat) (cfg : Cfg) (buffer : Buffer) (rhs : Nat) : R UBig := do
  assertR (2 ≤ buffer.len)
  let ws ← modFirstR (fun x => f x rhs) buffer.words
  UBig.ofBuffer cfg { buffer with words := ws }

/-- /repo/src/bits.rs:467-476 `bitor_large`, 564-573 `bitxor_large`, which differ only in the word
operation -/
def UBig.bitopLarge (f : Nat → Nat → Nat) (cfg : Cfg) (buffer : Buffer) (rhs : List Nat) : R UBig := do
  let buffer := { buffer with words := zipInPlace f buffer.words rhs }
  if buffer.len < rhs.length then
    let buffer ← buffer.ensureCapacity cfg rhs.length
    let hi ← sliceR rhs buffer.len rhs.length
    let buffer ← buffer.extend hi
    UBig.ofBuffer cfg buffer
  else UBig.ofBuffer cfg buffer

/-- /repo/src/bits.rs:382-400 `BitOr<UBig> for UBig`, 479-497 `BitXor<UBig> for UBig` -/
def UBig.bitopVV (f : Nat → Nat → Nat) (cfg : Cfg) : UBig → UBig → R UBig
  | .small w0, .small w1 => .ok (.small (f w0 w1))
  | .small w0, .large b1 => UBig.bitopLargeWord f cfg b1 w0
  | .large b0, .small w1 => UBig.bitopLargeWord f cfg b0 w1
  | .large b0, .large b1 =>
    if b1.len ≤ b0.len then UBig.bitopLarge f cfg b0 b1.words else UBig.bitopLarge f cfg b1 b0.words

/-- /repo/src/bits.rs:402-414 `BitOr<&UBig> for UBig`, 499-511 `BitXor<&UBig> for UBig` -/
def UBig.bitopVR (f : Nat → Nat → Nat) (cfg : Cfg) : UBig → UBig → R UBig
  | .small w0, .small w1 => .ok (.small (f w0 w1))
  | .small w0, .large b1 => do
    let b1 ← b1.clone cfg
    UBig.bitopLargeWord f cfg b1 w0
  | .large b0, .small w1 => UBig.bitopLargeWord f cfg b0 w1
  | .large b0, .large b1 => UBig.bitopLarge f cfg b0 b1.words

/-- /repo/src/bits.rs:425-443 `BitOr<&UBig> for &UBig`, 522-540 `BitXor<&UBig> for &UBig` -/
def UBig.bitopRR (f : Nat → Nat → Nat) (cfg : Cfg) : UBig → UBig → R UBig
  | .small w0, .small w1 => .ok (.small (f w0 w1))
  | .small w0, .large b1 => do
    let b1 ← b1.clone cfg
    UBig.bitopLargeWord f cfg b1 w0
  | .large b0, .small w1 => do
    let b0 ← b0.clone cfg
    UBig.bitopLargeWord f cfg b0 w1
  | .large b0, .large b1 =>
    if b1.len ≤ b0.len then do
      let b0 ← b0.clone cfg
      UBig.bitopLarge f cfg b0 b1.words
    else do
      let b1 ← b1.clone cfg
      UBig.bitopLarge f cfg b1 b0.words

/-- The four impls of `BitOr` (/repo/src/bits.rs:382-443) and of `BitXor` (479-540). -/
def UBig.bitop (f : Nat → Nat → Nat) (cfg : Cfg) : Own → Own → UBig → UBig → R UBig
  | .val, .val, a, b => UBig.bitopVV f cfg a b
  | .val, .ref, a, b => UBig.bitopVR f cfg a b
  | .ref, .val, a, b => UBig.bitopVR f cfg b a
  | .ref, .ref, a, b => UBig.bitopRR f cfg a b

/-- /repo/src/bits.rs:382-443 `BitOr` -/
def UBig.bitor : Cfg → Own → Own → UBig → UBig → R UBig := UBig.bitop (· ||| ·)

/-- /repo/src/bits.rs:479-540 `BitXor` -/
def UBig.bitxor : Cfg → Own → Own → UBig → UBig → R UBig := UBig.bitop (· ^^^ ·)

/-- /repo/src/bits.rs:641-646 `and_not_large` -/
def UBig.andNotLarge (cfg : Cfg) (buffer : Buffer) (rhs : List Nat) : R UBig :=
  UBig.ofBuffer cfg
    { buffer with words := zipInPlace (fun x y => x &&& wordNot cfg.W y) buffer.words rhs }

/-- /repo/src/bits.rs:576-602 `AndNot<UBig> for UBig`, `AndNot<&UBig> for UBig` -/
def UBig.andNotV (cfg : Cfg) : UBig → UBig → R UBig
  | .small w0, .small w1 => .ok (.small (w0 &&& wordNot cfg.W w1))
  | .small w0, .large b1 => do
    let x ← firstR b1.words
    .ok (.small (w0 &&& wordNot cfg.W x))
  | .large b0, .small w1 => UBig.bitopLargeWord (fun x y => x &&& wordNot cfg.W y) cfg b0 w1
  | .large b0, .large b1 => UBig.andNotLarge cfg b0 b1.words

/-- /repo/src/bits.rs:604-631 `AndNot<UBig> for &UBig`, `AndNot<&UBig> for &UBig` -/
def UBig.andNotR (cfg : Cfg) : UBig → UBig → R UBig
  | .small w0, .small w1 => .ok (.small (w0 &&& wordNot cfg.W w1))
  | .small w0, .large b1 => do
    let x ← firstR b1.words
    .ok (.small (w0 &&& wordNot cfg.W x))
  | .large b0, .small w1 => do
    let b0 ← b0.clone cfg
    UBig.bitopLargeWord (fun x y => x &&& wordNot cfg.W y) cfg b0 w1
  | .large b0, .large b1 => do
    let b0 ← b0.clone cfg
    UBig.andNotLarge cfg b0 b1.words

/-- The four `AndNot` impls (/repo/src/bits.rs:576-631). -/
def UBig.andNot (cfg : Cfg) (o : Own) (_o' : Own) (a b : UBig) : R UBig :=
  match o with
  | .val => UBig.andNotV cfg a b
  | .ref => UBig.andNotR cfg a b

/-- /repo/src/bits.rs:649-665 `Not for IBig`, `Not for &IBig` -/
def IBig.not (cfg : Cfg) (o : Own) (x : IBig) : R IBig :=
  negR (IBig.add cfg o .val x (.ofUBig (.small 1)))

/-- `(!x).unsigned_abs()` -/
def IBig.notAbs (cfg : Cfg) (o : Own) (x : IBig) : R UBig := do
  let y ← x.not cfg o
  y.unsignedAbs cfg .val

/-- `!IBig::from(m)` for a computed `m` -/
def notOfUBig (cfg : Cfg) (m : R UBig) : R IBig := do
  let m ← m
  (IBig.ofUBig m).not cfg .val

/-- /repo/src/bits.rs:667-693, 704-716 `BitAnd` for `IBig` (the impls differ only in passing the
magnitudes by value or by reference) -/
def IBig.bitandGen (cfg : Cfg) (ox oy : Own) (x y : IBig) : R IBig :=
  match x.sign, y.sign with
  | .pos, .pos => ofUBigR (UBig.bitand cfg ox oy x.mag y.mag)
  | .pos, .neg => do
    let ny ← y.notAbs cfg oy
    ofUBigR (UBig.andNot cfg ox .val x.mag ny)
  | .neg, .pos => do
    let nx ← x.notAbs cfg ox
    ofUBigR (UBig.andNot cfg oy .val y.mag nx)
  | .neg, .neg => do
    let nx ← x.notAbs cfg ox
    let ny ← y.notAbs cfg oy
    notOfUBig cfg (UBig.bitor cfg .val .val nx ny)

/-- The four `BitAnd` impls (/repo/src/bits.rs:667-716; 695-702 swaps the operands). -/
def IBig.bitand (cfg : Cfg) : Own → Own → IBig → IBig → R IBig
  | .ref, .val, a, b => IBig.bitandGen cfg .val .ref b a
  | o, o', a, b => IBig.bitandGen cfg o o' a b

/-- /repo/src/bits.rs:732-758, 769-781 `BitOr` for `IBig` -/
def IBig.bitorGen (cfg : Cfg) (ox oy : Own) (x y : IBig) : R IBig :=
  match x.sign, y.sign with
  | .pos, .pos => ofUBigR (UBig.bitor cfg ox oy x.mag y.mag)
  | .pos, .neg => do
    let ny ← y.notAbs cfg oy
    notOfUBig cfg (UBig.andNot cfg .val ox ny x.mag)
  | .neg, .pos => do
    let nx ← x.notAbs cfg ox
    notOfUBig cfg (UBig.andNot cfg .val oy nx y.mag)
  | .neg, .neg => do
    let nx ← x.notAbs cfg ox
    let ny ← y.notAbs cfg oy
    notOfUBig cfg (UBig.bitand cfg .val .val nx ny)

/-- The four `BitOr` impls (/repo/src/bits.rs:732-781; 760-767 swaps the operands). -/
def IBig.bitor (cfg : Cfg) : Own → Own → IBig → IBig → R IBig
  | .ref, .val, a, b => IBig.bitorGen cfg .val .ref b a
  | o, o', a, b => IBig.bitorGen cfg o o' a b

/-- /repo/src/bits.rs:797-823, 834-846 `BitXor` for `IBig` -/
def IBig.bitxorGen (cfg : Cfg) (ox oy : Own) (x y : IBig) : R IBig :=
  match x.sign, y.sign with
  | .pos, .pos => ofUBigR (UBig.bitxor cfg ox oy x.mag y.mag)
  | .pos, .neg => do
    let ny ← y.notAbs cfg oy
    notOfUBig cfg (UBig.bitxor cfg ox .val x.mag ny)
  | .neg, .pos => do
    let nx ← x.notAbs cfg ox
    notOfUBig cfg (UBig.bitxor cfg .val oy nx y.mag)
  | .neg, .neg => do
    let nx ← x.notAbs cfg ox
    let ny ← y.notAbs cfg oy
    ofUBigR (UBig.bitxor cfg .val .val nx ny)

/-- The four `BitXor` impls (/repo/src/bits.rs:797-846; 825-832 swaps the operands). -/
def IBig.bitxor (cfg : Cfg) : Own → Own → IBig → IBig → R IBig
  | .ref, .val, a, b => IBig.bitxorGen cfg .val .ref b a
  | o, o', a, b => IBig.bitxorGen cfg o o' a b

/-- The four `AndNot` impls (/repo/src/bits.rs:862-924). -/
def IBig.andNot (cfg : Cfg) (ox oy : Own) (x y : IBig) : R IBig :=
  match x.sign, y.sign with
  | .pos, .pos => ofUBigR (UBig.andNot cfg ox oy x.mag y.mag)
  | .pos, .neg => do
    let ny ← y.notAbs cfg oy
    ofUBigR (UBig.bitand cfg ox .val x.mag ny)
  | .neg, .pos => do
    let nx ← x.notAbs cfg ox
    notOfUBig cfg (UBig.bitor cfg .val oy nx y.mag)
  | .neg, .neg => do
    let ny ← y.notAbs cfg oy
    let nx ← x.notAbs cfg ox
    ofUBigR (UBig.andNot cfg .val .val ny nx)

/-- /repo/src/bits.rs:929-946 `are_low_bits_nonzero` -/
def UBig.areLowBitsNonzero (cfg : Cfg) (x : UBig) (n : Nat) : R Bool :=
  match x with
  | .small word => do
    let m ← ones cfg.W (min n cfg.W)
    .ok (decide (word &&& m ≠ 0))
  | .large buffer => do
    let nWords := n / cfg.W
    if buffer.len ≤ nWords then .ok true
    else
      let nTop := n % cfg.W
      let low ← sliceR buffer.words 0 nWords
      if low.any (fun x => x != 0) then .ok true
      else
        let w ← getR buffer.words nWords
        let m ← ones cfg.W nTop
        .ok (decide (w &&& m ≠ 0))

end Ibig
