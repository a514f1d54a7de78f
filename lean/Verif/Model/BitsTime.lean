import Verif.Model.AddOpsTime
import Verif.Model.Bits
/-!
Bitwise operators with the number of their steps: the text of Model/Bits.lean with counting functions.
-/
namespace Ibig.Timed

/-- `slice.first().unwrap()` -/
def firstR (l : List Nat) : Timed Nat := pass 1 (Ibig.firstR l)
/-- `*slice.first_mut().unwrap() = f(..)` -/
def modFirstR (f : Nat → Nat) (l : List Nat) : Timed (List Nat) := pass 1 (Ibig.modFirstR f l)
/-- /repo/src/buffer.rs:120-124 -/
def Buffer.truncate (self : Buffer) (n : Nat) : Timed Buffer := pass 1 (Ibig.Buffer.truncate self n)
/-- /repo/src/sign.rs:95-112: may copy the words -/
def IBig.unsignedAbs (cfg : Cfg) (o : Own) (x : IBig) : Timed UBig :=
  pass (x.mag.len + 1) (Ibig.IBig.unsignedAbs cfg o x)

/-- `for (x, y) in buffer.iter_mut().zip(rhs.iter()) { *x = f(*x, *y) }` -/
def zipInPlace (f : Nat → Nat → Nat) : List Nat → List Nat → Timed (List Nat)
  | x :: xs, y :: ys => do
    tick
    let r ← zipInPlace f xs ys
    pure (f x y :: r)
  | xs, _ => pure xs

/-- /repo/src/bits.rs:372-374: cut `buffer` to at most `n` words -/
def Buffer.truncateTo (buffer : Buffer) (n : Nat) : Timed Buffer :=
  if n < buffer.len then Buffer.truncate buffer n else pure buffer

/-- /repo/src/bits.rs:371-379 `bitand_large` -/
def UBig.bitandLarge (cfg : Cfg) (buffer : Buffer) (rhs : List Nat) : Timed UBig := do
  let buffer ← Buffer.truncateTo buffer rhs.length
  let ws ← zipInPlace (· &&& ·) buffer.words rhs
  UBig.ofBuffer cfg { buffer with words := ws }

/-- Part common to /repo/src/bits.rs:298-301, 318-321, 341-344: `word & buffer.first().unwrap()` -/
def UBig.bitandWordLarge (word : Nat) (buffer : Buffer) : Timed UBig := do
  let x ← firstR buffer.words
  pure (.small (word &&& x))

/-- /repo/src/bits.rs:293-311 `BitAnd<UBig> for UBig` -/
def UBig.bitandVV (cfg : Cfg) : UBig → UBig → Timed UBig
  | .small w0, .small w1 => pure (.small (w0 &&& w1))
  | .small w0, .large b1 => UBig.bitandWordLarge w0 b1
  | .large b0, .small w1 => UBig.bitandWordLarge w1 b0
  | .large b0, .large b1 =>
    if b0.len ≤ b1.len then UBig.bitandLarge cfg b0 b1.words else UBig.bitandLarge cfg b1 b0.words

/-- /repo/src/bits.rs:313-325 `BitAnd<&UBig> for UBig` -/
def UBig.bitandVR (cfg : Cfg) : UBig → UBig → Timed UBig
  | .small w0, .small w1 => pure (.small (w0 &&& w1))
  | .small w0, .large b1 => UBig.bitandWordLarge w0 b1
  | .large b0, .small w1 => UBig.bitandWordLarge w1 b0
  | .large b0, .large b1 => UBig.bitandLarge cfg b0 b1.words

/-- /repo/src/bits.rs:336-354 `BitAnd<&UBig> for &UBig` -/
def UBig.bitandRR (cfg : Cfg) : UBig → UBig → Timed UBig
  | .small w0, .small w1 => pure (.small (w0 &&& w1))
  | .small w0, .large b1 => UBig.bitandWordLarge w0 b1
  | .large b0, .small w1 => UBig.bitandWordLarge w1 b0
  | .large b0, .large b1 =>
    if b0.len ≤ b1.len then do
      let b0 ← Buffer.clone cfg b0
      UBig.bitandLarge cfg b0 b1.words
    else do
      let b1 ← Buffer.clone cfg b1
      UBig.bitandLarge cfg b1 b0.words

/-- The four `BitAnd` impls (/repo/src/bits.rs:293-354). -/
def UBig.bitand (cfg : Cfg) : Own → Own → UBig → UBig → Timed UBig
  | .val, .val, a, b => UBig.bitandVV cfg a b
  | .val, .ref, a, b => UBig.bitandVR cfg a b
  | .ref, .val, a, b => UBig.bitandVR cfg b a
  | .ref, .ref, a, b => UBig.bitandRR cfg a b

/-- /repo/src/bits.rs:460-465 `bitor_large_word`, 557-562 `bitxor_large_word`,
634-639 `and_not_large_word`, which differ only in the word operation -/
def UBig.bitopLargeWord (f : Nat → Nat → Nat) (cfg : Cfg) (buffer : Buffer) (rhs : Nat) : Timed UBig := do
  assertR (2 ≤ buffer.len)
  let ws ← modFirstR (fun x => f x rhs) buffer.words
  UBig.ofBuffer cfg { buffer with words := ws }

/-- /repo/src/bits.rs:467-476 `bitor_large`, 564-573 `bitxor_large`, which differ only in the word
operation -/
def UBig.bitopLarge (f : Nat → Nat → Nat) (cfg : Cfg) (buffer : Buffer) (rhs : List Nat) : Timed UBig := do
  let ws ← zipInPlace f buffer.words rhs
  let buffer := { buffer with words := ws }
  if buffer.len < rhs.length then
    let buffer ← Buffer.ensureCapacity cfg buffer rhs.length
    let hi ← sliceR rhs buffer.len rhs.length
    let buffer ← Buffer.extend buffer hi
    UBig.ofBuffer cfg buffer
  else UBig.ofBuffer cfg buffer

/-- /repo/src/bits.rs:382-400 `BitOr<UBig> for UBig`, 479-497 `BitXor<UBig> for UBig` -/
def UBig.bitopVV (f : Nat → Nat → Nat) (cfg : Cfg) : UBig → UBig → Timed UBig
  | .small w0, .small w1 => pure (.small (f w0 w1))
  | .small w0, .large b1 => UBig.bitopLargeWord f cfg b1 w0
  | .large b0, .small w1 => UBig.bitopLargeWord f cfg b0 w1
  | .large b0, .large b1 =>
    if b1.len ≤ b0.len then UBig.bitopLarge f cfg b0 b1.words else UBig.bitopLarge f cfg b1 b0.words

/-- /repo/src/bits.rs:402-414 `BitOr<&UBig> for UBig`, 499-511 `BitXor<&UBig> for UBig` -/
def UBig.bitopVR (f : Nat → Nat → Nat) (cfg : Cfg) : UBig → UBig → Timed UBig
  | .small w0, .small w1 => pure (.small (f w0 w1))
  | .small w0, .large b1 => do
    let b1 ← Buffer.clone cfg b1
    UBig.bitopLargeWord f cfg b1 w0
  | .large b0, .small w1 => UBig.bitopLargeWord f cfg b0 w1
  | .large b0, .large b1 => UBig.bitopLarge f cfg b0 b1.words

/-- /repo/src/bits.rs:425-443 `BitOr<&UBig> for &UBig`, 522-540 `BitXor<&UBig> for &UBig` -/
def UBig.bitopRR (f : Nat → Nat → Nat) (cfg : Cfg) : UBig → UBig → Timed UBig
  | .small w0, .small w1 => pure (.small (f w0 w1))
  | .small w0, .large b1 => do
    let b1 ← Buffer.clone cfg b1
    UBig.bitopLargeWord f cfg b1 w0
  | .large b0, .small w1 => do
    let b0 ← Buffer.clone cfg b0
    UBig.bitopLargeWord f cfg b0 w1
  | .large b0, .large b1 =>
    if b1.len ≤ b0.len then do
      let b0 ← Buffer.clone cfg b0
      UBig.bitopLarge f cfg b0 b1.words
    else do
      let b1 ← Buffer.clone cfg b1
      UBig.bitopLarge f cfg b1 b0.words

/-- The four impls of `BitOr` (/repo/src/bits.rs:382-443) and of `BitXor` (479-540). -/
def UBig.bitop (f : Nat → Nat → Nat) (cfg : Cfg) : Own → Own → UBig → UBig → Timed UBig
  | .val, .val, a, b => UBig.bitopVV f cfg a b
  | .val, .ref, a, b => UBig.bitopVR f cfg a b
  | .ref, .val, a, b => UBig.bitopVR f cfg b a
  | .ref, .ref, a, b => UBig.bitopRR f cfg a b

/-- /repo/src/bits.rs:382-443 `BitOr` -/
def UBig.bitor : Cfg → Own → Own → UBig → UBig → Timed UBig := UBig.bitop (· ||| ·)

/-- /repo/src/bits.rs:479-540 `BitXor` -/
def UBig.bitxor : Cfg → Own → Own → UBig → UBig → Timed UBig := UBig.bitop (· ^^^ ·)

/-- /repo/src/bits.rs:641-646 `and_not_large` -/
def UBig.andNotLarge (cfg : Cfg) (buffer : Buffer) (rhs : List Nat) : Timed UBig := do
  let ws ← zipInPlace (fun x y => x &&& wordNot cfg.W y) buffer.words rhs
  UBig.ofBuffer cfg { buffer with words := ws }

/-- /repo/src/bits.rs:576-602 `AndNot<UBig> for UBig`, `AndNot<&UBig> for UBig` -/
def UBig.andNotV (cfg : Cfg) : UBig → UBig → Timed UBig
  | .small w0, .small w1 => pure (.small (w0 &&& wordNot cfg.W w1))
  | .small w0, .large b1 => do
    let x ← firstR b1.words
    pure (.small (w0 &&& wordNot cfg.W x))
  | .large b0, .small w1 => UBig.bitopLargeWord (fun x y => x &&& wordNot cfg.W y) cfg b0 w1
  | .large b0, .large b1 => UBig.andNotLarge cfg b0 b1.words

/-- /repo/src/bits.rs:604-631 `AndNot<UBig> for &UBig`, `AndNot<&UBig> for &UBig` -/
def UBig.andNotR (cfg : Cfg) : UBig → UBig → Timed UBig
  | .small w0, .small w1 => pure (.small (w0 &&& wordNot cfg.W w1))
  | .small w0, .large b1 => do
    let x ← firstR b1.words
    pure (.small (w0 &&& wordNot cfg.W x))
  | .large b0, .small w1 => do
    let b0 ← Buffer.clone cfg b0
    UBig.bitopLargeWord (fun x y => x &&& wordNot cfg.W y) cfg b0 w1
  | .large b0, .large b1 => do
    let b0 ← Buffer.clone cfg b0
    UBig.andNotLarge cfg b0 b1.words

/-- The four `AndNot` impls (/repo/src/bits.rs:576-631). -/
def UBig.andNot (cfg : Cfg) (o : Own) (_o' : Own) (a b : UBig) : Timed UBig :=
  match o with
  | .val => UBig.andNotV cfg a b
  | .ref => UBig.andNotR cfg a b

/-- /repo/src/bits.rs:649-665 `Not for IBig`, `Not for &IBig` -/
def IBig.not (cfg : Cfg) (o : Own) (x : IBig) : Timed IBig :=
  negR (IBig.add cfg o .val x (.ofUBig (.small 1)))

/-- `(!x).unsigned_abs()` -/
def IBig.notAbs (cfg : Cfg) (o : Own) (x : IBig) : Timed UBig := do
  let y ← IBig.not cfg o x
  IBig.unsignedAbs cfg .val y

/-- `!IBig::from(m)` for a computed `m` -/
def notOfUBig (cfg : Cfg) (m : Timed UBig) : Timed IBig := do
  let m ← m
  IBig.not cfg .val (IBig.ofUBig m)

/-- /repo/src/bits.rs:667-693, 704-716 `BitAnd` for `IBig` (the impls differ only in passing the
magnitudes by value or by reference) -/
def IBig.bitandGen (cfg : Cfg) (ox oy : Own) (x y : IBig) : Timed IBig :=
  match x.sign, y.sign with
  | .pos, .pos => ofUBigR (UBig.bitand cfg ox oy x.mag y.mag)
  | .pos, .neg => do
    let ny ← IBig.notAbs cfg oy y
    ofUBigR (UBig.andNot cfg ox .val x.mag ny)
  | .neg, .pos => do
    let nx ← IBig.notAbs cfg ox x
    ofUBigR (UBig.andNot cfg oy .val y.mag nx)
  | .neg, .neg => do
    let nx ← IBig.notAbs cfg ox x
    let ny ← IBig.notAbs cfg oy y
    notOfUBig cfg (UBig.bitor cfg .val .val nx ny)

/-- The four `BitAnd` impls (/repo/src/bits.rs:667-716; 695-702 swaps the operands). -/
def IBig.bitand (cfg : Cfg) : Own → Own → IBig → IBig → Timed IBig
  | .ref, .val, a, b => IBig.bitandGen cfg .val .ref b a
  | o, o', a, b => IBig.bitandGen cfg o o' a b

/-- /repo/src/bits.rs:732-758, 769-781 `BitOr` for `IBig` -/
def IBig.bitorGen (cfg : Cfg) (ox oy : Own) (x y : IBig) : Timed IBig :=
  match x.sign, y.sign with
  | .pos, .pos => ofUBigR (UBig.bitor cfg ox oy x.mag y.mag)
  | .pos, .neg => do
    let ny ← IBig.notAbs cfg oy y
    notOfUBig cfg (UBig.andNot cfg .val ox ny x.mag)
  | .neg, .pos => do
    let nx ← IBig.notAbs cfg ox x
    notOfUBig cfg (UBig.andNot cfg .val oy nx y.mag)
  | .neg, .neg => do
    let nx ← IBig.notAbs cfg ox x
    let ny ← IBig.notAbs cfg oy y
    notOfUBig cfg (UBig.bitand cfg .val .val nx ny)

/-- The four `BitOr` impls (/repo/src/bits.rs:732-781; 760-767 swaps the operands). -/
def IBig.bitor (cfg : Cfg) : Own → Own → IBig → IBig → Timed IBig
  | .ref, .val, a, b => IBig.bitorGen cfg .val .ref b a
  | o, o', a, b => IBig.bitorGen cfg o o' a b

/-- /repo/src/bits.rs:797-823, 834-846 `BitXor` for `IBig` -/
def IBig.bitxorGen (cfg : Cfg) (ox oy : Own) (x y : IBig) : Timed IBig :=
  match x.sign, y.sign with
  | .pos, .pos => ofUBigR (UBig.bitxor cfg ox oy x.mag y.mag)
  | .pos, .neg => do
    let ny ← IBig.notAbs cfg oy y
    notOfUBig cfg (UBig.bitxor cfg ox .val x.mag ny)
  | .neg, .pos => do
    let nx ← IBig.notAbs cfg ox x
    notOfUBig cfg (UBig.bitxor cfg .val oy nx y.mag)
  | .neg, .neg => do
    let nx ← IBig.notAbs cfg ox x
    let ny ← IBig.notAbs cfg oy y
    ofUBigR (UBig.bitxor cfg .val .val nx ny)

/-- The four `BitXor` impls (/repo/src/bits.rs:797-846; 825-832 swaps the operands). -/
def IBig.bitxor (cfg : Cfg) : Own → Own → IBig → IBig → Timed IBig
  | .ref, .val, a, b => IBig.bitxorGen cfg .val .ref b a
  | o, o', a, b => IBig.bitxorGen cfg o o' a b

/-- The four `AndNot` impls (/repo/src/bits.rs:862-924). -/
def IBig.andNot (cfg : Cfg) (ox oy : Own) (x y : IBig) : Timed IBig :=
  match x.sign, y.sign with
  | .pos, .pos => ofUBigR (UBig.andNot cfg ox oy x.mag y.mag)
  | .pos, .neg => do
    let ny ← IBig.notAbs cfg oy y
    ofUBigR (UBig.bitand cfg ox .val x.mag ny)
  | .neg, .pos => do
    let nx ← IBig.notAbs cfg ox x
    notOfUBig cfg (UBig.bitor cfg .val oy nx y.mag)
  | .neg, .neg => do
    let ny ← IBig.notAbs cfg oy y
    let nx ← IBig.notAbs cfg ox x
    ofUBigR (UBig.andNot cfg .val .val ny nx)

end Ibig.Timed
