import Verif.Model.Radix
import Verif.Model.Pow
import Verif.Model.Gcd
import Verif.Model.Bytes
import Verif.Model.Bits
import Verif.Model.Parse
/-! Model of formatting (/repo/src/fmt/, /repo/src/arch/generic/digits.rs).

Text is a list of character codes.  Here the `fmt::Write` sink never fails (as for `String`), so the `?` after each
write has no effect; Model/FmtSink.lean models the same functions with sinks that fail. -/
namespace Ibig

/-! ### Raw digits to ASCII -/

/-- /repo/src/arch/generic/digits.rs:14 `ALL_ONES` -/
def allOnes (W : Nat) : Nat := (2 ^ W - 1) / 255

/-- /repo/src/arch/generic/digits.rs:17-25 add the letter offset to the digits `≥ 10`, in parallel -/
def addLetters (W : Nat) (digitCase : DigitCase) (word : Nat) : R Nat :=
  if digitCase ≠ .noLetters then do
    let a ← ckMul W 0x76 (allOnes W)
    let b ← ckAdd W a word
    let letters := (b / 2 ^ 7) &&& allOnes W
    let c ← ckMul W letters digitCase.offset
    ckAdd W word c
  else .ok word

/-- /repo/src/arch/generic/digits.rs:10-31 `digit_chunk_raw_to_ascii`. `be` is the endianness of the target
(`from_ne_bytes`, `to_ne_bytes`). -/
def digitChunkToAscii (W : Nat) (be : Bool) (digits : List Nat) (digitCase : DigitCase) : R (List Nat) := do
  let word := leBytesVal (if be then digits.reverse else digits)
  let word ← addLetters W digitCase word
  let x ← ckMul W (allOnes W) 48
  let word ← ckAdd W word x
  let bytes := toLeBytesN (W / 8) word
  .ok (if be then bytes.reverse else bytes)

/-- The loop of /repo/src/fmt/digit_writer.rs:52-56 (`chunks_exact_mut`): all full chunks of `n` bytes are
converted. The second number bounds the number of chunks. -/
def chunksToAscii (W : Nat) (be : Bool) (digitCase : DigitCase) : Nat → List Nat → R (List Nat)
  | 0, l => .ok l
  | k + 1, l =>
    if l.length < W / 8 then .ok l
    else do
      let c ← digitChunkToAscii W be (l.take (W / 8)) digitCase
      let rest ← chunksToAscii W be digitCase k (l.drop (W / 8))
      .ok (c ++ rest)

/-- /repo/src/fmt/digit_writer.rs:7-9 `BUFFER_LEN` (with `DIGIT_CHUNK_LEN = WORD_BYTES`) -/
def digitBufferLen (W : Nat) : Nat := roundUp 32 (W / 8)

/-- /repo/src/fmt/digit_writer.rs:12-17 `DigitWriter`: the used part of the buffer, and what has been written to
the sink. -/
structure DigitWriter where
  buffer : List Nat
  digitCase : DigitCase
  be : Bool
  out : List Nat
deriving Repr, DecidableEq

/-- `str::from_utf8_unchecked`: undefined behaviour unless the bytes are UTF-8.  Here the stronger condition that
they are ASCII; undefined behaviour is represented by the failure of an assertion. -/
def fromUtf8Unchecked (bytes : List Nat) : R (List Nat) := do
  assertR (∀ b ∈ bytes, b < 128)
  .ok bytes

/-- /repo/src/fmt/digit_writer.rs:45-62 `flush` -/
def DigitWriter.flush (W : Nat) (self : DigitWriter) : R DigitWriter := do
  let rounded := roundUp self.buffer.length (W / 8)
  assertR (rounded ≤ digitBufferLen W)
  let padded := self.buffer ++ List.replicate (rounded - self.buffer.length) 0
  let ascii ← chunksToAscii W self.be self.digitCase padded.length padded
  let s ← fromUtf8Unchecked (ascii.take self.buffer.length)
  .ok { self with buffer := [], out := self.out ++ s }

/-- /repo/src/fmt/digit_writer.rs:38-40 flush a full buffer -/
def DigitWriter.flushIfFull (W : Nat) (self : DigitWriter) : R DigitWriter :=
  if self.buffer.length = digitBufferLen W then self.flush W else .ok self

/-- /repo/src/fmt/digit_writer.rs:30-43 `write`. The first number bounds the rounds of the loop. -/
def DigitWriter.writeLoop (W : Nat) : Nat → DigitWriter → List Nat → R DigitWriter
  | 0, self, buf => if buf = [] then .ok self else .error .fuel
  | fuel + 1, self, buf =>
    if buf = [] then .ok self
    else do
      let room ← ckSub (digitBufferLen W) self.buffer.length
      let len := min buf.length room
      let (chunk, rest) ← splitR buf len
      let self ← DigitWriter.flushIfFull W { self with buffer := self.buffer ++ chunk }
      DigitWriter.writeLoop W fuel self rest

/-- /repo/src/fmt/digit_writer.rs:30-43 `write` -/
def DigitWriter.write (W : Nat) (self : DigitWriter) (buf : List Nat) : R DigitWriter :=
  DigitWriter.writeLoop W buf.length self buf

/-! ### Power-of-two radix -/

/-- loop of /repo/src/fmt/power_two.rs:60-63: the digits from index `idx` (inclusive) down to 0, i.e.
`digits[width-1-idx ..]` -/
def pow2WordDigits (W word log mask : Nat) : Nat → R (List Nat)
  | 0 => .ok []
  | idx + 1 => do
    let s ← ckMul 32 idx log
    let x ← shrW W word s
    let rest ← pow2WordDigits W word log mask idx
    .ok ((x &&& mask) % 256 :: rest)

/-- /repo/src/fmt/power_two.rs:57-65 `PreparedWord::write` (the array `digits` has `WORD_BITS` entries) -/
def pow2WordWrite (W word log width : Nat) (dw : DigitWriter) : R DigitWriter := do
  let mask ← ones W log
  assertR (width ≤ W)
  let digits ← pow2WordDigits W word log mask width
  dw.write W digits

/-- One round of the loop of /repo/src/fmt/power_two.rs:109-129: the digit and the new state, or `none` at the
end. `rest` are the words still to come (most significant first). -/
def pow2LargeStep (W log mask : Nat) (word bits : Nat) (rest : List Nat) :
    R (Option (Nat × Nat × Nat × List Nat)) :=
  if bits < log then
    match rest with
    | w :: rest => do
      let extra ← ckSub log bits
      let bits ← ckSub W extra
      let x ← shlW W word extra
      let y ← shrW W w bits
      .ok (some (((x ||| y) &&& mask) % 256, w, bits, rest))
    | [] => do
      assertR (bits = 0)
      .ok none
  else do
    let bits ← ckSub bits log
    let y ← shrW W word bits
    .ok (some ((y &&& mask) % 256, word, bits, rest))

/-- loop of /repo/src/fmt/power_two.rs:109-129 and the final assertion. The first number bounds the number of
digits. -/
def pow2LargeLoop' (W log mask : Nat) : Nat → Nat → Nat → List Nat → DigitWriter → R DigitWriter
  | 0, _, _, _, _ => .error .fuel
  | fuel + 1, word, bits, rest, dw => do
    let s ← pow2LargeStep W log mask word bits rest
    match s with
    | none => .ok dw
    | some (digit, word, bits, rest) => do
      let dw ← dw.write W [digit]
      pow2LargeLoop' W log mask fuel word bits rest dw

/-- /repo/src/fmt/power_two.rs:101-131 `PreparedLarge::write` -/
def pow2LargeWrite (cfg : Cfg) (words : List Nat) (log width : Nat) (dw : DigitWriter) : R DigitWriter := do
  let mask ← ones cfg.W log
  match words.reverse with
  | [] => .error .unwrap
  | word :: rest => do
    let a ← ckMul cfg.U width log
    let n ← ckSub words.length 1
    let b ← ckMul cfg.U n cfg.W
    let c ← ckSub a b
    pow2LargeLoop' cfg.W log mask (width + 1) word (c % 2 ^ 32) rest dw

/-- /repo/src/fmt/power_two.rs:38-49 `PreparedWord::new`: `width` -/
def pow2WordWidth (word log : Nat) : Nat := max (ceilDiv (bitLen word) log) 1

/-- /repo/src/fmt/power_two.rs:75-93 `PreparedLarge::new`: `width` -/
def pow2LargeWidth (cfg : Cfg) (words : List Nat) (log : Nat) : R Nat := do
  let a ← ckMul cfg.U words.length cfg.W
  let top ← lastR words
  let b ← ckSub a (leadingZeros cfg.W top)
  .ok (max (ceilDiv b log) 1)

/-! ### Other radixes -/

/-- /repo/src/fmt/non_power_two.rs:19 `CHUNK_LEN` -/
def fmtChunkLen : Nat := 16

/-- loop of /repo/src/fmt/non_power_two.rs:63-68; `digits` is `digits[start_index..]`. The first number bounds
the rounds. -/
def npDigitsLoop (W : Nat) (fd : FastDivideSmall) (maxStart : Nat) : Nat → Nat → Nat → List Nat →
    R (List Nat)
  | 0, _, _, _ => .error .fuel
  | fuel + 1, word, start, digits =>
    if maxStart < start ∨ word ≠ 0 then do
      let (q, d) ← fd.divRem W word
      let start ← ckSub start 1
      npDigitsLoop W fd maxStart fuel q start (d % 256 :: digits)
    else .ok digits

/-- /repo/src/fmt/non_power_two.rs:53-71 `PreparedWord::new`: the used digits -/
def npWordNew (W word radix minDigits : Nat) : R (List Nat) := do
  assertR (isRadixValid radix = true ∧ ¬isRadixPow2 radix = true)
  let info ← radixInfo W radix
  let maxDigits ← maxWordDigits W
  let maxStart ← ckSub maxDigits minDigits
  npDigitsLoop W info.fastDivRadix maxStart (maxDigits + 1) word maxDigits []

/-- /repo/src/fmt/non_power_two.rs:277-283 `ubig_to_chunk_buffer` -/
def chunkBuffer (x : UBig) : R (List Nat) := do
  assertR (x.asWords.length ≤ fmtChunkLen)
  .ok x.asWords

/-- /repo/src/fmt/non_power_two.rs:114-116, 241-243: words without the leading (trailing in the list) zeros -/
def popZeros (l : List Nat) : List Nat := (l.reverse.dropWhile (fun w => w == 0)).reverse

/-- loop of /repo/src/fmt/non_power_two.rs:105-117. `groups` are the groups so far, last one first. The first
number bounds the rounds. In the inner loop, `buffer_len` reaching 0 would be an overflow. -/
def npMediumLoop (W : Nat) (info : RadixInfo) : Nat → List Nat → List Nat → R (List Nat × List Nat)
  | 0, _, _ => .error .fuel
  | fuel + 1, buffer, groups =>
    if 1 < buffer.length then do
      let (q, rem) ← fastDivByWord W buffer info.rangePerWord info.fastDivRange
      if groups.length < fmtChunkLen then
        if popZeros q = [] then .error .overflow
        else npMediumLoop W info fuel (popZeros q) (rem :: groups)
      else .error .index
    else .ok (buffer, groups)

/-- /repo/src/fmt/non_power_two.rs:86-92 `PreparedMedium`: digits of the top group, and the low groups, most
significant first (`low_groups` in reverse order) -/
structure PreparedMedium where
  top : List Nat
  low : List Nat
deriving Repr, DecidableEq

/-- /repo/src/fmt/non_power_two.rs:96-125 `PreparedMedium::new` -/
def npMediumNew (W : Nat) (number : UBig) (radix : Nat) : R PreparedMedium := do
  assertR (isRadixValid radix = true ∧ ¬isRadixPow2 radix = true)
  let info ← radixInfo W radix
  let buffer ← chunkBuffer number
  let (buffer, groups) ← npMediumLoop W info (fmtChunkLen + 2) buffer []
  match buffer with
  | [w] => do
    let top ← npWordNew W w radix 1
    .ok ⟨top, groups⟩
  | _ => .error .assertFailed

/-- /repo/src/fmt/non_power_two.rs:129-132 `PreparedMedium::width` -/
def npMediumWidth (cfg : Cfg) (p : PreparedMedium) (radix : Nat) : R Nat := do
  let info ← radixInfo cfg.W radix
  let x ← ckMul cfg.U p.low.length info.digitsPerWord
  ckAdd cfg.U p.top.length x

/-- Writing groups of `digits_per_word` digits (/repo/src/fmt/non_power_two.rs:139-143, 247-250) -/
def npWriteGroups (W radix digitsPerWord : Nat) : List Nat → DigitWriter → R DigitWriter
  | [], dw => .ok dw
  | g :: gs, dw => do
    let digits ← npWordNew W g radix digitsPerWord
    let dw ← dw.write W digits
    npWriteGroups W radix digitsPerWord gs dw

/-- /repo/src/fmt/non_power_two.rs:134-145 `PreparedMedium::write` -/
def npMediumWrite (W : Nat) (p : PreparedMedium) (radix : Nat) (dw : DigitWriter) : R DigitWriter := do
  let info ← radixInfo W radix
  let dw ← dw.write W p.top
  npWriteGroups W radix info.digitsPerWord p.low dw

/-- /repo/src/fmt/non_power_two.rs:149-157 `PreparedLarge`: `big_chunks` last one first -/
structure PreparedLarge where
  top : PreparedMedium
  powers : List UBig
  chunks : List (Nat × UBig)
deriving Repr, DecidableEq

/-- loop of /repo/src/fmt/non_power_two.rs:178-192. The first number bounds the rounds, and so
the depth of the recursion in `write_big_chunk`. -/
def fmtPowersLoop (cfg : Cfg) (number : UBig) : Nat → List UBig → R (List UBig)
  | 0, _ => .error .fuel
  | fuel + 1, powers =>
    match powers.getLast? with
    | none => .error .unwrap
    | some prev => do
      let a ← ckMul cfg.U 2 prev.len
      let b ← ckSub a 1
      if number.len < b then .ok powers
      else do
        let new ← UBig.mul cfg .ref .ref prev prev
        let gt ← UBig.lt number new
        if gt then .ok powers else fmtPowersLoop cfg number fuel (powers ++ [new])

/-- loop of /repo/src/fmt/non_power_two.rs:201-207, over the remaining powers in decreasing order; `i` is the
number of powers left. `chunks` last one first. -/
def fmtChunksLoop (cfg : Cfg) : List UBig → UBig → List (Nat × UBig) → R (UBig × List (Nat × UBig))
  | [], x, chunks => .ok (x, chunks)
  | p :: ps, x, chunks => do
    let ge ← UBig.le p x
    if ge then do
      let (q, r) ← UBig.divRem cfg .val .ref x p
      fmtChunksLoop cfg ps q ((ps.length, r) :: chunks)
    else fmtChunksLoop cfg ps x chunks

/-- /repo/src/fmt/non_power_two.rs:177-214 `PreparedLarge::new` when the number is at least the first power -/
def npLargeNewBig (cfg : Cfg) (number : UBig) (radix : Nat) (chunkPower : UBig) : R PreparedLarge := do
  let powers ← fmtPowersLoop cfg number (bitLen (number.len * cfg.W)) [chunkPower]
  match powers.reverse with
  | [] => .error .unwrap
  | p :: ps => do
    let (q, r) ← UBig.divRem cfg .ref .ref number p
    let (x, chunks) ← fmtChunksLoop cfg ps q [(ps.length, r)]
    let top ← npMediumNew cfg.W x radix
    .ok ⟨top, powers, chunks⟩

/-- /repo/src/fmt/non_power_two.rs:161-215 `PreparedLarge::new` -/
def npLargeNew (cfg : Cfg) (number : UBig) (radix : Nat) : R PreparedLarge := do
  assertR (isRadixValid radix = true ∧ ¬isRadixPow2 radix = true)
  let info ← radixInfo cfg.W radix
  let chunkPower ← (UBig.small info.rangePerWord).pow cfg fmtChunkLen
  let gt ← UBig.lt number chunkPower
  if gt then do
    let top ← npMediumNew cfg.W number radix
    .ok ⟨top, [], []⟩
  else npLargeNewBig cfg number radix chunkPower

/-- loop of /repo/src/fmt/non_power_two.rs:235-244: the groups, last one first -/
def npChunkGroups (W : Nat) (info : RadixInfo) : Nat → List Nat → List Nat → R (List Nat × List Nat)
  | 0, buffer, groups => .ok (buffer, groups)
  | n + 1, buffer, groups => do
    let (q, rem) ← fastDivByWord W buffer info.rangePerWord info.fastDivRange
    npChunkGroups W info n (popZeros q) (rem :: groups)

/-- /repo/src/fmt/non_power_two.rs:229-253 `write_chunk` -/
def npWriteChunk (W radix : Nat) (dw : DigitWriter) (x : UBig) : R DigitWriter := do
  let info ← radixInfo W radix
  let buffer ← chunkBuffer x
  let (buffer, groups) ← npChunkGroups W info fmtChunkLen buffer []
  assertR (buffer = [])
  npWriteGroups W radix info.digitsPerWord groups dw

/-- /repo/src/fmt/non_power_two.rs:218-226 `write_big_chunk` -/
def npWriteBigChunk (cfg : Cfg) (radix : Nat) (powers : List UBig) : Nat → DigitWriter → UBig →
    R DigitWriter
  | 0, dw, x => npWriteChunk cfg.W radix dw x
  | i + 1, dw, x =>
    match powers[i]? with
    | none => .error .index
    | some p => do
      let (q, r) ← UBig.divRem cfg .val .ref x p
      let dw ← npWriteBigChunk cfg radix powers i dw q
      npWriteBigChunk cfg radix powers i dw r

/-- loop of /repo/src/fmt/non_power_two.rs:270-272 -/
def npWriteChunks (cfg : Cfg) (radix : Nat) (powers : List UBig) : List (Nat × UBig) → DigitWriter →
    R DigitWriter
  | [], dw => .ok dw
  | (i, x) :: cs, dw => do
    let dw ← npWriteBigChunk cfg radix powers i dw x
    npWriteChunks cfg radix powers cs dw

/-- /repo/src/fmt/non_power_two.rs:266-274 `PreparedLarge::write` -/
def npLargeWrite (cfg : Cfg) (p : PreparedLarge) (radix : Nat) (dw : DigitWriter) : R DigitWriter := do
  let dw ← npMediumWrite cfg.W p.top radix dw
  npWriteChunks cfg radix p.powers p.chunks dw

/-- loop of /repo/src/fmt/non_power_two.rs:260-262 -/
def npChunksWidth (cfg : Cfg) (digitsPerWord : Nat) : List (Nat × UBig) → Nat → R Nat
  | [], n => .ok n
  | (i, _) :: cs, n => do
    let n ← npChunksWidth cfg digitsPerWord cs n
    let x ← ckMul cfg.U digitsPerWord fmtChunkLen
    let y ← shlW cfg.U x i
    ckAdd cfg.U n y

/-- /repo/src/fmt/non_power_two.rs:257-264 `PreparedLarge::width` -/
def npLargeWidth (cfg : Cfg) (p : PreparedLarge) (radix : Nat) : R Nat := do
  let n ← npMediumWidth cfg p.top radix
  let info ← radixInfo cfg.W radix
  npChunksWidth cfg info.digitsPerWord p.chunks n

/-! ### `format_prepared` -/

/-- `core::fmt::Alignment` -/
inductive Align where
  | left
  | right
  | center
deriving DecidableEq, Repr

/-- The flags of a `core::fmt::Formatter` -/
structure FmtFlags where
  width : Option Nat
  fill : Nat
  align : Option Align
  plus : Bool
  alternate : Bool
  zero : Bool
deriving DecidableEq, Repr

/-- /repo/src/fmt/mod.rs:340-348 `trait PreparedForFormatting`: `width` and `write` -/
structure Prepared where
  width : R Nat
  write : DigitWriter → R DigitWriter

/-- /repo/src/fmt/mod.rs:282-289 the sign string -/
def signStr (sign : Sign) (f : FmtFlags) : List Nat :=
  if sign = .neg then [45] else if f.plus then [43] else []

/-- /repo/src/fmt/mod.rs:292-296 `write_digits`: what is written to the sink -/
def writeDigits (W : Nat) (be : Bool) (digitCase : DigitCase) (p : Prepared) : R (List Nat) := do
  let dw ← p.write ⟨[], digitCase, be, []⟩
  let dw ← dw.flush W
  .ok dw.out

/-- /repo/src/fmt/mod.rs:318-322 fill on the left -/
def leftFill (f : FmtFlags) (pad : Nat) : Nat :=
  match f.align with
  | some .left => 0
  | some .right | none => pad
  | some .center => pad / 2

/-- /repo/src/fmt/mod.rs:273-337 `format_prepared` -/
def formatPrepared (cfg : Cfg) (be : Bool) (sign : Sign) (pre : List Nat) (digitCase : DigitCase)
    (f : FmtFlags) (p : Prepared) : R (List Nat) := do
  let w ← p.width
  let sg := signStr sign f
  let width ← ckAdd cfg.U w (sg.length + pre.length)
  let digits ← writeDigits cfg.W be digitCase p
  match f.width with
  | none => .ok (sg ++ pre ++ digits)
  | some minWidth =>
    if minWidth ≤ width then .ok (sg ++ pre ++ digits)
    else if f.zero then .ok (sg ++ pre ++ List.replicate (minWidth - width) 48 ++ digits)
    else
      let pad := minWidth - width
      let left := leftFill f pad
      .ok (List.replicate left f.fill ++ sg ++ pre ++ digits ++ List.replicate (pad - left) f.fill)

/-- /repo/src/fmt/power_two.rs:15-27 `fmt_power_two` -/
def fmtPow2 (cfg : Cfg) (be : Bool) (sign : Sign) (mag : UBig) (radix : Nat) (pre : List Nat)
    (digitCase : DigitCase) (f : FmtFlags) : R (List Nat) := do
  assertR (isRadixValid radix = true ∧ isRadixPow2 radix = true)
  match mag with
  | .small word =>
    formatPrepared cfg be sign pre digitCase f
      ⟨.ok (pow2WordWidth word (logRadix radix)),
       pow2WordWrite cfg.W word (logRadix radix) (pow2WordWidth word (logRadix radix))⟩
  | .large b => do
    let width ← pow2LargeWidth cfg b.words (logRadix radix)
    formatPrepared cfg be sign pre digitCase f ⟨.ok width, pow2LargeWrite cfg b.words (logRadix radix) width⟩

/-- /repo/src/fmt/non_power_two.rs:22-41 `fmt_non_power_two` -/
def fmtNonPow2 (cfg : Cfg) (be : Bool) (sign : Sign) (mag : UBig) (radix : Nat) (pre : List Nat)
    (digitCase : DigitCase) (f : FmtFlags) : R (List Nat) := do
  assertR (isRadixValid radix = true ∧ ¬isRadixPow2 radix = true)
  match mag with
  | .small word => do
    let digits ← npWordNew cfg.W word radix 1
    formatPrepared cfg be sign pre digitCase f ⟨.ok digits.length, fun dw => dw.write cfg.W digits⟩
  | .large b => do
    let info ← radixInfo cfg.W radix
    let maxDigits ← ckMul cfg.U b.len (info.digitsPerWord + 1)
    if maxDigits ≤ fmtChunkLen * info.digitsPerWord then do
      let p ← npMediumNew cfg.W mag radix
      formatPrepared cfg be sign pre digitCase f ⟨npMediumWidth cfg p radix, npMediumWrite cfg.W p radix⟩
    else do
      let p ← npLargeNew cfg mag radix
      formatPrepared cfg be sign pre digitCase f ⟨npLargeWidth cfg p radix, npLargeWrite cfg p radix⟩

/-- /repo/src/fmt/mod.rs:264-270 `InRadixFull::fmt` -/
def fmtFull (cfg : Cfg) (be : Bool) (sign : Sign) (mag : UBig) (radix : Nat) (pre : List Nat)
    (digitCase : DigitCase) (f : FmtFlags) : R (List Nat) :=
  if isRadixPow2 radix then fmtPow2 cfg be sign mag radix pre digitCase f
  else fmtNonPow2 cfg be sign mag radix pre digitCase f

/-- /repo/src/fmt/mod.rs:241-260 `Display for InRadix` -/
def InRadix.fmt (cfg : Cfg) (be : Bool) (sign : Sign) (mag : UBig) (radix : Nat) (f : FmtFlags) :
    R (List Nat) :=
  let digitCase := if radix ≤ 10 then .noLetters else if f.alternate then .upper else .lower
  fmtFull cfg be sign mag radix [] digitCase f

/-- The formatting traits with a fixed radix: `Display`/`Debug`, `Binary`, `Octal`, `LowerHex`, `UpperHex`. -/
inductive FmtTrait where
  | display
  | binary
  | octal
  | lowerHex
  | upperHex
deriving DecidableEq, Repr

/-- The radix of each trait, /repo/src/fmt/mod.rs:18-158 -/
def FmtTrait.radix : FmtTrait → Nat
  | .display => 10
  | .binary => 2
  | .octal => 8
  | .lowerHex => 16
  | .upperHex => 16

/-- The prefix of each trait with the `#` flag, /repo/src/fmt/mod.rs:18-158 -/
def FmtTrait.pre : FmtTrait → List Nat
  | .display => []
  | .binary => [48, 98]
  | .octal => [48, 111]
  | .lowerHex => [48, 120]
  | .upperHex => [48, 120]

/-- The digit case of each trait, /repo/src/fmt/mod.rs:18-158 -/
def FmtTrait.digitCase : FmtTrait → DigitCase
  | .lowerHex => .lower
  | .upperHex => .upper
  | _ => .noLetters

/-- /repo/src/fmt/mod.rs:88-158 `Display`, `Debug`, `Binary`, `Octal`, `LowerHex`, `UpperHex for IBig` -/
def IBig.fmt (cfg : Cfg) (be : Bool) (t : FmtTrait) (x : IBig) (f : FmtFlags) : R (List Nat) :=
  fmtFull cfg be x.sign x.mag t.radix (if f.alternate then t.pre else []) t.digitCase f

/-- /repo/src/fmt/mod.rs:18-86 the same for `UBig` -/
def UBig.fmt (cfg : Cfg) (be : Bool) (t : FmtTrait) (x : UBig) (f : FmtFlags) : R (List Nat) :=
  fmtFull cfg be .pos x t.radix (if f.alternate then t.pre else []) t.digitCase f

/-- /repo/src/fmt/mod.rs:173-181, 241-260 `UBig::in_radix`, formatted -/
def UBig.inRadixFmt (cfg : Cfg) (be : Bool) (x : UBig) (radix : Nat) (f : FmtFlags) : R (List Nat) := do
  checkRadixValid radix
  InRadix.fmt cfg be .pos x radix f

/-- /repo/src/fmt/mod.rs:197-205, 241-260 `IBig::in_radix`, formatted -/
def IBig.inRadixFmt (cfg : Cfg) (be : Bool) (x : IBig) (radix : Nat) (f : FmtFlags) : R (List Nat) := do
  checkRadixValid radix
  InRadix.fmt cfg be x.sign x.mag radix f

/-- The flags of `{}` -/
def FmtFlags.default : FmtFlags := ⟨none, 32, none, false, false, false⟩

end Ibig
