import Verif.Model.ParseTime
import Verif.Model.DivOpsTime
import Verif.Model.Fmt
/-!
Formatting with the number of its steps: the text of Model/Fmt.lean with counting functions.  Every byte that is copied
into the buffer, written to the sink or used as fill is a step of its own.  `digit_chunk_raw_to_ascii` converts one word
of digits and `FastDivideSmall::div_rem` divides one word: both take constant time.
-/
namespace Ibig.Timed

/-- /repo/src/cmp.rs:11-24 `Ord for UBig` -/
def UBig.cmp : UBig → UBig → Timed Ordering
  | .small a, .small b => pass 1 (.ok (compare a b))
  | .small _, .large _ => pass 1 (.ok .lt)
  | .large _, .small _ => pass 1 (.ok .gt)
  | .large a, .large b =>
    match compare a.len b.len with
    | .eq => cmpSameLen a.words b.words
    | o => pass 1 (.ok o)

/-- `a < b` -/
def UBig.lt (a b : UBig) : Timed Bool := do
  let o ← UBig.cmp a b
  pure (o == .lt)

/-- `a <= b` -/
def UBig.le (a b : UBig) : Timed Bool := do
  let o ← UBig.cmp a b
  pure (o != .gt)

/-- /repo/src/math.rs:68-78 `ones` -/
def ones (bits n : Nat) : Timed Nat := pass 1 (Ibig.ones bits n)
/-- the last word of a slice -/
def lastR (l : List Nat) : Timed Nat := pass 1 (Ibig.lastR l)

/-! ### Raw digits to ASCII -/

/-- /repo/src/arch/generic/digits.rs:10-31 `digit_chunk_raw_to_ascii`, which works on one word -/
def digitChunkToAscii (W : Nat) (be : Bool) (digits : List Nat) (digitCase : DigitCase) : Timed (List Nat) :=
  pass 1 (Ibig.digitChunkToAscii W be digits digitCase)

/-- The loop of /repo/src/fmt/digit_writer.rs:52-56 -/
def chunksToAscii (W : Nat) (be : Bool) (digitCase : DigitCase) : Nat → List Nat → Timed (List Nat)
  | 0, l => pure l
  | k + 1, l =>
    if l.length < W / 8 then pure l
    else do
      let c ← digitChunkToAscii W be (l.take (W / 8)) digitCase
      let rest ← chunksToAscii W be digitCase k (l.drop (W / 8))
      pure (c ++ rest)

/-- /repo/src/fmt/digit_writer.rs:57-60: the bytes are written to the sink -/
def fromUtf8Unchecked (bytes : List Nat) : Timed (List Nat) :=
  pass (bytes.length + 1) (Ibig.fromUtf8Unchecked bytes)

/-- /repo/src/fmt/digit_writer.rs:45-62 `flush` -/
def DigitWriter.flush (W : Nat) (self : DigitWriter) : Timed DigitWriter := do
  let rounded := roundUp self.buffer.length (W / 8)
  assertR (rounded ≤ digitBufferLen W)
  let padded ← pass (rounded - self.buffer.length)
    (.ok (self.buffer ++ List.replicate (rounded - self.buffer.length) 0))
  let ascii ← chunksToAscii W self.be self.digitCase padded.length padded
  let s ← fromUtf8Unchecked (ascii.take self.buffer.length)
  pure { self with buffer := [], out := self.out ++ s }

/-- /repo/src/fmt/digit_writer.rs:38-40 flush a full buffer -/
def DigitWriter.flushIfFull (W : Nat) (self : DigitWriter) : Timed DigitWriter :=
  if self.buffer.length = digitBufferLen W then DigitWriter.flush W self else pure self

/-- /repo/src/fmt/digit_writer.rs:30-43 the loop of `write` -/
def DigitWriter.writeLoop (W : Nat) : Nat → DigitWriter → List Nat → Timed DigitWriter
  | 0, self, buf => if buf = [] then pure self else throwT .fuel
  | fuel + 1, self, buf =>
    if buf = [] then pure self
    else do
      let room ← ckSub (digitBufferLen W) self.buffer.length
      let len := min buf.length room
      let (chunk, rest) ← splitR buf len
      let buffer ← pass chunk.length (.ok (self.buffer ++ chunk))
      let self ← DigitWriter.flushIfFull W { self with buffer := buffer }
      DigitWriter.writeLoop W fuel self rest

/-- /repo/src/fmt/digit_writer.rs:30-43 `write` -/
def DigitWriter.write (W : Nat) (self : DigitWriter) (buf : List Nat) : Timed DigitWriter :=
  DigitWriter.writeLoop W buf.length self buf

/-! ### Power-of-two radix -/

/-- loop of /repo/src/fmt/power_two.rs:60-63 -/
def pow2WordDigits (W word log mask : Nat) : Nat → Timed (List Nat)
  | 0 => pure []
  | idx + 1 => do
    let s ← ckMul 32 idx log
    let x ← shrW W word s
    let rest ← pow2WordDigits W word log mask idx
    pure ((x &&& mask) % 256 :: rest)

/-- /repo/src/fmt/power_two.rs:57-65 `PreparedWord::write` -/
def pow2WordWrite (W word log width : Nat) (dw : DigitWriter) : Timed DigitWriter := do
  let mask ← ones W log
  assertR (width ≤ W)
  let digits ← pow2WordDigits W word log mask width
  DigitWriter.write W dw digits

/-- One round of the loop of /repo/src/fmt/power_two.rs:109-129 -/
def pow2LargeStep (W log mask : Nat) (word bits : Nat) (rest : List Nat) :
    Timed (Option (Nat × Nat × Nat × List Nat)) :=
  if bits < log then
    match rest with
    | w :: rest => do
      let extra ← ckSub log bits
      let bits ← ckSub W extra
      let x ← shlW W word extra
      let y ← shrW W w bits
      pure (some (((x ||| y) &&& mask) % 256, w, bits, rest))
    | [] => do
      assertR (bits = 0)
      pure none
  else do
    let bits ← ckSub bits log
    let y ← shrW W word bits
    pure (some ((y &&& mask) % 256, word, bits, rest))

/-- loop of /repo/src/fmt/power_two.rs:109-129 and the final assertion -/
def pow2LargeLoop' (W log mask : Nat) : Nat → Nat → Nat → List Nat → DigitWriter → Timed DigitWriter
  | 0, _, _, _, _ => throwT .fuel
  | fuel + 1, word, bits, rest, dw => do
    let s ← pow2LargeStep W log mask word bits rest
    match s with
    | none => pure dw
    | some (digit, word, bits, rest) => do
      let dw ← DigitWriter.write W dw [digit]
      pow2LargeLoop' W log mask fuel word bits rest dw

/-- /repo/src/fmt/power_two.rs:101-131 `PreparedLarge::write` -/
def pow2LargeWrite (cfg : Cfg) (words : List Nat) (log width : Nat) (dw : DigitWriter) : Timed DigitWriter := do
  let mask ← ones cfg.W log
  match words.reverse with
  | [] => throwT .unwrap
  | word :: rest => do
    let a ← ckMul cfg.U width log
    let n ← ckSub words.length 1
    let b ← ckMul cfg.U n cfg.W
    let c ← ckSub a b
    pow2LargeLoop' cfg.W log mask (width + 1) word (c % 2 ^ 32) rest dw

/-- /repo/src/fmt/power_two.rs:75-93 `PreparedLarge::new`: `width` -/
def pow2LargeWidth (cfg : Cfg) (words : List Nat) (log : Nat) : Timed Nat := do
  let a ← ckMul cfg.U words.length cfg.W
  let top ← lastR words
  let b ← ckSub a (leadingZeros cfg.W top)
  pure (max (ceilDiv b log) 1)

/-! ### Other radixes -/

/-- /repo/src/fast_divide.rs:61-82 `FastDivideSmall::div_rem` -/
def smallDivRem (W : Nat) (fd : FastDivideSmall) (a : Nat) : Timed (Nat × Nat) := pass 1 (fd.divRem W a)
/-- /repo/src/radix.rs:57 `MAX_WORD_DIGITS_NON_POW_2`, a constant -/
def maxWordDigits (W : Nat) : Timed Nat := pass 1 (Ibig.maxWordDigits W)

/-- loop of /repo/src/fmt/non_power_two.rs:63-68 -/
def npDigitsLoop (W : Nat) (fd : FastDivideSmall) (maxStart : Nat) : Nat → Nat → Nat → List Nat →
    Timed (List Nat)
  | 0, _, _, _ => throwT .fuel
  | fuel + 1, word, start, digits =>
    if maxStart < start ∨ word ≠ 0 then do
      let (q, d) ← smallDivRem W fd word
      let start ← ckSub start 1
      npDigitsLoop W fd maxStart fuel q start (d % 256 :: digits)
    else pure digits

/-- /repo/src/fmt/non_power_two.rs:53-71 `PreparedWord::new` -/
def npWordNew (W word radix minDigits : Nat) : Timed (List Nat) := do
  assertR (isRadixValid radix = true ∧ ¬isRadixPow2 radix = true)
  let info ← radixInfo W radix
  let maxDigits ← maxWordDigits W
  let maxStart ← ckSub maxDigits minDigits
  npDigitsLoop W info.fastDivRadix maxStart (maxDigits + 1) word maxDigits []

/-- /repo/src/fmt/non_power_two.rs:277-283 `ubig_to_chunk_buffer` -/
def chunkBuffer (x : UBig) : Timed (List Nat) :=
  pass (fmtChunkLen + x.asWords.length + 1) (Ibig.chunkBuffer x)

/-- the loop that looks for the new length of the buffer; at most all words are looked at -/
def popZeros (l : List Nat) : Timed (List Nat) := pass (l.length + 1) (.ok (Ibig.popZeros l))

/-- loop of /repo/src/fmt/non_power_two.rs:105-117 -/
def npMediumLoop (W : Nat) (info : RadixInfo) : Nat → List Nat → List Nat → Timed (List Nat × List Nat)
  | 0, _, _ => throwT .fuel
  | fuel + 1, buffer, groups =>
    if 1 < buffer.length then do
      let (q, rem) ← fastDivByWord W buffer info.rangePerWord info.fastDivRange
      if groups.length < fmtChunkLen then do
        let q ← popZeros q
        if q = [] then throwT .overflow
        else npMediumLoop W info fuel q (rem :: groups)
      else throwT .index
    else pure (buffer, groups)

/-- /repo/src/fmt/non_power_two.rs:96-125 `PreparedMedium::new` -/
def npMediumNew (W : Nat) (number : UBig) (radix : Nat) : Timed PreparedMedium := do
  assertR (isRadixValid radix = true ∧ ¬isRadixPow2 radix = true)
  let info ← radixInfo W radix
  let buffer ← chunkBuffer number
  let (buffer, groups) ← npMediumLoop W info (fmtChunkLen + 2) buffer []
  match buffer with
  | [w] => do
    let top ← npWordNew W w radix 1
    pure ⟨top, groups⟩
  | _ => throwT .assertFailed

/-- /repo/src/fmt/non_power_two.rs:129-132 `PreparedMedium::width` -/
def npMediumWidth (cfg : Cfg) (p : PreparedMedium) (radix : Nat) : Timed Nat := do
  let info ← radixInfo cfg.W radix
  let x ← ckMul cfg.U p.low.length info.digitsPerWord
  ckAdd cfg.U p.top.length x

/-- Writing groups of `digits_per_word` digits (/repo/src/fmt/non_power_two.rs:139-143, 247-250) -/
def npWriteGroups (W radix digitsPerWord : Nat) : List Nat → DigitWriter → Timed DigitWriter
  | [], dw => pure dw
  | g :: gs, dw => do
    let digits ← npWordNew W g radix digitsPerWord
    let dw ← DigitWriter.write W dw digits
    npWriteGroups W radix digitsPerWord gs dw

/-- /repo/src/fmt/non_power_two.rs:134-145 `PreparedMedium::write` -/
def npMediumWrite (W : Nat) (p : PreparedMedium) (radix : Nat) (dw : DigitWriter) : Timed DigitWriter := do
  let info ← radixInfo W radix
  let dw ← DigitWriter.write W dw p.top
  npWriteGroups W radix info.digitsPerWord p.low dw

/-- loop of /repo/src/fmt/non_power_two.rs:178-192 -/
def fmtPowersLoop (cfg : Cfg) (number : UBig) : Nat → List UBig → Timed (List UBig)
  | 0, _ => throwT .fuel
  | fuel + 1, powers =>
    match powers.getLast? with
    | none => throwT .unwrap
    | some prev => do
      let a ← ckMul cfg.U 2 prev.len
      let b ← ckSub a 1
      if number.len < b then pure powers
      else do
        let new ← UBig.mul cfg .ref .ref prev prev
        let gt ← UBig.lt number new
        if gt then pure powers else fmtPowersLoop cfg number fuel (powers ++ [new])

/-- loop of /repo/src/fmt/non_power_two.rs:201-207 -/
def fmtChunksLoop (cfg : Cfg) : List UBig → UBig → List (Nat × UBig) → Timed (UBig × List (Nat × UBig))
  | [], x, chunks => pure (x, chunks)
  | p :: ps, x, chunks => do
    let ge ← UBig.le p x
    if ge then do
      let (q, r) ← UBig.divRem cfg .val .ref x p
      fmtChunksLoop cfg ps q ((ps.length, r) :: chunks)
    else fmtChunksLoop cfg ps x chunks

/-- /repo/src/fmt/non_power_two.rs:177-214 `PreparedLarge::new` when the number is at least the first power -/
def npLargeNewBig (cfg : Cfg) (number : UBig) (radix : Nat) (chunkPower : UBig) : Timed PreparedLarge := do
  let powers ← fmtPowersLoop cfg number (bitLen (number.len * cfg.W)) [chunkPower]
  match powers.reverse with
  | [] => throwT .unwrap
  | p :: ps => do
    let (q, r) ← UBig.divRem cfg .ref .ref number p
    let (x, chunks) ← fmtChunksLoop cfg ps q [(ps.length, r)]
    let top ← npMediumNew cfg.W x radix
    pure ⟨top, powers, chunks⟩

/-- /repo/src/fmt/non_power_two.rs:161-215 `PreparedLarge::new` -/
def npLargeNew (cfg : Cfg) (number : UBig) (radix : Nat) : Timed PreparedLarge := do
  assertR (isRadixValid radix = true ∧ ¬isRadixPow2 radix = true)
  let info ← radixInfo cfg.W radix
  let chunkPower ← UBig.pow cfg (.small info.rangePerWord) fmtChunkLen
  let gt ← UBig.lt number chunkPower
  if gt then do
    let top ← npMediumNew cfg.W number radix
    pure ⟨top, [], []⟩
  else npLargeNewBig cfg number radix chunkPower

/-- loop of /repo/src/fmt/non_power_two.rs:235-244 -/
def npChunkGroups (W : Nat) (info : RadixInfo) : Nat → List Nat → List Nat → Timed (List Nat × List Nat)
  | 0, buffer, groups => pure (buffer, groups)
  | n + 1, buffer, groups => do
    let (q, rem) ← fastDivByWord W buffer info.rangePerWord info.fastDivRange
    let q ← popZeros q
    npChunkGroups W info n q (rem :: groups)

/-- /repo/src/fmt/non_power_two.rs:229-253 `write_chunk` -/
def npWriteChunk (W radix : Nat) (dw : DigitWriter) (x : UBig) : Timed DigitWriter := do
  let info ← radixInfo W radix
  let buffer ← chunkBuffer x
  let (buffer, groups) ← npChunkGroups W info fmtChunkLen buffer []
  assertR (buffer = [])
  npWriteGroups W radix info.digitsPerWord groups dw

/-- /repo/src/fmt/non_power_two.rs:218-226 `write_big_chunk` -/
def npWriteBigChunk (cfg : Cfg) (radix : Nat) (powers : List UBig) : Nat → DigitWriter → UBig →
    Timed DigitWriter
  | 0, dw, x => npWriteChunk cfg.W radix dw x
  | i + 1, dw, x =>
    match powers[i]? with
    | none => throwT .index
    | some p => do
      let (q, r) ← UBig.divRem cfg .val .ref x p
      let dw ← npWriteBigChunk cfg radix powers i dw q
      npWriteBigChunk cfg radix powers i dw r

/-- loop of /repo/src/fmt/non_power_two.rs:270-272 -/
def npWriteChunks (cfg : Cfg) (radix : Nat) (powers : List UBig) : List (Nat × UBig) → DigitWriter →
    Timed DigitWriter
  | [], dw => pure dw
  | (i, x) :: cs, dw => do
    tick
    let dw ← npWriteBigChunk cfg radix powers i dw x
    npWriteChunks cfg radix powers cs dw

/-- /repo/src/fmt/non_power_two.rs:266-274 `PreparedLarge::write` -/
def npLargeWrite (cfg : Cfg) (p : PreparedLarge) (radix : Nat) (dw : DigitWriter) : Timed DigitWriter := do
  let dw ← npMediumWrite cfg.W p.top radix dw
  npWriteChunks cfg radix p.powers p.chunks dw

/-- loop of /repo/src/fmt/non_power_two.rs:260-262 -/
def npChunksWidth (cfg : Cfg) (digitsPerWord : Nat) : List (Nat × UBig) → Nat → Timed Nat
  | [], n => pure n
  | (i, _) :: cs, n => do
    let n ← npChunksWidth cfg digitsPerWord cs n
    let x ← ckMul cfg.U digitsPerWord fmtChunkLen
    let y ← shlW cfg.U x i
    ckAdd cfg.U n y

/-- /repo/src/fmt/non_power_two.rs:257-264 `PreparedLarge::width` -/
def npLargeWidth (cfg : Cfg) (p : PreparedLarge) (radix : Nat) : Timed Nat := do
  let n ← npMediumWidth cfg p.top radix
  let info ← radixInfo cfg.W radix
  npChunksWidth cfg info.digitsPerWord p.chunks n

/-! ### `format_prepared` -/

/-- /repo/src/fmt/mod.rs:340-348 `trait PreparedForFormatting`: `width` and `write` -/
structure Prepared where
  width : Timed Nat
  write : DigitWriter → Timed DigitWriter

/-- /repo/src/fmt/mod.rs:292-296 `write_digits` -/
def writeDigits (W : Nat) (be : Bool) (digitCase : DigitCase) (p : Prepared) : Timed (List Nat) := do
  let dw ← p.write ⟨[], digitCase, be, []⟩
  let dw ← DigitWriter.flush W dw
  pure dw.out

/-- /repo/src/fmt/mod.rs:299-336: the sign, the prefix, `n` characters of fill and the digits, whose cost is already
counted, are the text -/
def emit (sg pre : List Nat) (n : Nat) (text : List Nat) : Timed (List Nat) :=
  pass (sg.length + pre.length + n + 1) (.ok text)

/-- /repo/src/fmt/mod.rs:273-337 `format_prepared` -/
def formatPrepared (cfg : Cfg) (be : Bool) (sign : Sign) (pre : List Nat) (digitCase : DigitCase)
    (f : FmtFlags) (p : Prepared) : Timed (List Nat) := do
  let w ← p.width
  let sg := signStr sign f
  let width ← ckAdd cfg.U w (sg.length + pre.length)
  let digits ← writeDigits cfg.W be digitCase p
  match f.width with
  | none => emit sg pre 0 (sg ++ pre ++ digits)
  | some minWidth =>
    if minWidth ≤ width then emit sg pre 0 (sg ++ pre ++ digits)
    else if f.zero then
      emit sg pre (minWidth - width) (sg ++ pre ++ List.replicate (minWidth - width) 48 ++ digits)
    else
      let pad := minWidth - width
      let left := leftFill f pad
      emit sg pre pad (List.replicate left f.fill ++ sg ++ pre ++ digits ++ List.replicate (pad - left) f.fill)

/-- /repo/src/fmt/power_two.rs:15-27 `fmt_power_two` -/
def fmtPow2 (cfg : Cfg) (be : Bool) (sign : Sign) (mag : UBig) (radix : Nat) (pre : List Nat)
    (digitCase : DigitCase) (f : FmtFlags) : Timed (List Nat) := do
  assertR (isRadixValid radix = true ∧ isRadixPow2 radix = true)
  match mag with
  | .small word =>
    formatPrepared cfg be sign pre digitCase f
      ⟨pass 1 (.ok (pow2WordWidth word (logRadix radix))),
       pow2WordWrite cfg.W word (logRadix radix) (pow2WordWidth word (logRadix radix))⟩
  | .large b => do
    let width ← pow2LargeWidth cfg b.words (logRadix radix)
    formatPrepared cfg be sign pre digitCase f
      ⟨pass 1 (.ok width), pow2LargeWrite cfg b.words (logRadix radix) width⟩

/-- /repo/src/fmt/non_power_two.rs:22-41 `fmt_non_power_two` -/
def fmtNonPow2 (cfg : Cfg) (be : Bool) (sign : Sign) (mag : UBig) (radix : Nat) (pre : List Nat)
    (digitCase : DigitCase) (f : FmtFlags) : Timed (List Nat) := do
  assertR (isRadixValid radix = true ∧ ¬isRadixPow2 radix = true)
  match mag with
  | .small word => do
    let digits ← npWordNew cfg.W word radix 1
    formatPrepared cfg be sign pre digitCase f
      ⟨pass 1 (.ok digits.length), fun dw => DigitWriter.write cfg.W dw digits⟩
  | .large b => do
    let info ← radixInfo cfg.W radix
    let maxDigits ← ckMul cfg.U b.len (info.digitsPerWord + 1)
    if maxDigits ≤ fmtChunkLen * info.digitsPerWord then do
      let p ← npMediumNew cfg.W mag radix
      formatPrepared cfg be sign pre digitCase f ⟨npMediumWidth cfg p radix, npMediumWrite cfg.W p radix⟩
    else do
      let p ← npLargeNew cfg mag radix
      formatPrepared cfg be sign pre digitCase f ⟨npLargeWidth cfg p radix, npLargeWrite cfg p radix⟩

/-- /repo/src/fmt/mod.rs:264-270 `InRadixFull::fmt` -/
def fmtFull (cfg : Cfg) (be : Bool) (sign : Sign) (mag : UBig) (radix : Nat) (pre : List Nat)
    (digitCase : DigitCase) (f : FmtFlags) : Timed (List Nat) :=
  if isRadixPow2 radix then fmtPow2 cfg be sign mag radix pre digitCase f
  else fmtNonPow2 cfg be sign mag radix pre digitCase f

/-- /repo/src/fmt/mod.rs:241-260 `Display for InRadix` -/
def InRadix.fmt (cfg : Cfg) (be : Bool) (sign : Sign) (mag : UBig) (radix : Nat) (f : FmtFlags) :
    Timed (List Nat) :=
  let digitCase := if radix ≤ 10 then .noLetters else if f.alternate then .upper else .lower
  fmtFull cfg be sign mag radix [] digitCase f

/-- /repo/src/fmt/mod.rs:88-158 `Display`, `Debug`, `Binary`, `Octal`, `LowerHex`, `UpperHex for IBig` -/
def IBig.fmt (cfg : Cfg) (be : Bool) (t : FmtTrait) (x : IBig) (f : FmtFlags) : Timed (List Nat) :=
  fmtFull cfg be x.sign x.mag t.radix (if f.alternate then t.pre else []) t.digitCase f

/-- /repo/src/fmt/mod.rs:18-86 the same for `UBig` -/
def UBig.fmt (cfg : Cfg) (be : Bool) (t : FmtTrait) (x : UBig) (f : FmtFlags) : Timed (List Nat) :=
  fmtFull cfg be .pos x t.radix (if f.alternate then t.pre else []) t.digitCase f

/-- /repo/src/fmt/mod.rs:173-181, 241-260 `UBig::in_radix`, formatted -/
def UBig.inRadixFmt (cfg : Cfg) (be : Bool) (x : UBig) (radix : Nat) (f : FmtFlags) : Timed (List Nat) := do
  checkRadixValid radix
  InRadix.fmt cfg be .pos x radix f

/-- /repo/src/fmt/mod.rs:197-205, 241-260 `IBig::in_radix`, formatted -/
def IBig.inRadixFmt (cfg : Cfg) (be : Bool) (x : IBig) (radix : Nat) (f : FmtFlags) : Timed (List Nat) := do
  checkRadixValid radix
  InRadix.fmt cfg be x.sign x.mag radix f

end Ibig.Timed
