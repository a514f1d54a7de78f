import Verif.Model.ModularFmt
/-!
Model of formatting (/repo/src/fmt/, /repo/src/modular/fmt.rs) into a sink that may fail.

Fmt.lean models formatting into a sink that never fails.  Here the sink is a `core::fmt::Write` that can return
`Err` from any call; the crate passes the error on with `?`.  The sink is given by a function `accept`: it is
asked with all the strings passed to it so far, the last one being the current one, and says whether this call
succeeds.  `write_char(c)` counts as `write_str` of the one-character string.  The parts of the code that write
nothing are those of Fmt.lean.
-/
namespace Ibig

/-- The strings passed to `write_str`, `write_char` of the sink so far, in order. -/
abbrev Calls := List (List Nat)

/-- A computation that writes to a sink and returns `Result<α, fmt::Error>` (or panics).  Its second component is
the list of all calls made. -/
def Io (α : Type) := Calls → R (Except Unit α × Calls)

namespace Io

/-- `Ok(a)` -/
def pure {α : Type} (a : α) : Io α := fun c => .ok (.ok a, c)

/-- `let a = x?; f(a)` -/
def bind {α β : Type} (x : Io α) (f : α → Io β) : Io β := fun c =>
  match x c with
  | .error p => .error p
  | .ok (.error e, c) => .ok (.error e, c)
  | .ok (.ok a, c) => f a c

instance : Monad Io where
  pure := Io.pure
  bind := Io.bind

/-- A computation that does not write. -/
def ofR {α : Type} (x : R α) : Io α := fun c =>
  match x with
  | .ok a => .ok (.ok a, c)
  | .error p => .error p

/-- `f.write_str(s)` -/
def writeStr (accept : Calls → Bool) (s : List Nat) : Io Unit := fun c =>
  if accept (c ++ [s]) then .ok (.ok (), c ++ [s]) else .ok (.error (), c ++ [s])

/-- `for _ in 0..n { f.write_char(fill)?; }` (or `write_str` of a one-character string) -/
def writeRepeat (accept : Calls → Bool) (ch : Nat) : Nat → Io Unit
  | 0 => Io.pure ()
  | n + 1 => do
    writeStr accept [ch]
    writeRepeat accept ch n

end Io

/-- /repo/src/fmt/digit_writer.rs:12-17 `DigitWriter`: the used part of the buffer.  (The writer is the sink of
`Io`.) -/
structure SinkWriter where
  buffer : List Nat
  digitCase : DigitCase
  be : Bool
deriving Repr, DecidableEq

/-- /repo/src/fmt/digit_writer.rs:46-58: the string to be written by `flush` -/
def SinkWriter.text (W : Nat) (self : SinkWriter) : R (List Nat) := do
  let rounded := roundUp self.buffer.length (W / 8)
  assertR (rounded ≤ digitBufferLen W)
  let padded := self.buffer ++ List.replicate (rounded - self.buffer.length) 0
  let ascii ← chunksToAscii W self.be self.digitCase padded.length padded
  fromUtf8Unchecked (ascii.take self.buffer.length)

/-- /repo/src/fmt/digit_writer.rs:45-62 `flush` -/
def SinkWriter.flush (accept : Calls → Bool) (W : Nat) (self : SinkWriter) : Io SinkWriter := do
  let s ← Io.ofR (self.text W)
  Io.writeStr accept s
  Io.pure { self with buffer := [] }

/-- /repo/src/fmt/digit_writer.rs:38-40 flush a full buffer -/
def SinkWriter.flushIfFull (accept : Calls → Bool) (W : Nat) (self : SinkWriter) : Io SinkWriter :=
  if self.buffer.length = digitBufferLen W then self.flush accept W else Io.pure self

/-- /repo/src/fmt/digit_writer.rs:30-43 `write`. The first number bounds the rounds of the loop. -/
def SinkWriter.writeLoop (accept : Calls → Bool) (W : Nat) : Nat → SinkWriter → List Nat → Io SinkWriter
  | 0, self, buf => Io.ofR (if buf = [] then .ok self else .error .fuel)
  | fuel + 1, self, buf =>
    if buf = [] then Io.pure self
    else do
      let room ← Io.ofR (ckSub (digitBufferLen W) self.buffer.length)
      let parts ← Io.ofR (splitR buf (min buf.length room))
      let self ← SinkWriter.flushIfFull accept W { self with buffer := self.buffer ++ parts.1 }
      SinkWriter.writeLoop accept W fuel self parts.2

/-- /repo/src/fmt/digit_writer.rs:30-43 `write` -/
def SinkWriter.write (accept : Calls → Bool) (W : Nat) (self : SinkWriter) (buf : List Nat) : Io SinkWriter :=
  SinkWriter.writeLoop accept W buf.length self buf

/-! ### Power-of-two radix -/

/-- /repo/src/fmt/power_two.rs:57-65 `PreparedWord::write` -/
def pow2WordSink (accept : Calls → Bool) (W word log width : Nat) (dw : SinkWriter) : Io SinkWriter := do
  let mask ← Io.ofR (ones W log)
  Io.ofR (assertR (width ≤ W))
  let digits ← Io.ofR (pow2WordDigits W word log mask width)
  dw.write accept W digits

/-- loop of /repo/src/fmt/power_two.rs:109-129 and the final assertion. The first number bounds the number of
digits. -/
def pow2LargeLoopSink (accept : Calls → Bool) (W log mask : Nat) : Nat → Nat → Nat → List Nat → SinkWriter →
    Io SinkWriter
  | 0, _, _, _, _ => Io.ofR (.error .fuel)
  | fuel + 1, word, bits, rest, dw => do
    let s ← Io.ofR (pow2LargeStep W log mask word bits rest)
    match s with
    | none => Io.pure dw
    | some (digit, word, bits, rest) => do
      let dw ← dw.write accept W [digit]
      pow2LargeLoopSink accept W log mask fuel word bits rest dw

/-- /repo/src/fmt/power_two.rs:101-131 `PreparedLarge::write` -/
def pow2LargeSink (accept : Calls → Bool) (cfg : Cfg) (words : List Nat) (log width : Nat) (dw : SinkWriter) :
    Io SinkWriter := do
  let mask ← Io.ofR (ones cfg.W log)
  match words.reverse with
  | [] => Io.ofR (.error .unwrap)
  | word :: rest => do
    let a ← Io.ofR (ckMul cfg.U width log)
    let n ← Io.ofR (ckSub words.length 1)
    let b ← Io.ofR (ckMul cfg.U n cfg.W)
    let c ← Io.ofR (ckSub a b)
    pow2LargeLoopSink accept cfg.W log mask (width + 1) word (c % 2 ^ 32) rest dw

/-! ### Other radixes -/

/-- Writing groups of `digits_per_word` digits (/repo/src/fmt/non_power_two.rs:139-143, 247-250) -/
def npGroupsSink (accept : Calls → Bool) (W radix digitsPerWord : Nat) : List Nat → SinkWriter → Io SinkWriter
  | [], dw => Io.pure dw
  | g :: gs, dw => do
    let digits ← Io.ofR (npWordNew W g radix digitsPerWord)
    let dw ← dw.write accept W digits
    npGroupsSink accept W radix digitsPerWord gs dw

/-- /repo/src/fmt/non_power_two.rs:134-145 `PreparedMedium::write` -/
def npMediumSink (accept : Calls → Bool) (W : Nat) (p : PreparedMedium) (radix : Nat) (dw : SinkWriter) :
    Io SinkWriter := do
  let info ← Io.ofR (radixInfo W radix)
  let dw ← dw.write accept W p.top
  npGroupsSink accept W radix info.digitsPerWord p.low dw

/-- /repo/src/fmt/non_power_two.rs:229-253 `write_chunk` -/
def npChunkSink (accept : Calls → Bool) (W radix : Nat) (dw : SinkWriter) (x : UBig) : Io SinkWriter := do
  let info ← Io.ofR (radixInfo W radix)
  let buffer ← Io.ofR (chunkBuffer x)
  let groups ← Io.ofR (npChunkGroups W info fmtChunkLen buffer [])
  Io.ofR (assertR (groups.1 = []))
  npGroupsSink accept W radix info.digitsPerWord groups.2 dw

/-- /repo/src/fmt/non_power_two.rs:218-226 `write_big_chunk` -/
def npBigChunkSink (accept : Calls → Bool) (cfg : Cfg) (radix : Nat) (powers : List UBig) : Nat → SinkWriter →
    UBig → Io SinkWriter
  | 0, dw, x => npChunkSink accept cfg.W radix dw x
  | i + 1, dw, x =>
    match powers[i]? with
    | none => Io.ofR (.error .index)
    | some p => do
      let qr ← Io.ofR (UBig.divRem cfg .val .ref x p)
      let dw ← npBigChunkSink accept cfg radix powers i dw qr.1
      npBigChunkSink accept cfg radix powers i dw qr.2

/-- loop of /repo/src/fmt/non_power_two.rs:270-272 -/
def npChunksSink (accept : Calls → Bool) (cfg : Cfg) (radix : Nat) (powers : List UBig) : List (Nat × UBig) →
    SinkWriter → Io SinkWriter
  | [], dw => Io.pure dw
  | c :: cs, dw => do
    let dw ← npBigChunkSink accept cfg radix powers c.1 dw c.2
    npChunksSink accept cfg radix powers cs dw

/-- /repo/src/fmt/non_power_two.rs:266-274 `PreparedLarge::write` -/
def npLargeSink (accept : Calls → Bool) (cfg : Cfg) (p : PreparedLarge) (radix : Nat) (dw : SinkWriter) :
    Io SinkWriter := do
  let dw ← npMediumSink accept cfg.W p.top radix dw
  npChunksSink accept cfg radix p.powers p.chunks dw

/-! ### `format_prepared` -/

/-- /repo/src/fmt/mod.rs:340-348 `trait PreparedForFormatting`: `width` and `write` -/
structure PreparedSink where
  width : R Nat
  write : SinkWriter → Io SinkWriter

/-- /repo/src/fmt/mod.rs:292-296 `write_digits` -/
def writeDigitsSink (accept : Calls → Bool) (W : Nat) (be : Bool) (digitCase : DigitCase) (p : PreparedSink) :
    Io Unit := do
  let dw ← p.write ⟨[], digitCase, be⟩
  let _ ← dw.flush accept W
  Io.pure ()

/-- /repo/src/fmt/mod.rs:273-337 `format_prepared` -/
def formatPreparedSink (accept : Calls → Bool) (cfg : Cfg) (be : Bool) (sign : Sign) (pre : List Nat)
    (digitCase : DigitCase) (f : FmtFlags) (p : PreparedSink) : Io Unit := do
  let w ← Io.ofR p.width
  let width ← Io.ofR (ckAdd cfg.U w ((signStr sign f).length + pre.length))
  match f.width with
  | none => do
    Io.writeStr accept (signStr sign f)
    Io.writeStr accept pre
    writeDigitsSink accept cfg.W be digitCase p
  | some minWidth =>
    if minWidth ≤ width then do
      Io.writeStr accept (signStr sign f)
      Io.writeStr accept pre
      writeDigitsSink accept cfg.W be digitCase p
    else if f.zero then do
      Io.writeStr accept (signStr sign f)
      Io.writeStr accept pre
      Io.writeRepeat accept 48 (minWidth - width)
      writeDigitsSink accept cfg.W be digitCase p
    else do
      Io.writeRepeat accept f.fill (leftFill f (minWidth - width))
      Io.writeStr accept (signStr sign f)
      Io.writeStr accept pre
      writeDigitsSink accept cfg.W be digitCase p
      Io.writeRepeat accept f.fill (minWidth - width - leftFill f (minWidth - width))

/-- /repo/src/fmt/power_two.rs:15-27 `fmt_power_two` -/
def fmtPow2Sink (accept : Calls → Bool) (cfg : Cfg) (be : Bool) (sign : Sign) (mag : UBig) (radix : Nat)
    (pre : List Nat) (digitCase : DigitCase) (f : FmtFlags) : Io Unit := do
  Io.ofR (assertR (isRadixValid radix = true ∧ isRadixPow2 radix = true))
  match mag with
  | .small word =>
    formatPreparedSink accept cfg be sign pre digitCase f
      ⟨.ok (pow2WordWidth word (logRadix radix)),
       pow2WordSink accept cfg.W word (logRadix radix) (pow2WordWidth word (logRadix radix))⟩
  | .large b => do
    let width ← Io.ofR (pow2LargeWidth cfg b.words (logRadix radix))
    formatPreparedSink accept cfg be sign pre digitCase f
      ⟨.ok width, pow2LargeSink accept cfg b.words (logRadix radix) width⟩

/-- /repo/src/fmt/non_power_two.rs:22-41 `fmt_non_power_two` -/
def fmtNonPow2Sink (accept : Calls → Bool) (cfg : Cfg) (be : Bool) (sign : Sign) (mag : UBig) (radix : Nat)
    (pre : List Nat) (digitCase : DigitCase) (f : FmtFlags) : Io Unit := do
  Io.ofR (assertR (isRadixValid radix = true ∧ ¬isRadixPow2 radix = true))
  match mag with
  | .small word => do
    let digits ← Io.ofR (npWordNew cfg.W word radix 1)
    formatPreparedSink accept cfg be sign pre digitCase f
      ⟨.ok digits.length, fun dw => dw.write accept cfg.W digits⟩
  | .large b => do
    let info ← Io.ofR (radixInfo cfg.W radix)
    let maxDigits ← Io.ofR (ckMul cfg.U b.len (info.digitsPerWord + 1))
    if maxDigits ≤ fmtChunkLen * info.digitsPerWord then do
      let p ← Io.ofR (npMediumNew cfg.W mag radix)
      formatPreparedSink accept cfg be sign pre digitCase f
        ⟨npMediumWidth cfg p radix, npMediumSink accept cfg.W p radix⟩
    else do
      let p ← Io.ofR (npLargeNew cfg mag radix)
      formatPreparedSink accept cfg be sign pre digitCase f
        ⟨npLargeWidth cfg p radix, npLargeSink accept cfg p radix⟩

/-- /repo/src/fmt/mod.rs:264-270 `InRadixFull::fmt` -/
def fmtFullSink (accept : Calls → Bool) (cfg : Cfg) (be : Bool) (sign : Sign) (mag : UBig) (radix : Nat)
    (pre : List Nat) (digitCase : DigitCase) (f : FmtFlags) : Io Unit :=
  if isRadixPow2 radix then fmtPow2Sink accept cfg be sign mag radix pre digitCase f
  else fmtNonPow2Sink accept cfg be sign mag radix pre digitCase f

/-- /repo/src/fmt/mod.rs:241-260 `Display for InRadix` -/
def InRadix.fmtSink (accept : Calls → Bool) (cfg : Cfg) (be : Bool) (sign : Sign) (mag : UBig) (radix : Nat)
    (f : FmtFlags) : Io Unit :=
  let digitCase := if radix ≤ 10 then .noLetters else if f.alternate then .upper else .lower
  fmtFullSink accept cfg be sign mag radix [] digitCase f

/-- /repo/src/fmt/mod.rs:88-158 `Display`, `Debug`, `Binary`, `Octal`, `LowerHex`, `UpperHex for IBig` -/
def IBig.fmtSink (accept : Calls → Bool) (cfg : Cfg) (be : Bool) (t : FmtTrait) (x : IBig) (f : FmtFlags) :
    Io Unit :=
  fmtFullSink accept cfg be x.sign x.mag t.radix (if f.alternate then t.pre else []) t.digitCase f

/-- /repo/src/fmt/mod.rs:18-86 the same for `UBig` -/
def UBig.fmtSink (accept : Calls → Bool) (cfg : Cfg) (be : Bool) (t : FmtTrait) (x : UBig) (f : FmtFlags) :
    Io Unit :=
  fmtFullSink accept cfg be .pos x t.radix (if f.alternate then t.pre else []) t.digitCase f

/-- /repo/src/fmt/mod.rs:173-181, 241-260 `UBig::in_radix`, formatted -/
def UBig.inRadixSink (accept : Calls → Bool) (cfg : Cfg) (be : Bool) (x : UBig) (radix : Nat) (f : FmtFlags) :
    Io Unit := do
  Io.ofR (checkRadixValid radix)
  InRadix.fmtSink accept cfg be .pos x radix f

/-- /repo/src/fmt/mod.rs:197-205, 241-260 `IBig::in_radix`, formatted -/
def IBig.inRadixSink (accept : Calls → Bool) (cfg : Cfg) (be : Bool) (x : IBig) (radix : Nat) (f : FmtFlags) :
    Io Unit := do
  Io.ofR (checkRadixValid radix)
  InRadix.fmtSink accept cfg be x.sign x.mag radix f

/-! ### Rings and their elements -/

/-- `write_str` of several strings, one after another -/
def Io.writeAll (accept : Calls → Bool) : Calls → Io Unit
  | [] => Io.pure ()
  | s :: ss => do
    Io.writeStr accept s
    Io.writeAll accept ss

/-- `core::fmt` for a primitive unsigned integer: the text of `primFmt`.  How `core` cuts the text into calls is
not specified; it is given by `cut`. -/
def primFmtSink (accept : Calls → Bool) (cut : List Nat → Calls) (W : Nat) (t : FmtTrait) (n : Nat)
    (f : FmtFlags) : Io Unit :=
  Io.writeAll accept (cut (primFmt W t n f))

/-- /repo/src/modular/fmt.rs:11-33 `fmt for ModuloRing`, `ModuloRingSmall`, `ModuloRingLarge` -/
def Ring.fmtSink (accept : Calls → Bool) (cut : List Nat → Calls) (cfg : Cfg) (be : Bool) (t : FmtTrait)
    (r : Ring) (f : FmtFlags) : Io Unit :=
  match r.repr with
  | .small s => do
    Io.writeStr accept modText
    let m ← Io.ofR (s.getModulus cfg.W)
    primFmtSink accept cut cfg.W t m f
  | .large l => do
    Io.writeStr accept modText
    let m ← Io.ofR (l.getModulus cfg)
    m.fmtSink accept cfg be t f

/-- /repo/src/modular/fmt.rs:35-60 `fmt for Modulo`, `ModuloSmall`, `ModuloLarge` -/
def Modulo.fmtSink (accept : Calls → Bool) (cut : List Nat → Calls) (cfg : Cfg) (be : Bool) (t : FmtTrait)
    (x : Modulo) (f : FmtFlags) : Io Unit :=
  match x with
  | .small x => do
    let k ← Io.ofR (x.ring.residue cfg.W x.raw)
    primFmtSink accept cut cfg.W t k f
    Io.writeStr accept [32, 40]
    Ring.fmtSink accept cut cfg be t ⟨x.addr, .small x.ring⟩ f
    Io.writeStr accept [41]
  | .large x => do
    let k ← Io.ofR (x.residue cfg)
    k.fmtSink accept cfg be t f
    Io.writeStr accept [32, 40]
    Ring.fmtSink accept cut cfg be t ⟨x.addr, .large x.ring⟩ f
    Io.writeStr accept [41]

end Ibig
