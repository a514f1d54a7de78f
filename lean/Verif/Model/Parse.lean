import Verif.Model.Radix
import Verif.Model.Pow
/-! Model of parsing (/repo/src/parse/). A `&str` is its list of UTF-8 bytes; all the characters the code
looks for are ASCII, so `strip_prefix` compares bytes. -/
namespace Ibig

/-- /repo/src/error.rs:20-25 `enum ParseError` -/
inductive ParseError where
  | noDigits
  | invalidDigit
deriving DecidableEq, Repr

/-- `Result<α, ParseError>` -/
abbrev PRes (α : Type) := Except ParseError α

/-- `x?` followed by the rest of the function -/
def tryP {α β : Type} (x : R (PRes α)) (f : α → R (PRes β)) : R (PRes β) := do
  let r ← x
  match r with
  | .error e => .ok (.error e)
  | .ok a => f a

/-- `Ok(x)` for a computed `x` -/
def okP {α : Type} (x : R α) : R (PRes α) := do
  let a ← x
  .ok (.ok a)

/-- `digit_from_utf8_byte(byte, radix).ok_or(ParseError::InvalidDigit)` -/
def digitP (byte radix : Nat) : R (PRes Nat) :=
  match digitFromByte byte radix with
  | none => .ok (.error .invalidDigit)
  | some d => .ok (.ok d)

/-- `x << s` on words: bits beyond the word are lost, too large a shift is an overflow panic -/
def shlW (W x s : Nat) : R Nat := if s < W then .ok (x * 2 ^ s % base W) else .error .overflow

/-- `x >> s` on words -/
def shrW (W x s : Nat) : R Nat := if s < W then .ok (x / 2 ^ s) else .error .overflow

/-! ### Power-of-two radix -/

/-- loop of /repo/src/parse/power_two.rs:35-39, over the bytes in reverse order -/
def pow2WordLoop (W radix : Nat) : List Nat → Nat → Nat → R (PRes Nat)
  | [], word, _ => .ok (.ok word)
  | byte :: bytes, word, bits =>
    tryP (digitP byte radix) fun digit => do
      let x ← shlW W digit bits
      let bits ← ckAdd 32 bits (logRadix radix)
      pow2WordLoop W radix bytes (word ||| x) bits

/-- /repo/src/parse/power_two.rs:28-41 `parse_word` -/
def pow2ParseWord (W radix : Nat) (src : List Nat) : R (PRes Nat) := do
  assertR (isRadixValid radix = true ∧ isRadixPow2 radix = true)
  let info ← radixInfo W radix
  assertR (src.length ≤ info.digitsPerWord)
  pow2WordLoop W radix src.reverse 0 0

/-- /repo/src/parse/power_two.rs:60-68 one round of the loop in `parse_large`, after reading the digit:
new buffer, word and bits -/
def pow2Step (W radix digit : Nat) (s : Buffer × Nat × Nat) : R (Buffer × Nat × Nat) := do
  let x ← shlW W digit s.2.2
  let newBits ← ckAdd 32 s.2.2 (logRadix radix)
  if W ≤ newBits then do
    let buffer ← s.1.push (s.2.1 ||| x)
    let k ← ckSub W s.2.2
    let word ← shrW W digit k
    .ok (buffer, word, newBits - W)
  else .ok (s.1, s.2.1 ||| x, newBits)

/-- loop of /repo/src/parse/power_two.rs:58-69 (bytes in reverse order) -/
def pow2LargeLoop (W radix : Nat) : List Nat → Buffer × Nat × Nat → R (PRes (Buffer × Nat × Nat))
  | [], s => .ok (.ok s)
  | byte :: bytes, s =>
    tryP (digitP byte radix) fun digit => do
      let s ← pow2Step W radix digit s
      pow2LargeLoop W radix bytes s

/-- /repo/src/parse/power_two.rs:70-73 the end of `parse_large` -/
def pow2Finish (cfg : Cfg) (s : Buffer × Nat × Nat) : R UBig :=
  if 0 < s.2.2 then do
    let buffer ← s.1.push s.2.1
    UBig.ofBuffer cfg buffer
  else UBig.ofBuffer cfg s.1

/-- /repo/src/parse/power_two.rs:46-74 `parse_large` (`checked_mul` or "number too large") -/
def pow2ParseLarge (cfg : Cfg) (radix : Nat) (src : List Nat) : R (PRes UBig) := do
  assertR (isRadixValid radix = true ∧ isRadixPow2 radix = true)
  if 2 ^ cfg.U ≤ src.length * logRadix radix then .error .tooLarge
  else do
    let n ← ckSub (src.length * logRadix radix) 1
    let buffer ← Buffer.allocate cfg (n / cfg.W + 1)
    tryP (pow2LargeLoop cfg.W radix src.reverse (buffer, 0, 0)) fun s => okP (pow2Finish cfg s)

/-- /repo/src/parse/power_two.rs:13-23 `parse` -/
def pow2Parse (cfg : Cfg) (radix : Nat) (src : List Nat) : R (PRes UBig) := do
  assertR (isRadixValid radix = true ∧ isRadixPow2 radix = true)
  let info ← radixInfo cfg.W radix
  if src.length ≤ info.digitsPerWord then
    tryP (pow2ParseWord cfg.W radix src) fun word => .ok (.ok (.small word))
  else pow2ParseLarge cfg radix src

/-! ### Other radixes -/

/-- /repo/src/parse/non_power_two.rs:14 `CHUNK_LEN` -/
def parseChunkLen : Nat := 256

/-- loop of /repo/src/parse/non_power_two.rs:39-43 -/
def npWordLoop (W radix : Nat) : List Nat → Nat → R (PRes Nat)
  | [], word => .ok (.ok word)
  | byte :: bytes, word =>
    tryP (digitP byte radix) fun digit => do
      let x ← ckMul W word radix
      let word ← ckAdd W x digit
      npWordLoop W radix bytes word

/-- /repo/src/parse/non_power_two.rs:35-45 `parse_word` -/
def npParseWord (W radix : Nat) (src : List Nat) : R (PRes Nat) := do
  assertR (isRadixValid radix = true ∧ ¬isRadixPow2 radix = true)
  let info ← radixInfo W radix
  assertR (src.length ≤ info.digitsPerWord)
  npWordLoop W radix src 0

/-- `bytes.rchunks(n)`: groups of `n` bytes from the end, the last group may be shorter. The first number
bounds the recursion (`bytes.len()` suffices). -/
def rchunks (n : Nat) : Nat → List Nat → List (List Nat)
  | 0, _ => []
  | fuel + 1, l =>
    if l = [] then [] else l.drop (l.length - n) :: rchunks n fuel (l.take (l.length - n))

/-- /repo/src/parse/non_power_two.rs:59-62 multiply by the range and add the next group -/
def npChunkStep (W range next : Nat) (buffer : Buffer) : R Buffer :=
  let (ws, carry) := mulWordWithCarry W buffer.words range next
  if carry ≠ 0 then ({ buffer with words := ws } : Buffer).push carry
  else .ok { buffer with words := ws }

/-- loop of /repo/src/parse/non_power_two.rs:57-63 -/
def npChunkLoop (W radix range : Nat) : List (List Nat) → Buffer → R (PRes Buffer)
  | [], buffer => .ok (.ok buffer)
  | group :: groups, buffer =>
    tryP (npParseWord W radix group) fun next => do
      let buffer ← npChunkStep W range next buffer
      npChunkLoop W radix range groups buffer

/-- /repo/src/parse/non_power_two.rs:50-65 `parse_chunk` -/
def npParseChunk (cfg : Cfg) (radix : Nat) (bytes : List Nat) : R (PRes UBig) := do
  assertR (isRadixValid radix = true ∧ ¬isRadixPow2 radix = true)
  let info ← radixInfo cfg.W radix
  assertR (bytes.length ≤ parseChunkLen * info.digitsPerWord)
  let groups := rchunks info.digitsPerWord bytes.length bytes
  let buffer ← Buffer.allocate cfg groups.length
  tryP (npChunkLoop cfg.W radix info.rangePerWord groups.reverse buffer) fun buffer =>
    okP (UBig.ofBuffer cfg buffer)

/-- loop of /repo/src/parse/non_power_two.rs:81-85. `powers` is `radix_powers` in reverse order (last
element first). The first number bounds the number of rounds, and so the depth of the
recursion over the powers below. -/
def npPowersLoop (cfg : Cfg) (chunkBytes len : Nat) : Nat → List UBig → R (List UBig)
  | 0, _ => .error .fuel
  | fuel + 1, powers => do
    let n ← ckSub len 1
    let top ← shrW cfg.U n powers.length
    if chunkBytes ≤ top then
      match powers with
      | [] => .error .unwrap
      | prev :: rest => do
        let new ← UBig.mul cfg .ref .ref prev prev
        npPowersLoop cfg chunkBytes len fuel (new :: prev :: rest)
    else .ok powers

/-- /repo/src/parse/non_power_two.rs:93-117 `parse_large_divide_conquer` (`powers` in reverse order) -/
def npDivideConquer (cfg : Cfg) (radix chunkBytes : Nat) : List UBig → List Nat → R (PRes UBig)
  | [], bytes => do
    let m ← shlW cfg.U chunkBytes 0
    assertR (bytes.length ≤ m)
    npParseChunk cfg radix bytes
  | power :: powers, bytes => do
    let m ← shlW cfg.U chunkBytes (powers.length + 1)
    assertR (bytes.length ≤ m)
    let loLen ← shlW cfg.U chunkBytes powers.length
    if bytes.length ≤ loLen then npDivideConquer cfg radix chunkBytes powers bytes
    else do
      let (hi, lo) ← splitR bytes (bytes.length - loLen)
      tryP (npDivideConquer cfg radix chunkBytes powers hi) fun resHi =>
        tryP (npDivideConquer cfg radix chunkBytes powers lo) fun resLo => okP do
          let x ← UBig.mul cfg .val .ref resHi power
          UBig.add cfg .val .val x resLo

/-- /repo/src/parse/non_power_two.rs:70-88 `parse_large` -/
def npParseLarge (cfg : Cfg) (radix : Nat) (bytes : List Nat) : R (PRes UBig) := do
  assertR (isRadixValid radix = true ∧ ¬isRadixPow2 radix = true)
  let info ← radixInfo cfg.W radix
  let chunkBytes ← ckMul cfg.U parseChunkLen info.digitsPerWord
  assertR (chunkBytes < bytes.length)
  let power ← (UBig.small info.rangePerWord).pow cfg parseChunkLen
  let powers ← npPowersLoop cfg chunkBytes bytes.length (bitLen bytes.length) [power]
  npDivideConquer cfg radix chunkBytes powers bytes

/-- /repo/src/parse/non_power_two.rs:17-30 `parse` -/
def npParse (cfg : Cfg) (radix : Nat) (bytes : List Nat) : R (PRes UBig) := do
  assertR (isRadixValid radix = true ∧ ¬isRadixPow2 radix = true)
  let info ← radixInfo cfg.W radix
  if bytes.length ≤ info.digitsPerWord then
    tryP (npParseWord cfg.W radix bytes) fun word => .ok (.ok (.small word))
  else do
    let n ← ckMul cfg.U parseChunkLen info.digitsPerWord
    if bytes.length ≤ n then npParseChunk cfg radix bytes else npParseLarge cfg radix bytes

/-! ### Entry points -/

/-- `src.strip_prefix(c)` for an ASCII string `c` -/
def stripPrefix (c src : List Nat) : Option (List Nat) :=
  if c.isPrefixOf src then some (src.drop c.length) else none

/-- `src.strip_prefix(c).unwrap_or(src)` -/
def stripPrefixOr (c src : List Nat) : List Nat := (stripPrefix c src).getD src

/-- /repo/src/parse/mod.rs:92-94 strip all leading `'0'` -/
def stripZeros : List Nat → List Nat
  | [] => []
  | c :: src => if c = 48 then stripZeros src else c :: src

/-- /repo/src/parse/mod.rs:86-101 `from_str_radix_no_sign` -/
def UBig.fromStrRadixNoSign (cfg : Cfg) (src : List Nat) (radix : Nat) : R (PRes UBig) := do
  assertR (isRadixValid radix = true)
  if src = [] then .ok (.error .noDigits)
  else if isRadixPow2 radix then pow2Parse cfg radix (stripZeros src)
  else npParse cfg radix (stripZeros src)

/-- /repo/src/parse/mod.rs:47-51 `UBig::from_str_radix` -/
def UBig.fromStrRadix (cfg : Cfg) (src : List Nat) (radix : Nat) : R (PRes UBig) := do
  checkRadixValid radix
  UBig.fromStrRadixNoSign cfg (stripPrefixOr [43] src) radix

/-- /repo/src/parse/mod.rs:18-20 `UBig::from_str` -/
def UBig.fromStr (cfg : Cfg) (src : List Nat) : R (PRes UBig) := UBig.fromStrRadix cfg src 10

/-- /repo/src/parse/mod.rs:73-83 `from_str_with_radix_prefix_no_sign`: `"0b"`, `"0o"`, `"0x"` -/
def UBig.fromStrWithRadixPrefixNoSign (cfg : Cfg) (src : List Nat) : R (PRes UBig) :=
  match stripPrefix [48, 98] src with
  | some bin => UBig.fromStrRadixNoSign cfg bin 2
  | none =>
    match stripPrefix [48, 111] src with
    | some oct => UBig.fromStrRadixNoSign cfg oct 8
    | none =>
      match stripPrefix [48, 120] src with
      | some hex => UBig.fromStrRadixNoSign cfg hex 16
      | none => UBig.fromStrRadixNoSign cfg src 10

/-- /repo/src/parse/mod.rs:67-70 `UBig::from_str_with_radix_prefix` -/
def UBig.fromStrWithRadixPrefix (cfg : Cfg) (src : List Nat) : R (PRes UBig) :=
  UBig.fromStrWithRadixPrefixNoSign cfg (stripPrefixOr [43] src)

/-- /repo/src/parse/mod.rs:122-132, 151-161: sign and the rest of the string -/
def parseSign (src : List Nat) : Sign × List Nat :=
  match stripPrefix [45] src with
  | some s => (.neg, s)
  | none => (.pos, stripPrefixOr [43] src)

/-- /repo/src/parse/mod.rs:120-135 `IBig::from_str_radix` -/
def IBig.fromStrRadix (cfg : Cfg) (src : List Nat) (radix : Nat) : R (PRes IBig) := do
  checkRadixValid radix
  tryP (UBig.fromStrRadixNoSign cfg (parseSign src).2 radix) fun mag =>
    .ok (.ok (.fromSignMagnitude (parseSign src).1 mag))

/-- /repo/src/parse/mod.rs:26-28 `IBig::from_str` -/
def IBig.fromStr (cfg : Cfg) (src : List Nat) : R (PRes IBig) := IBig.fromStrRadix cfg src 10

/-- /repo/src/parse/mod.rs:150-164 `IBig::from_str_with_radix_prefix` -/
def IBig.fromStrWithRadixPrefix (cfg : Cfg) (src : List Nat) : R (PRes IBig) :=
  tryP (UBig.fromStrWithRadixPrefixNoSign cfg (parseSign src).2) fun mag =>
    .ok (.ok (.fromSignMagnitude (parseSign src).1 mag))

end Ibig
