import Verif.Model.PowTime
import Verif.Model.Parse
/-!
Parsing with the number of its steps: the text of Model/Parse.lean with counting functions.  Looking at one byte of the
text is a step of its own.  `radix_info` looks up a table (/repo/src/radix.rs:79-82), which is one step.
-/
namespace Ibig.Timed

/-- multiplication of machine integers -/
def ckMul (bits a b : Nat) : Timed Nat := pass 1 (Ibig.ckMul bits a b)
/-- `x << s` -/
def shlW (W x s : Nat) : Timed Nat := pass 1 (Ibig.shlW W x s)
/-- `x >> s` -/
def shrW (W x s : Nat) : Timed Nat := pass 1 (Ibig.shrW W x s)
/-- /repo/src/radix.rs:79-82 `radix_info` -/
def radixInfo (W radix : Nat) : Timed RadixInfo := pass 1 (Ibig.radixInfo W radix)

/-- `x?` followed by the rest of the function -/
def tryP {α β : Type} (x : Timed (PRes α)) (f : α → Timed (PRes β)) : Timed (PRes β) := do
  let r ← x
  match r with
  | .error e => pure (.error e)
  | .ok a => f a

/-- `Ok(x)` for a computed `x` -/
def okP {α : Type} (x : Timed α) : Timed (PRes α) := do
  let a ← x
  pure (.ok a)

/-- `digit_from_utf8_byte(byte, radix).ok_or(ParseError::InvalidDigit)` -/
def digitP (byte radix : Nat) : Timed (PRes Nat) := pass 1 (Ibig.digitP byte radix)

/-! ### Power-of-two radix -/

/-- loop of /repo/src/parse/power_two.rs:35-39, over the bytes in reverse order -/
def pow2WordLoop (W radix : Nat) : List Nat → Nat → Nat → Timed (PRes Nat)
  | [], word, _ => pure (.ok word)
  | byte :: bytes, word, bits =>
    tryP (digitP byte radix) fun digit => do
      let x ← shlW W digit bits
      let bits ← ckAdd 32 bits (logRadix radix)
      pow2WordLoop W radix bytes (word ||| x) bits

/-- /repo/src/parse/power_two.rs:28-41 `parse_word` -/
def pow2ParseWord (W radix : Nat) (src : List Nat) : Timed (PRes Nat) := do
  assertR (isRadixValid radix = true ∧ isRadixPow2 radix = true)
  let info ← radixInfo W radix
  assertR (src.length ≤ info.digitsPerWord)
  pow2WordLoop W radix src.reverse 0 0

/-- /repo/src/parse/power_two.rs:60-68 one round of the loop in `parse_large`, after reading the digit -/
def pow2Step (W radix digit : Nat) (s : Buffer × Nat × Nat) : Timed (Buffer × Nat × Nat) := do
  let x ← shlW W digit s.2.2
  let newBits ← ckAdd 32 s.2.2 (logRadix radix)
  if W ≤ newBits then do
    let buffer ← Buffer.push s.1 (s.2.1 ||| x)
    let k ← ckSub W s.2.2
    let word ← shrW W digit k
    pure (buffer, word, newBits - W)
  else pure (s.1, s.2.1 ||| x, newBits)

/-- loop of /repo/src/parse/power_two.rs:58-69 (bytes in reverse order) -/
def pow2LargeLoop (W radix : Nat) : List Nat → Buffer × Nat × Nat → Timed (PRes (Buffer × Nat × Nat))
  | [], s => pure (.ok s)
  | byte :: bytes, s =>
    tryP (digitP byte radix) fun digit => do
      let s ← pow2Step W radix digit s
      pow2LargeLoop W radix bytes s

/-- /repo/src/parse/power_two.rs:70-73 the end of `parse_large` -/
def pow2Finish (cfg : Cfg) (s : Buffer × Nat × Nat) : Timed UBig :=
  if 0 < s.2.2 then do
    let buffer ← Buffer.push s.1 s.2.1
    UBig.ofBuffer cfg buffer
  else UBig.ofBuffer cfg s.1

/-- /repo/src/parse/power_two.rs:46-74 `parse_large` -/
def pow2ParseLarge (cfg : Cfg) (radix : Nat) (src : List Nat) : Timed (PRes UBig) := do
  assertR (isRadixValid radix = true ∧ isRadixPow2 radix = true)
  if 2 ^ cfg.U ≤ src.length * logRadix radix then throwT .tooLarge
  else do
    let n ← ckSub (src.length * logRadix radix) 1
    let buffer ← Buffer.allocate cfg (n / cfg.W + 1)
    tryP (pow2LargeLoop cfg.W radix src.reverse (buffer, 0, 0)) fun s => okP (pow2Finish cfg s)

/-- /repo/src/parse/power_two.rs:13-23 `parse` -/
def pow2Parse (cfg : Cfg) (radix : Nat) (src : List Nat) : Timed (PRes UBig) := do
  assertR (isRadixValid radix = true ∧ isRadixPow2 radix = true)
  let info ← radixInfo cfg.W radix
  if src.length ≤ info.digitsPerWord then
    tryP (pow2ParseWord cfg.W radix src) fun word => pure (.ok (.small word))
  else pow2ParseLarge cfg radix src

/-! ### Other radixes -/

/-- loop of /repo/src/parse/non_power_two.rs:39-43 -/
def npWordLoop (W radix : Nat) : List Nat → Nat → Timed (PRes Nat)
  | [], word => pure (.ok word)
  | byte :: bytes, word =>
    tryP (digitP byte radix) fun digit => do
      let x ← ckMul W word radix
      let word ← ckAdd W x digit
      npWordLoop W radix bytes word

/-- /repo/src/parse/non_power_two.rs:35-45 `parse_word` -/
def npParseWord (W radix : Nat) (src : List Nat) : Timed (PRes Nat) := do
  assertR (isRadixValid radix = true ∧ ¬isRadixPow2 radix = true)
  let info ← radixInfo W radix
  assertR (src.length ≤ info.digitsPerWord)
  npWordLoop W radix src 0

/-- /repo/src/parse/non_power_two.rs:59-62 multiply by the range and add the next group -/
def npChunkStep (W range next : Nat) (buffer : Buffer) : Timed Buffer := do
  let (ws, carry) ← mulWordLoop W range buffer.words next
  if carry ≠ 0 then Buffer.push { buffer with words := ws } carry
  else pure { buffer with words := ws }

/-- loop of /repo/src/parse/non_power_two.rs:57-63 -/
def npChunkLoop (W radix range : Nat) : List (List Nat) → Buffer → Timed (PRes Buffer)
  | [], buffer => pure (.ok buffer)
  | group :: groups, buffer =>
    tryP (npParseWord W radix group) fun next => do
      let buffer ← npChunkStep W range next buffer
      npChunkLoop W radix range groups buffer

/-- /repo/src/parse/non_power_two.rs:50-65 `parse_chunk` -/
def npParseChunk (cfg : Cfg) (radix : Nat) (bytes : List Nat) : Timed (PRes UBig) := do
  assertR (isRadixValid radix = true ∧ ¬isRadixPow2 radix = true)
  let info ← radixInfo cfg.W radix
  assertR (bytes.length ≤ parseChunkLen * info.digitsPerWord)
  let groups := rchunks info.digitsPerWord bytes.length bytes
  let buffer ← Buffer.allocate cfg groups.length
  tryP (npChunkLoop cfg.W radix info.rangePerWord groups.reverse buffer) fun buffer =>
    okP (UBig.ofBuffer cfg buffer)

/-- loop of /repo/src/parse/non_power_two.rs:81-85 (`powers` in reverse order) -/
def npPowersLoop (cfg : Cfg) (chunkBytes len : Nat) : Nat → List UBig → Timed (List UBig)
  | 0, _ => throwT .fuel
  | fuel + 1, powers => do
    let n ← ckSub len 1
    let top ← shrW cfg.U n powers.length
    if chunkBytes ≤ top then
      match powers with
      | [] => throwT .unwrap
      | prev :: rest => do
        let new ← UBig.mul cfg .ref .ref prev prev
        npPowersLoop cfg chunkBytes len fuel (new :: prev :: rest)
    else pure powers

/-- /repo/src/parse/non_power_two.rs:93-117 `parse_large_divide_conquer` (`powers` in reverse order) -/
def npDivideConquer (cfg : Cfg) (radix chunkBytes : Nat) : List UBig → List Nat → Timed (PRes UBig)
  | [], bytes => do
    let m ← shlW cfg.U chunkBytes 0
    assertR (bytes.length ≤ m)
    npParseChunk cfg radix bytes
  | power :: powers, bytes => do
    let m ← shlW cfg.U chunkBytes (powers.length + 1)
    assertR (bytes.length ≤ m)
    let loLen ← shlW cfg.U chunkBytes powers.length
    if bytes.length ≤ loLen then npDivideConquer cfg radix chunkBytes powers bytes
    else do
      let (hi, lo) ← splitR bytes (bytes.length - loLen)
      tryP (npDivideConquer cfg radix chunkBytes powers hi) fun resHi =>
        tryP (npDivideConquer cfg radix chunkBytes powers lo) fun resLo => okP do
          let x ← UBig.mul cfg .val .ref resHi power
          UBig.add cfg .val .val x resLo

/-- /repo/src/parse/non_power_two.rs:70-88 `parse_large` -/
def npParseLarge (cfg : Cfg) (radix : Nat) (bytes : List Nat) : Timed (PRes UBig) := do
  assertR (isRadixValid radix = true ∧ ¬isRadixPow2 radix = true)
  let info ← radixInfo cfg.W radix
  let chunkBytes ← ckMul cfg.U parseChunkLen info.digitsPerWord
  assertR (chunkBytes < bytes.length)
  let power ← UBig.pow cfg (.small info.rangePerWord) parseChunkLen
  let powers ← npPowersLoop cfg chunkBytes bytes.length (bitLen bytes.length) [power]
  npDivideConquer cfg radix chunkBytes powers bytes

/-- /repo/src/parse/non_power_two.rs:17-30 `parse` -/
def npParse (cfg : Cfg) (radix : Nat) (bytes : List Nat) : Timed (PRes UBig) := do
  assertR (isRadixValid radix = true ∧ ¬isRadixPow2 radix = true)
  let info ← radixInfo cfg.W radix
  if bytes.length ≤ info.digitsPerWord then
    tryP (npParseWord cfg.W radix bytes) fun word => pure (.ok (.small word))
  else do
    let n ← ckMul cfg.U parseChunkLen info.digitsPerWord
    if bytes.length ≤ n then npParseChunk cfg radix bytes else npParseLarge cfg radix bytes

/-! ### Entry points -/

/-- /repo/src/parse/mod.rs:92-94 strip all leading `'0'` -/
def stripZeros : List Nat → Timed (List Nat)
  | [] => pure []
  | c :: src => do
    tick
    if c = 48 then stripZeros src else pure (c :: src)

/-- /repo/src/parse/mod.rs:86-101 `from_str_radix_no_sign` -/
def UBig.fromStrRadixNoSign (cfg : Cfg) (src : List Nat) (radix : Nat) : Timed (PRes UBig) := do
  assertR (isRadixValid radix = true)
  if src = [] then pure (.error .noDigits)
  else
    let s ← stripZeros src
    if isRadixPow2 radix then pow2Parse cfg radix s
    else npParse cfg radix s

/-- /repo/src/radix.rs:24-28 -/
def checkRadixValid (radix : Nat) : Timed Unit := pass 1 (Ibig.checkRadixValid radix)
/-- `src.strip_prefix(c)` for an ASCII string `c` of one or two characters -/
def stripPrefix (c src : List Nat) : Timed (Option (List Nat)) := pass 1 (.ok (Ibig.stripPrefix c src))
/-- `src.strip_prefix(c).unwrap_or(src)` -/
def stripPrefixOr (c src : List Nat) : Timed (List Nat) := pass 1 (.ok (Ibig.stripPrefixOr c src))

/-- /repo/src/parse/mod.rs:47-51 `UBig::from_str_radix` -/
def UBig.fromStrRadix (cfg : Cfg) (src : List Nat) (radix : Nat) : Timed (PRes UBig) := do
  checkRadixValid radix
  let s ← stripPrefixOr [43] src
  UBig.fromStrRadixNoSign cfg s radix

/-- /repo/src/parse/mod.rs:18-20 `UBig::from_str` -/
def UBig.fromStr (cfg : Cfg) (src : List Nat) : Timed (PRes UBig) := UBig.fromStrRadix cfg src 10

/-- /repo/src/parse/mod.rs:73-83 `from_str_with_radix_prefix_no_sign`: `"0b"`, `"0o"`, `"0x"` -/
def UBig.fromStrWithRadixPrefixNoSign (cfg : Cfg) (src : List Nat) : Timed (PRes UBig) := do
  let b ← stripPrefix [48, 98] src
  match b with
  | some bin => UBig.fromStrRadixNoSign cfg bin 2
  | none => do
    let o ← stripPrefix [48, 111] src
    match o with
    | some oct => UBig.fromStrRadixNoSign cfg oct 8
    | none => do
      let x ← stripPrefix [48, 120] src
      match x with
      | some hex => UBig.fromStrRadixNoSign cfg hex 16
      | none => UBig.fromStrRadixNoSign cfg src 10

/-- /repo/src/parse/mod.rs:67-70 `UBig::from_str_with_radix_prefix` -/
def UBig.fromStrWithRadixPrefix (cfg : Cfg) (src : List Nat) : Timed (PRes UBig) := do
  let s ← stripPrefixOr [43] src
  UBig.fromStrWithRadixPrefixNoSign cfg s

/-- /repo/src/parse/mod.rs:122-132, 151-161: sign and the rest of the string -/
def parseSign (src : List Nat) : Timed (Sign × List Nat) := pass 2 (.ok (Ibig.parseSign src))

/-- /repo/src/parse/mod.rs:120-135 `IBig::from_str_radix` -/
def IBig.fromStrRadix (cfg : Cfg) (src : List Nat) (radix : Nat) : Timed (PRes IBig) := do
  checkRadixValid radix
  let (sign, s) ← parseSign src
  tryP (UBig.fromStrRadixNoSign cfg s radix) fun mag => pure (.ok (.fromSignMagnitude sign mag))

/-- /repo/src/parse/mod.rs:26-28 `IBig::from_str` -/
def IBig.fromStr (cfg : Cfg) (src : List Nat) : Timed (PRes IBig) := IBig.fromStrRadix cfg src 10

/-- /repo/src/parse/mod.rs:150-164 `IBig::from_str_with_radix_prefix` -/
def IBig.fromStrWithRadixPrefix (cfg : Cfg) (src : List Nat) : Timed (PRes IBig) := do
  let (sign, s) ← parseSign src
  tryP (UBig.fromStrWithRadixPrefixNoSign cfg s) fun mag => pure (.ok (.fromSignMagnitude sign mag))

end Ibig.Timed
