import Verif.Model.ShiftOpsTime
import Verif.Model.BitsTime
import Verif.Model.GcdTime
import Verif.Model.PowTime
import Verif.Model.FmtTime
import Verif.Model.Float
/-!
Conversions and functions for single bits with the number of their steps: the text of Model/Bytes.lean, Model/Convert.lean,
Model/Float.lean and Model/Bits.lean with counting functions.  Reading or writing the bytes of one word is one
step.  `Timed.UBig.setBit` is in Model/PowTime.lean.
-/
namespace Ibig.Timed

/-! Bytes -/

/-- /repo/src/primitive.rs:151-155 `word_from_le_bytes_partial` -/
def wordFromLeBytesPartial (cfg : Cfg) (bytes : List Nat) : Timed Nat := pass 1 (Ibig.wordFromLeBytesPartial cfg bytes)
/-- /repo/src/primitive.rs:158-162 `word_from_be_bytes_partial` -/
def wordFromBeBytesPartial (cfg : Cfg) (bytes : List Nat) : Timed Nat := pass 1 (Ibig.wordFromBeBytesPartial cfg bytes)

/-- Loop of /repo/src/convert.rs:52-58 -/
def pushLeChunks (cfg : Cfg) : Nat → List Nat → Buffer → Timed Buffer
  | 0, _, _ => throwT .fuel
  | fuel + 1, bytes, buffer => do
    tick
    if cfg.W / 8 ≤ bytes.length then
      let buffer ← Buffer.push buffer (leBytesVal (bytes.take (cfg.W / 8)))
      pushLeChunks cfg fuel (bytes.drop (cfg.W / 8)) buffer
    else if bytes = [] then pure buffer
    else
      let w ← wordFromLeBytesPartial cfg bytes
      Buffer.push buffer w

/-- /repo/src/convert.rs:49-60 `from_le_bytes_large` -/
def UBig.fromLeBytesLarge (cfg : Cfg) (bytes : List Nat) : Timed UBig := do
  assertR (cfg.W / 8 < bytes.length)
  let buffer ← Buffer.allocate cfg ((bytes.length - 1) / (cfg.W / 8) + 1)
  let buffer ← pushLeChunks cfg (bytes.length + 1) bytes buffer
  UBig.ofBuffer cfg buffer

/-- /repo/src/convert.rs:40-47 `from_le_bytes` -/
def UBig.fromLeBytes (cfg : Cfg) (bytes : List Nat) : Timed UBig :=
  if bytes.length ≤ cfg.W / 8 then do
    let w ← wordFromLeBytesPartial cfg bytes
    pure (.small w)
  else UBig.fromLeBytesLarge cfg bytes

/-- Loop of /repo/src/convert.rs:83-89 -/
def pushBeChunks (cfg : Cfg) : Nat → List Nat → Buffer → Timed Buffer
  | 0, _, _ => throwT .fuel
  | fuel + 1, bytes, buffer => do
    tick
    if cfg.W / 8 ≤ bytes.length then
      let buffer ← Buffer.push buffer (leBytesVal (bytes.drop (bytes.length - cfg.W / 8)).reverse)
      pushBeChunks cfg fuel (bytes.take (bytes.length - cfg.W / 8)) buffer
    else if bytes = [] then pure buffer
    else
      let w ← wordFromBeBytesPartial cfg bytes
      Buffer.push buffer w

/-- /repo/src/convert.rs:80-91 `from_be_bytes_large` -/
def UBig.fromBeBytesLarge (cfg : Cfg) (bytes : List Nat) : Timed UBig := do
  assertR (cfg.W / 8 < bytes.length)
  let buffer ← Buffer.allocate cfg ((bytes.length - 1) / (cfg.W / 8) + 1)
  let buffer ← pushBeChunks cfg (bytes.length + 1) bytes buffer
  UBig.ofBuffer cfg buffer

/-- /repo/src/convert.rs:71-78 `from_be_bytes` -/
def UBig.fromBeBytes (cfg : Cfg) (bytes : List Nat) : Timed UBig :=
  if bytes.length ≤ cfg.W / 8 then do
    let w ← wordFromBeBytesPartial cfg bytes
    pure (.small w)
  else UBig.fromBeBytesLarge cfg bytes

/-- /repo/src/convert.rs:113, 144: `Vec::with_capacity` -/
def byteVec (cfg : Cfg) (n skip : Nat) : Timed Unit := pass 1 (Ibig.byteVec cfg n skip)

/-- `for word in words { bytes.extend_from_slice(&f(word)) }` (/repo/src/convert.rs:115-117, 149-151) -/
def bytesLoop (f : Nat → List Nat) : List Nat → Timed (List Nat)
  | [] => pure []
  | w :: ws => do
    tick
    let bs ← bytesLoop f ws
    pure (f w ++ bs)

/-- /repo/src/convert.rs:102-122 `to_le_bytes` -/
def UBig.toLeBytes (cfg : Cfg) : UBig → Timed (List Nat)
  | .small x => do
    let bytes := toLeBytesN (cfg.W / 8) x
    let n ← ckSub (cfg.W / 8) (leadingZeros cfg.W x / 8)
    sliceR bytes 0 n
  | .large buffer => do
    let n := buffer.len
    let last ← getR buffer.words (n - 1)
    let skip := leadingZeros cfg.W last / 8
    byteVec cfg n skip
    let rest ← sliceR buffer.words 0 (n - 1)
    let k ← ckSub (cfg.W / 8) skip
    let lastBytes ← sliceR (toLeBytesN (cfg.W / 8) last) 0 k
    let bytes ← bytesLoop (toLeBytesN (cfg.W / 8)) rest
    pure (bytes ++ lastBytes)

/-- /repo/src/convert.rs:133-153 `to_be_bytes` -/
def UBig.toBeBytes (cfg : Cfg) : UBig → Timed (List Nat)
  | .small x => do
    let bytes := (toLeBytesN (cfg.W / 8) x).reverse
    sliceR bytes (leadingZeros cfg.W x / 8) bytes.length
  | .large buffer => do
    let n := buffer.len
    let last ← getR buffer.words (n - 1)
    let skip := leadingZeros cfg.W last / 8
    byteVec cfg n skip
    let bytes := (toLeBytesN (cfg.W / 8) last).reverse
    let lastBytes ← sliceR bytes skip bytes.length
    let rest ← sliceR buffer.words 0 (n - 1)
    let bytes ← bytesLoop (fun w => (toLeBytesN (cfg.W / 8) w).reverse) rest.reverse
    pure (lastBytes ++ bytes)

/-! Primitive integers -/

/-- /repo/src/convert.rs:506-517 `from_unsigned` -/
def UBig.fromUnsignedLoop (cfg : Cfg) (bits x : Nat) : Timed UBig :=
  if x < base cfg.W then pure (.small x)
  else UBig.fromLeBytes cfg (toLeBytesN (bits / 8) x)

/-- /repo/src/convert.rs:576-597 `unsigned_from_words` -/
def unsignedFromWords (cfg : Cfg) (bits : Nat) (words : List Nat) : Timed (Option Nat) := do
  assertR (2 ≤ words.length)
  let tWords := bits / 8 / (cfg.W / 8)
  if tWords ≤ 1 ∨ tWords < words.length then pure none
  else
    assertR (bits % cfg.W = 0)
    let bytes ← bytesLoop (toLeBytesN (cfg.W / 8)) words
    if bytes.length ≤ bits / 8 then
      pure (some (leBytesVal (bytes ++ List.replicate (bits / 8 - bytes.length) 0)))
    else throwT .index

/-- /repo/src/convert.rs:533-544 `try_to_unsigned` -/
def UBig.tryToUnsignedLoop (cfg : Cfg) (bits : Nat) : UBig → Timed (Option Nat)
  | .small w => pure (if w < 2 ^ bits then some w else none)
  | .large b => unsignedFromWords cfg bits b.words

/-- /repo/src/convert.rs:548-559 `try_to_signed` -/
def UBig.tryToSignedLoop (cfg : Cfg) (bits : Nat) : UBig → Timed (Option Int)
  | .small w => pure (if w < 2 ^ (bits - 1) then some (w : Int) else none)
  | .large b => do
    let u ← unsignedFromWords cfg bits b.words
    match u with
    | none => pure none
    | some u => pure (if u < 2 ^ (bits - 1) then some (u : Int) else none)

/-- /repo/src/convert.rs:305-312, 348-357 `From<$t> for UBig`, `TryFrom<$t> for UBig`; 521-529 `try_from_signed` -/
def UBig.tryFromPrim (cfg : Cfg) : PTy → Int → Timed (Option UBig)
  | .u b, z => do
    let u ← UBig.fromUnsignedLoop cfg b z.toNat
    pure (some u)
  | .i b, z =>
    if 0 ≤ z then do
      let u ← UBig.fromUnsignedLoop cfg b z.toNat
      pure (some u)
    else pure none

/-- /repo/src/convert.rs:314-330, 359-375 `TryFrom<UBig> for $t`, `TryFrom<&UBig> for $t` -/
def UBig.tryToPrim (cfg : Cfg) (x : UBig) : PTy → Timed (Option Int)
  | .u b => do
    let u ← UBig.tryToUnsignedLoop cfg b x
    pure (u.map Int.ofNat)
  | .i b => UBig.tryToSignedLoop cfg b x

/-- /repo/src/convert.rs:602-611 `IBig::from_unsigned`, `IBig::from_signed`; 386-463 `From<$t> for IBig` -/
def IBig.fromPrim (cfg : Cfg) : PTy → Int → Timed IBig
  | .u b, z => do
    let u ← UBig.fromUnsignedLoop cfg b z.toNat
    pure (.ofUBig u)
  | .i b, z => do
    let (sign, mag) := toSignMagnitude b z
    let u ← UBig.fromUnsignedLoop cfg b mag
    pure (.fromSignMagnitude sign u)

/-- /repo/src/convert.rs:615-627 `IBig::try_to_unsigned`, `IBig::try_to_signed`; 395-411, 438-454 -/
def IBig.tryToPrim (cfg : Cfg) (x : IBig) : PTy → Timed (Option Int)
  | .u b =>
    match x.sign with
    | .pos => do
      let u ← UBig.tryToUnsignedLoop cfg b x.mag
      pure (u.map Int.ofNat)
    | .neg => pure none
  | .i b => do
    let u ← UBig.tryToUnsignedLoop cfg b x.mag
    match u with
    | none => pure none
    | some u => pure (tryFromSignMagnitude b x.sign u)

/-! Floats -/

/-- /repo/src/bits.rs:178-185 `bit_len` -/
def UBig.bitLenT (cfg : Cfg) : UBig → Timed Nat
  | .small w => pure (Ibig.bitLen w)
  | .large b => do
    let n ← ckMul cfg.U b.len cfg.W
    let l ← lastR b.words
    ckSub n (leadingZeros cfg.W l)

/-- /repo/src/convert.rs:176-204, 227-255 `to_f32_slow`, `to_f64_slow` -/
def UBig.toFloatSlow (cfg : Cfg) (c : FloatCode) (x : UBig) : Timed Nat := do
  let n ← UBig.bitLenT cfg x
  assertR (n > c.lo)
  if n > c.maxLen then pure c.inf
  else
    let exponent := n - 1
    assertR (c.lo ≤ exponent ∧ exponent < c.maxLen)
    let s ← ckSub n c.extra
    let sh ← UBig.shr cfg .ref x s
    let u ← UBig.tryToUnsignedLoop cfg c.prim sh
    let mantissa25 ← unwrapR u
    let mantissa := mantissa25 >>> 1
    let e ← ckAdd c.prim exponent c.expAdd
    let value ← ckAdd c.prim ((e <<< c.mant) % 2 ^ c.prim) mantissa
    let extraBit ← UBig.areLowBitsNonzero cfg x s
    let lowBits := ((mantissa25 &&& 3) <<< 1) ||| extraBit.toNat
    let adjustment := roundToEvenAdjustment lowBits
    ckAdd c.prim value adjustment.toNat

/-- /repo/src/convert.rs:165-174, 216-225 `UBig::to_f32`, `UBig::to_f64` -/
def UBig.toFloat (cfg : Cfg) (c : FloatCode) (f : FloatFmt) (x : UBig) : Timed Nat :=
  match x with
  | .small word => pure (castFloat f word)
  | .large _ => do
    let u ← UBig.tryToUnsignedLoop cfg c.prim x
    match u with
    | some val => pure (castFloat f val)
    | none => UBig.toFloatSlow cfg c x

/-- /repo/src/convert.rs:269-276, 288-295 `IBig::to_f32`, `IBig::to_f64` -/
def IBig.toFloat (cfg : Cfg) (c : FloatCode) (f : FloatFmt) (x : IBig) : Timed Nat := do
  let val ← UBig.toFloat cfg c f x.mag
  match x.sign with
  | .pos => pure val
  | .neg => pure (val ^^^ f.signBit)

/-! Bits -/

/-- /repo/src/bits.rs:31-39 `bit` -/
def UBig.bit (cfg : Cfg) (x : UBig) (n : Nat) : Timed Bool :=
  match x with
  | .small word => pure (decide (n < cfg.W) && decide (word &&& 2 ^ (n % cfg.W) ≠ 0))
  | .large buffer =>
    let idx := n / cfg.W
    if idx < buffer.len then do
      let w ← getR buffer.words idx
      pure (decide (w &&& 2 ^ (n % cfg.W) ≠ 0))
    else pure false

/-- /repo/src/bits.rs:111-117 `without_bit_large` -/
def UBig.withoutBitLarge (cfg : Cfg) (buffer : Buffer) (n : Nat) : Timed UBig := do
  let idx := n / cfg.W
  if idx < buffer.len then
    let w ← getR buffer.words idx
    let ws ← setR buffer.words idx (w &&& wordNot cfg.W (2 ^ (n % cfg.W)))
    UBig.ofBuffer cfg { buffer with words := ws }
  else UBig.ofBuffer cfg buffer

/-- /repo/src/bits.rs:100-109 `clear_bit` -/
def UBig.clearBit (cfg : Cfg) (x : UBig) (n : Nat) : Timed UBig :=
  match x with
  | .small word =>
    if n < cfg.W then pure (.small (word &&& wordNot cfg.W (2 ^ (n % cfg.W)))) else pure UBig.default
  | .large buffer => UBig.withoutBitLarge cfg buffer n

/-- `words.iter().all(|x| *x == 0)` (/repo/src/bits.rs:208) -/
def allZero : List Nat → Timed Bool
  | [] => pure true
  | w :: ws => do
    tick
    if w == 0 then allZero ws else pure false

/-- /repo/src/bits.rs:205-209 `is_power_of_two_large` -/
def UBig.isPowerOfTwoLarge (words : List Nat) : Timed Bool := do
  let l ← lastR words
  assertR (l ≠ 0)
  let low ← sliceR words 0 (words.length - 1)
  let z ← allZero low
  pure (z && wordIsPow2 l)

/-- /repo/src/bits.rs:198-203 `is_power_of_two` -/
def UBig.isPowerOfTwo : UBig → Timed Bool
  | .small w => pure (wordIsPow2 w)
  | .large b => UBig.isPowerOfTwoLarge b.words

/-- the iterator of /repo/src/bits.rs:263-274: skips zeros, and writes zeros over all that follows; result: the words
and whether there was a word that is not zero -/
def clearLoop : Bool → List Nat → Timed (List Nat × Bool)
  | seen, [] => pure ([], seen)
  | seen, w :: ws => do
    tick
    let (r, s) ← clearLoop (seen || w != 0) ws
    pure ((if (seen || w != 0) then 0 else w) :: r, s)

/-- /repo/src/bits.rs:259-290 `next_power_of_two_large` -/
def UBig.nextPowerOfTwoLarge (cfg : Cfg) (buffer : Buffer) : Timed UBig := do
  let l ← lastR buffer.words
  assertR (l ≠ 0)
  let n := buffer.len
  let low ← sliceR buffer.words 0 (n - 1)
  let (low, seen) ← clearLoop false low
  let carry := if seen then 1 else 0
  match wordNextPow2Carry cfg.W l carry with
  | some p => UBig.ofBuffer cfg { buffer with words := low ++ [p] }
  | none =>
    let buffer ← Buffer.ensureCapacity cfg { buffer with words := low ++ [0] } (n + 1)
    let buffer ← Buffer.push buffer 1
    UBig.ofBuffer cfg buffer

/-- /repo/src/bits.rs:238-246 `next_power_of_two` for `UBig` -/
def UBig.nextPowerOfTwoV (cfg : Cfg) : UBig → Timed UBig
  | .small w =>
    match wordNextPow2 cfg.W w with
    | some p => pure (.small p)
    | none => UBig.fromUnsignedLoop cfg (2 * cfg.W) (doubleWord cfg.W 0 1)
  | .large b => UBig.nextPowerOfTwoLarge cfg b

/-- /repo/src/bits.rs:234-256 `NextPowerOfTwo for UBig`, `NextPowerOfTwo for &UBig` -/
def UBig.nextPowerOfTwo (cfg : Cfg) (o : Own) (x : UBig) : Timed UBig :=
  match o with
  | .val => UBig.nextPowerOfTwoV cfg x
  | .ref => do
    let x ← UBig.clone cfg x
    UBig.nextPowerOfTwoV cfg x

end Ibig.Timed
