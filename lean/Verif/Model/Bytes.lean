import Verif.Model.UBig
import Verif.Model.FastDivide
/-! Model of the byte conversions in /repo/src/convert.rs and primitive.rs. Bytes are naturals `< 256`. -/
namespace Ibig

/-- `from_le_bytes` of a primitive: little-endian digits in base 256 -/
def leBytesVal : List Nat → Nat
  | [] => 0
  | b :: bs => b + 256 * leBytesVal bs

/-- `to_le_bytes` of a primitive with `n` bytes -/
def toLeBytesN : Nat → Nat → List Nat
  | 0, _ => []
  | n + 1, x => x % 256 :: toLeBytesN n (x / 256)

/-- /repo/src/primitive.rs:151-155 `word_from_le_bytes_partial` (panics if too many bytes) -/
def wordFromLeBytesPartial (cfg : Cfg) (bytes : List Nat) : R Nat :=
  if bytes.length ≤ cfg.W / 8 then
    .ok (leBytesVal (bytes ++ List.replicate (cfg.W / 8 - bytes.length) 0))
  else .error .index

/-- /repo/src/primitive.rs:158-162 `word_from_be_bytes_partial`;
`Word::from_be_bytes` reads the reversed bytes little-endian. -/
def wordFromBeBytesPartial (cfg : Cfg) (bytes : List Nat) : R Nat :=
  if bytes.length ≤ cfg.W / 8 then
    .ok (leBytesVal (List.replicate (cfg.W / 8 - bytes.length) 0 ++ bytes).reverse)
  else .error .index

/-- Loop of /repo/src/convert.rs:52-58 (`chunks_exact` then `remainder`).  The first number bounds the
recursion (`bytes.len()` suffices). -/
def pushLeChunks (cfg : Cfg) : Nat → List Nat → Buffer → R Buffer
  | 0, _, _ => .error .fuel
  | fuel + 1, bytes, buffer =>
    if cfg.W / 8 ≤ bytes.length then do
      let buffer ← buffer.push (leBytesVal (bytes.take (cfg.W / 8)))
      pushLeChunks cfg fuel (bytes.drop (cfg.W / 8)) buffer
    else if bytes = [] then .ok buffer
    else do
      let w ← wordFromLeBytesPartial cfg bytes
      buffer.push w

/-- /repo/src/convert.rs:49-60 `from_le_bytes_large`.
Simplification: a sum is not checked for overflow (see `C66_indices`). -/
def UBig.fromLeBytesLarge (cfg : Cfg) (bytes : List Nat) : R UBig := do
  assertR (cfg.W / 8 < bytes.length)
  let buffer ← Buffer.allocate cfg ((bytes.length - 1) / (cfg.W / 8) + 1)
  let buffer ← pushLeChunks cfg (bytes.length + 1) bytes buffer
  UBig.ofBuffer cfg buffer

/-- /repo/src/convert.rs:40-47 `from_le_bytes` -/
def UBig.fromLeBytes (cfg : Cfg) (bytes : List Nat) : R UBig :=
  if bytes.length ≤ cfg.W / 8 then do
    let w ← wordFromLeBytesPartial cfg bytes
    .ok (.small w)
  else UBig.fromLeBytesLarge cfg bytes

/-- Loop of /repo/src/convert.rs:83-89 (`rchunks_exact`: chunks from the end of the slice, then the
remaining front part). -/
def pushBeChunks (cfg : Cfg) : Nat → List Nat → Buffer → R Buffer
  | 0, _, _ => .error .fuel
  | fuel + 1, bytes, buffer =>
    if cfg.W / 8 ≤ bytes.length then do
      let buffer ← buffer.push (leBytesVal (bytes.drop (bytes.length - cfg.W / 8)).reverse)
      pushBeChunks cfg fuel (bytes.take (bytes.length - cfg.W / 8)) buffer
    else if bytes = [] then .ok buffer
    else do
      let w ← wordFromBeBytesPartial cfg bytes
      buffer.push w

/-- /repo/src/convert.rs:80-91 `from_be_bytes_large`.
Simplification: a sum is not checked for overflow (see `C66_indices`). -/
def UBig.fromBeBytesLarge (cfg : Cfg) (bytes : List Nat) : R UBig := do
  assertR (cfg.W / 8 < bytes.length)
  let buffer ← Buffer.allocate cfg ((bytes.length - 1) / (cfg.W / 8) + 1)
  let buffer ← pushBeChunks cfg (bytes.length + 1) bytes buffer
  UBig.ofBuffer cfg buffer

/-- /repo/src/convert.rs:71-78 `from_be_bytes` -/
def UBig.fromBeBytes (cfg : Cfg) (bytes : List Nat) : R UBig :=
  if bytes.length ≤ cfg.W / 8 then do
    let w ← wordFromBeBytesPartial cfg bytes
    .ok (.small w)
  else UBig.fromBeBytesLarge cfg bytes

/-- /repo/src/convert.rs:113, 144: `Vec::with_capacity(n * WORD_BYTES - skip_last_bytes)` for bytes; it panics for
more than `isize::MAX` bytes -/
def byteVec (cfg : Cfg) (n skip : Nat) : R Unit := do
  let k ← ckMul cfg.U n (cfg.W / 8)
  let k ← ckSub k skip
  if k ≤ 2 ^ (cfg.U - 1) - 1 then .ok () else .error .outOfMemory

/-- /repo/src/convert.rs:102-122 `to_le_bytes` -/
def UBig.toLeBytes (cfg : Cfg) : UBig → R (List Nat)
  | .small x => do
    let bytes := toLeBytesN (cfg.W / 8) x
    let n ← ckSub (cfg.W / 8) (leadingZeros cfg.W x / 8)
    sliceR bytes 0 n
  | .large buffer => do
    let n := buffer.len
    let last ← getR buffer.words (n - 1)
    let skip := leadingZeros cfg.W last / 8
    byteVec cfg n skip
    let rest ← sliceR buffer.words 0 (n - 1)
    let k ← ckSub (cfg.W / 8) skip
    let lastBytes ← sliceR (toLeBytesN (cfg.W / 8) last) 0 k
    .ok (rest.flatMap (toLeBytesN (cfg.W / 8)) ++ lastBytes)

/-- /repo/src/convert.rs:133-153 `to_be_bytes` -/
def UBig.toBeBytes (cfg : Cfg) : UBig → R (List Nat)
  | .small x => do
    let bytes := (toLeBytesN (cfg.W / 8) x).reverse
    sliceR bytes (leadingZeros cfg.W x / 8) bytes.length
  | .large buffer => do
    let n := buffer.len
    let last ← getR buffer.words (n - 1)
    let skip := leadingZeros cfg.W last / 8
    byteVec cfg n skip
    let bytes := (toLeBytesN (cfg.W / 8) last).reverse
    let lastBytes ← sliceR bytes skip bytes.length
    let rest ← sliceR buffer.words 0 (n - 1)
    .ok (lastBytes ++ rest.reverse.flatMap (fun w => (toLeBytesN (cfg.W / 8) w).reverse))

/-- /repo/src/convert.rs:506-517 `from_unsigned` for a primitive with `bits` bits -/
def UBig.fromUnsigned (cfg : Cfg) (bits x : Nat) : R UBig :=
  if x < base cfg.W then .ok (.small x)
  else UBig.fromLeBytes cfg (toLeBytesN (bits / 8) x)

end Ibig
