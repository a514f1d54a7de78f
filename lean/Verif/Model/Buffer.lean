import Verif.Model.Prim
/-! Model of /repo/src/buffer.rs, and of the build parameters of /repo/src/arch/mod.rs. -/
namespace Ibig

/-- The parameters of a build: `Word::BITS`, `usize::BITS` and `UBig::MAX_LEN`; and how much more capacity
than requested the standard library gives to a vector. -/
structure Cfg where
  /-- `WORD_BITS` -/
  W : Nat
  /-- `usize::BITS` -/
  U : Nat
  /-- `UBig::MAX_LEN` -/
  maxLen : Nat
  /-- `Vec::with_capacity(n)` gives capacity `n + spare n`: "at least" `n` is documented -/
  spare : Nat → Nat

/-- /repo/src/ubig.rs:94-100 `UBig::MAX_LEN`, from the word size, the size of `usize` and
`ntt::MAX_ORDER`.  (`1usize.checked_shl(order)` is `None` iff `order ≥ usize::BITS`;
`& !1` clears the lowest bit.) -/
def maxLenOf (W U order : Nat) : Nat :=
  let nttLen := if order < U then 2 ^ order else 2 ^ U - 1
  min ((2 ^ U - 1) / W) nttLen / 2 * 2

/-- /repo/src/arch/mod.rs:15-68 and arch/generic_{16,32,64}_bit/{word,ntt}.rs:6: word sizes with the
`ntt::MAX_ORDER` that goes with each. -/
def wordSizes : List (Nat × Nat) := [(16, 12), (32, 27), (64, 57)]

/-- Sizes of `usize` that Rust supports. -/
def usizeSizes : List Nat := [16, 32, 64]

/-- `Word::BITS`, `usize::BITS` and `UBig::MAX_LEN` of all builds: any word size can be forced on any target
(`force_bits`, arch/mod.rs). -/
def buildSizes : List (Nat × Nat × Nat) :=
  wordSizes.flatMap fun (W, order) => usizeSizes.map fun U => (W, U, maxLenOf W U order)

/-- All builds, with a standard library that gives the spare capacity `spare`. -/
def builds (spare : Nat → Nat) : List Cfg := buildSizes.map fun (W, U, maxLen) => ⟨W, U, maxLen, spare⟩

/-- /repo/src/buffer.rs:18 `struct Buffer(Vec<Word>)`: contents and capacity. -/
structure Buffer where
  words : List Nat
  cap : Nat
deriving DecidableEq, Repr

/-- /repo/src/buffer.rs:155 `MAX_CAPACITY` -/
def Cfg.maxCap (cfg : Cfg) : Nat := cfg.maxLen + 4

/-- `len()` -/
def Buffer.len (b : Buffer) : Nat := b.words.length

/-- /repo/src/buffer.rs:164-167 `default_capacity`.
Simplification: sums of lengths are not checked for overflow (see `C66_lengths`). -/
def defaultCapacity (cfg : Cfg) (n : Nat) : R Nat := do
  assertR (n ≤ cfg.maxCap)
  .ok (min (n + n / 8 + 2) cfg.maxCap)

/-- /repo/src/buffer.rs:175-178 `max_compact_capacity`.
Simplification: sums of lengths are not checked for overflow (see `C66_lengths`). -/
def maxCompactCapacity (cfg : Cfg) (n : Nat) : R Nat := do
  assertR (n ≤ cfg.maxCap)
  .ok (min (n + n / 4 + 4) cfg.maxCap)

/-- `Vec::with_capacity(n)`: an empty vector with at least that capacity.
Simplification: the spare capacity is a function of `n`, and the system has memory (running out of memory
aborts the program). -/
def Buffer.withCapacity (cfg : Cfg) (n : Nat) : Buffer := ⟨[], n + cfg.spare n⟩

/-- /repo/src/buffer.rs:24-29 `allocate` -/
def Buffer.allocate (cfg : Cfg) (n : Nat) : R Buffer :=
  if cfg.maxCap < n then .error .tooLarge
  else do
    let c ← defaultCapacity cfg n
    .ok (Buffer.withCapacity cfg c)

/-- /repo/src/buffer.rs:191-194 `clone_from` -/
def Buffer.cloneFrom (self source : Buffer) : R Buffer := do
  assertR (source.len ≤ self.cap)
  .ok ⟨source.words, self.cap⟩

/-- /repo/src/buffer.rs:183-187 `clone` -/
def Buffer.clone (cfg : Cfg) (self : Buffer) : R Buffer := do
  let b ← Buffer.allocate cfg self.len
  b.cloneFrom self

/-- /repo/src/buffer.rs:53-58 `reallocate` -/
def Buffer.reallocate (cfg : Cfg) (self : Buffer) (n : Nat) : R Buffer := do
  assertR (self.len ≤ n)
  let b ← Buffer.allocate cfg n
  b.cloneFrom self

/-- /repo/src/buffer.rs:34-38 `ensure_capacity` -/
def Buffer.ensureCapacity (cfg : Cfg) (self : Buffer) (n : Nat) : R Buffer :=
  if self.cap < n then self.reallocate cfg n else .ok self

/-- /repo/src/buffer.rs:42-46 `shrink` -/
def Buffer.shrink (cfg : Cfg) (self : Buffer) : R Buffer := do
  let c ← maxCompactCapacity cfg self.len
  if c < self.cap then self.reallocate cfg self.len else .ok self

/-- /repo/src/buffer.rs:72-75 `push` -/
def Buffer.push (self : Buffer) (w : Nat) : R Buffer := do
  assertR (self.len < self.cap)
  .ok { self with words := self.words ++ [w] }

/-- /repo/src/buffer.rs:79-82 `push_may_reallocate`.
Simplification: sums of lengths are not checked for overflow (see `C66_lengths`). -/
def Buffer.pushMayReallocate (cfg : Cfg) (self : Buffer) (w : Nat) : R Buffer := do
  let b ← self.ensureCapacity cfg (self.len + 1)
  b.push w

/-- /repo/src/buffer.rs:89-92 `push_zeros` -/
def Buffer.pushZeros (self : Buffer) (n : Nat) : R Buffer := do
  let room ← ckSub self.cap self.len
  assertR (n ≤ room)
  .ok { self with words := self.words ++ List.replicate n 0 }

/-- /repo/src/buffer.rs:99-102 `push_zeros_front` -/
def Buffer.pushZerosFront (self : Buffer) (n : Nat) : R Buffer := do
  let room ← ckSub self.cap self.len
  assertR (n ≤ room)
  .ok { self with words := List.replicate n 0 ++ self.words }

/-- /repo/src/buffer.rs:112-116 `pop_leading_zeros` -/
def Buffer.popLeadingZeros (self : Buffer) : Buffer :=
  { self with words := (self.words.reverse.dropWhile (fun w => w == 0)).reverse }

/-- /repo/src/buffer.rs:120-124 `truncate` -/
def Buffer.truncate (self : Buffer) (n : Nat) : R Buffer := do
  assertR (n ≤ self.len)
  .ok { self with words := self.words.take n }

/-- /repo/src/buffer.rs:127-131 `erase_front` -/
def Buffer.eraseFront (self : Buffer) (n : Nat) : R Buffer := do
  assertR (n ≤ self.len)
  .ok { self with words := self.words.drop n }

/-- /repo/src/buffer.rs:142-150 `resizing_clone_from` (`&&` does not evaluate
`max_compact_capacity` when the first condition is false) -/
def Buffer.resizingCloneFrom (cfg : Cfg) (self source : Buffer) : R Buffer := do
  if source.len ≤ self.cap then
    let c ← maxCompactCapacity cfg source.len
    if self.cap ≤ c then self.cloneFrom source else source.clone cfg
  else source.clone cfg

/-- /repo/src/buffer.rs:213-233 `Extend` -/
def Buffer.extend : Buffer → List Nat → R Buffer
  | self, [] => .ok self
  | self, w :: ws => do
    let b ← self.push w
    b.extend ws

/-- /repo/src/memory.rs:24-40 `MemoryAllocation::new` for `n` words (with 54-64 `array_layout`):
panics if the size in bytes exceeds `isize::MAX`.  Result: number of words available. -/
def allocMemory (cfg : Cfg) (n : Nat) : R Nat :=
  if n * (cfg.W / 8) ≤ 2 ^ (cfg.U - 1) - 1 then .ok n else .error .outOfMemory

end Ibig
