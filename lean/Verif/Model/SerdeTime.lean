import Verif.Model.ConvertTime
import Verif.Model.Serde
/-!
Serialisation with the number of its steps: the text of Model/Serde.lean with counting functions.  Passing one element
to the data format, or taking one from it, is one step: the time of the format itself is not counted.
-/
namespace Ibig.Timed

/-- /repo/src/serde.rs:19-22: the `u64` made of the words of a chunk; `i` is the index of the first -/
def joinWords (W : Nat) : Nat → List Nat → Nat → Timed Nat
  | _, [], acc => pure acc
  | i, w :: ws, acc => do
    tick
    let x ← shlW 64 w (i * W)
    joinWords W (i + 1) ws (acc ||| x)

/-- loop of /repo/src/serde.rs:18-24 -/
def joinChunks (W : Nat) : List (List Nat) → Timed (List Nat)
  | [] => pure []
  | c :: cs => do
    tick
    let x ← joinWords W 0 c 0
    let xs ← joinChunks W cs
    pure (x :: xs)

/-- /repo/src/serde.rs:13-27 `Serialize for UBig`; one step for announcing the length -/
def UBig.serialize (cfg : Cfg) (x : UBig) : Timed (Nat × List Nat) := do
  let ws := x.asWords
  let chunks := chunksFuel (wordsPerU64 cfg.W) ws.length ws
  tick
  let elems ← joinChunks cfg.W chunks
  pure (chunks.length, elems)

/-- /repo/src/serde.rs:79-83 `push_word_64`: the words with indices `i, …, i+k-1` -/
def pushWord64 (W : Nat) (word64 : Nat) : Nat → Nat → Buffer → Timed Buffer
  | _, 0, b => pure b
  | i, k + 1, b => do
    tick
    let x ← shrW 64 word64 (i * W)
    let b ← Buffer.push b (x % base W)
    pushWord64 W word64 (i + 1) k b

/-- loop of /repo/src/serde.rs:70-72; two steps for an element, because it has been put into a `Vec` before
(/repo/src/serde.rs:65-68) -/
def pushAll64 (W : Nat) : List Nat → Buffer → Timed Buffer
  | [], b => pure b
  | x :: xs, b => do
    tick
    tick
    let b ← pushWord64 W x 0 (wordsPerU64 W) b
    pushAll64 W xs b

/-- loop of /repo/src/serde.rs:57-60 -/
def takeAll64 (W : Nat) : Nat → List Nat → Buffer → Timed (Buffer × List Nat)
  | 0, es, b => pure (b, es)
  | _ + 1, [], _ => throwT .unwrap
  | n + 1, x :: xs, b => do
    tick
    let b ← pushWord64 W x 0 (wordsPerU64 W) b
    takeAll64 W n xs b

/-- /repo/src/serde.rs:86-93 `len_64_to_max_len` -/
def len64ToMaxLen (cfg : Cfg) (n : Nat) : Timed Nat := pass 1 (Ibig.len64ToMaxLen cfg n)

/-- /repo/src/serde.rs:44-76 `visit_seq`; `hint` is the result of `size_hint` -/
def UBig.deserialize (cfg : Cfg) (hint : Option Nat) (es : List Nat) : Timed UBig :=
  match hint with
  | some 0 => do
    assertR (es = [])
    pure (.small 0)
  | some 1 =>
    match es with
    | [] => throwT .unwrap
    | x :: xs => do
      tick
      assertR (xs = [])
      UBig.fromUnsigned cfg 64 x
  | some n => do
    let m ← len64ToMaxLen cfg n
    let b ← Buffer.allocate cfg m
    let (b, rest) ← takeAll64 cfg.W n es b
    assertR (rest = [])
    UBig.ofBuffer cfg b
  | none => do
    let m ← len64ToMaxLen cfg es.length
    let b ← Buffer.allocate cfg m
    let b ← pushAll64 cfg.W es b
    UBig.ofBuffer cfg b

/-- /repo/src/serde.rs:95-99 `Serialize for IBig`; one step for the sign -/
def IBig.serialize (cfg : Cfg) (x : IBig) : Timed (Sign × Nat × List Nat) := do
  tick
  let m ← UBig.serialize cfg x.mag
  pure (x.sign, m.1, m.2)

/-- /repo/src/serde.rs:101-106 `Deserialize for IBig`; one step for the sign -/
def IBig.deserialize (cfg : Cfg) (s : Sign) (hint : Option Nat) (es : List Nat) : Timed IBig := do
  tick
  let m ← UBig.deserialize cfg hint es
  pure (IBig.fromSignMagnitude s m)

end Ibig.Timed
