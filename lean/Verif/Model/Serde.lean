import Verif.Model.Bytes
import Verif.Model.Parse
/-!
Model of /repo/src/serde.rs.

A serialised sequence is the announced length (`serialize_seq(Some(len))`) and the list of the `u64`
elements passed to `serialize_element`.  A sequence being deserialised is the answer of
`SeqAccess::size_hint` and the list of the elements that `next_element` yields before `None`.  Not modelled:
errors raised by the data format itself (`?` passes them on unchanged), and the exhaustion of memory by the
temporary `Vec<u64>` of the unannounced case.
-/
namespace Ibig

/-- /repo/src/serde.rs:11 `WORDS_PER_U64` -/
def wordsPerU64 (W : Nat) : Nat := 64 / W

/-- `<[T]>::chunks(n)` (fuel: the length) -/
def chunksFuel (n : Nat) : Nat → List Nat → List (List Nat)
  | 0, _ => []
  | _ + 1, [] => []
  | fuel + 1, l => l.take n :: chunksFuel n fuel (l.drop n)

/-- /repo/src/serde.rs:19-22: the `u64` made of the words of a chunk; `i` is the index of the first -/
def joinWords (W : Nat) : Nat → List Nat → Nat → R Nat
  | _, [], acc => .ok acc
  | i, w :: ws, acc => do
    let x ← shlW 64 w (i * W)
    joinWords W (i + 1) ws (acc ||| x)

/-- loop of /repo/src/serde.rs:18-24 -/
def joinChunks (W : Nat) : List (List Nat) → R (List Nat)
  | [] => .ok []
  | c :: cs => do
    let x ← joinWords W 0 c 0
    let xs ← joinChunks W cs
    .ok (x :: xs)

/-- /repo/src/serde.rs:13-27 `Serialize for UBig`: announced length and elements -/
def UBig.serialize (cfg : Cfg) (x : UBig) : R (Nat × List Nat) := do
  let ws := x.asWords
  let chunks := chunksFuel (wordsPerU64 cfg.W) ws.length ws
  let elems ← joinChunks cfg.W chunks
  .ok (chunks.length, elems)

/-- /repo/src/serde.rs:79-83 `push_word_64`: the words with indices `i, …, i+k-1` -/
def pushWord64 (W : Nat) (word64 : Nat) : Nat → Nat → Buffer → R Buffer
  | _, 0, b => .ok b
  | i, k + 1, b => do
    let x ← shrW 64 word64 (i * W)
    let b ← b.push (x % base W)
    pushWord64 W word64 (i + 1) k b

/-- loop of /repo/src/serde.rs:70-72 -/
def pushAll64 (W : Nat) : List Nat → Buffer → R Buffer
  | [], b => .ok b
  | x :: xs, b => do
    let b ← pushWord64 W x 0 (wordsPerU64 W) b
    pushAll64 W xs b

/-- loop of /repo/src/serde.rs:57-60: `n` elements are taken from the sequence; result: the buffer and
the elements left -/
def takeAll64 (W : Nat) : Nat → List Nat → Buffer → R (Buffer × List Nat)
  | 0, es, b => .ok (b, es)
  | _ + 1, [], _ => .error .unwrap
  | n + 1, x :: xs, b => do
    let b ← pushWord64 W x 0 (wordsPerU64 W) b
    takeAll64 W n xs b

/-- /repo/src/serde.rs:86-93 `len_64_to_max_len` -/
def len64ToMaxLen (cfg : Cfg) (n : Nat) : R Nat :=
  if n * wordsPerU64 cfg.W < 2 ^ cfg.U then .ok (n * wordsPerU64 cfg.W) else .error .tooLarge

/-- /repo/src/serde.rs:44-76 `visit_seq`; `hint` is the result of `size_hint` -/
def UBig.deserialize (cfg : Cfg) (hint : Option Nat) (es : List Nat) : R UBig :=
  match hint with
  | some 0 => do
    assertR (es = [])
    .ok (.small 0)
  | some 1 =>
    match es with
    | [] => .error .unwrap
    | x :: xs => do
      assertR (xs = [])
      UBig.fromUnsigned cfg 64 x
  | some n => do
    let m ← len64ToMaxLen cfg n
    let b ← Buffer.allocate cfg m
    let (b, rest) ← takeAll64 cfg.W n es b
    assertR (rest = [])
    UBig.ofBuffer cfg b
  | none => do
    let m ← len64ToMaxLen cfg es.length
    let b ← Buffer.allocate cfg m
    let b ← pushAll64 cfg.W es b
    UBig.ofBuffer cfg b

/-- /repo/src/serde.rs:95-99 `Serialize for IBig`: the pair of the sign (an enum, see sign.rs:11-16) and
the magnitude -/
def IBig.serialize (cfg : Cfg) (x : IBig) : R (Sign × Nat × List Nat) := do
  let m ← x.mag.serialize cfg
  .ok (x.sign, m.1, m.2)

/-- /repo/src/serde.rs:101-106 `Deserialize for IBig` -/
def IBig.deserialize (cfg : Cfg) (s : Sign) (hint : Option Nat) (es : List Nat) : R IBig := do
  let m ← UBig.deserialize cfg hint es
  .ok (IBig.fromSignMagnitude s m)

end Ibig
