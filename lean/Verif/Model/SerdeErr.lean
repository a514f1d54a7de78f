import Verif.Model.Serde
/-!
Model of /repo/src/serde.rs with a data format that can report errors.

Serde.lean models the traffic with a data format that reports no errors.  Here every call of the data format can
return an error, of any type `E`.
-/
namespace Ibig

/-! ### Serialisation -/

/-- A call of the data format: `serialize_seq(Some(len))`, `serialize_element(&word)`, `end()`. -/
inductive SerCall where
  | seq (len : Nat)
  | element (word : Nat)
  | finish
deriving DecidableEq, Repr

/-- loop of /repo/src/serde.rs:18-25 and the final `end`.  `format` is asked with all the calls so far, the last
one being the current one, and says whether this call succeeds; `calls` are the calls so far. -/
def serializeLoop {E : Type} (format : List SerCall → Except E Unit) (W : Nat) : List (List Nat) → List SerCall →
    R (Except E Unit × List SerCall)
  | [], calls => .ok (format (calls ++ [.finish]), calls ++ [.finish])
  | c :: cs, calls => do
    let word ← joinWords W 0 c 0
    match format (calls ++ [.element word]) with
    | .error e => .ok (.error e, calls ++ [.element word])
    | .ok _ => serializeLoop format W cs (calls ++ [.element word])

/-- /repo/src/serde.rs:13-27 `Serialize for UBig`: the result, and all the calls made -/
def UBig.serializeInto {E : Type} (format : List SerCall → Except E Unit) (cfg : Cfg) (x : UBig) :
    R (Except E Unit × List SerCall) :=
  let chunks := chunksFuel (wordsPerU64 cfg.W) x.asWords.length x.asWords
  match format [.seq chunks.length] with
  | .error e => .ok (.error e, [.seq chunks.length])
  | .ok _ => serializeLoop format cfg.W chunks [.seq chunks.length]

/-! ### Deserialisation -/

/-- What `next_element` returns, call by call: an element or an error; after the end of the list, `None`. -/
abbrev SeqData (E : Type) := List (Except E Nat)

/-- `assert!(seq.next_element::<u64>()?.is_none())` (/repo/src/serde.rs:47, 52, 61) -/
def assertEnd {E : Type} : SeqData E → R (Except E Unit)
  | [] => .ok (.ok ())
  | .error e :: _ => .ok (.error e)
  | .ok _ :: _ => .error .assertFailed

/-- loop of /repo/src/serde.rs:57-60 -/
def takeAllErr {E : Type} (W : Nat) : Nat → SeqData E → Buffer → R (Except E (Buffer × SeqData E))
  | 0, es, b => .ok (.ok (b, es))
  | _ + 1, [], _ => .error .unwrap
  | _ + 1, .error e :: _, _ => .ok (.error e)
  | n + 1, .ok x :: xs, b => do
    let b ← pushWord64 W x 0 (wordsPerU64 W) b
    takeAllErr W n xs b

/-- loop of /repo/src/serde.rs:66-68 -/
def collectErr {E : Type} : SeqData E → Except E (List Nat)
  | [] => .ok []
  | .error e :: _ => .error e
  | .ok x :: xs =>
    match collectErr xs with
    | .error e => .error e
    | .ok l => .ok (x :: l)

/-- /repo/src/serde.rs:55-63: the announced length is at least 2 -/
def UBig.deserializeSome {E : Type} (cfg : Cfg) (n : Nat) (es : SeqData E) : R (Except E UBig) := do
  let m ← len64ToMaxLen cfg n
  let b ← Buffer.allocate cfg m
  let r ← takeAllErr cfg.W n es b
  match r with
  | .error e => .ok (.error e)
  | .ok (b, rest) => do
    let f ← assertEnd rest
    match f with
    | .error e => .ok (.error e)
    | .ok _ => do
      let u ← UBig.ofBuffer cfg b
      .ok (.ok u)

/-- /repo/src/serde.rs:50-54: the announced length is 1 -/
def UBig.deserializeOne {E : Type} (cfg : Cfg) (es : SeqData E) : R (Except E UBig) :=
  match es with
  | [] => .error .unwrap
  | .error e :: _ => .ok (.error e)
  | .ok x :: xs => do
    let f ← assertEnd xs
    match f with
    | .error e => .ok (.error e)
    | .ok _ => do
      let u ← UBig.fromUnsigned cfg 64 x
      .ok (.ok u)

/-- /repo/src/serde.rs:44-76 `visit_seq`; `hint` is the result of `size_hint` -/
def UBig.deserializeErr {E : Type} (cfg : Cfg) (hint : Option Nat) (es : SeqData E) : R (Except E UBig) :=
  match hint with
  | some 0 => do
    let f ← assertEnd es
    match f with
    | .error e => .ok (.error e)
    | .ok _ => .ok (.ok (.small 0))
  | some 1 => UBig.deserializeOne cfg es
  | some n => UBig.deserializeSome cfg n es
  | none =>
    match collectErr es with
    | .error e => .ok (.error e)
    | .ok es => do
      let m ← len64ToMaxLen cfg es.length
      let b ← Buffer.allocate cfg m
      let b ← pushAll64 cfg.W es b
      let u ← UBig.ofBuffer cfg b
      .ok (.ok u)

end Ibig
