import Verif.Proofs.CountedDiv
import Verif.Proofs.ParseCost
import Verif.Proofs.ParseEntry
/-!
Lower bounds on the numbers of steps of parsing and formatting.
-/
namespace Ibig.Timed

/-! ### Parsing -/

/-- if the text was accepted, `Q` -/
def OkS {α : Type} (Q : Nat → Prop) : PRes α → Nat → Prop := fun r k => ∀ a, r = .ok a → Q k

theorem sat_tryP {α β : Type} {x : Timed (PRes α)} {f : α → Timed (PRes β)} {Q T : Nat → Prop}
    (hx : Sat x (OkS Q)) (hf : ∀ a k, Q k → Sat (f a) (OkS fun l => T (k + l))) : Sat (tryP x f) (OkS T) := by
  refine hx.bind fun r k hr => ?_
  cases r with
  | error e => exact sat_pure (fun _ h => by cases h)
  | ok a => exact (hf a k (hr a rfl)).mono fun r l h => h

theorem sat_okS {α : Type} {x : Timed (PRes α)} {Q T : Nat → Prop} (h : Sat x (OkS Q)) (hq : ∀ k, Q k → T k) :
    Sat x (OkS T) := h.mono fun _ k hk a e => hq k (hk a e)

theorem sat_pureOk {α : Type} {a : α} {Q : Nat → Prop} (h : Q 0) : Sat (pure (.ok a) : Timed (PRes α)) (OkS Q) :=
  sat_pure fun _ _ => h

theorem sat_okP {α : Type} {x : Timed α} {Q : Nat → Prop} (h : ∀ k, Q k) : Sat (okP x) (OkS Q) :=
  (sat_any x).bind fun a k _ => sat_pure fun _ _ => h _

theorem sat_digitP (b r : Nat) : Sat (digitP b r) (OkS fun k => k = 1) := sat_pass fun _ _ _ _ => rfl

theorem sat_pow2WordLoop (W r : Nat) : ∀ (l : List Nat) (w b : Nat),
    Sat (pow2WordLoop W r l w b) (OkS fun k => l.length ≤ k)
  | [], _, _ => sat_pureOk (by simp)
  | c :: l, w, b => by
    rw [pow2WordLoop]
    refine sat_tryP (sat_digitP c r) fun d k hk => ?_
    refine (sat_any _).bind fun x k1 _ => (sat_any _).bind fun y k2 _ => ?_
    refine (sat_pow2WordLoop W r l _ _).mono fun v m hm a e => ?_
    have := hm a e
    rw [List.length_cons]
    omega

theorem sat_pow2ParseWord (W r : Nat) (l : List Nat) : Sat (pow2ParseWord W r l) (OkS fun k => l.length ≤ k) := by
  unfold pow2ParseWord
  refine (sat_any _).bind fun _ k0 _ => (sat_any _).bind fun _ k1 _ => (sat_any _).bind fun _ k2 _ => ?_
  refine (sat_pow2WordLoop W r l.reverse 0 0).mono fun v m hm a e => ?_
  have := hm a e
  rw [List.length_reverse] at this
  omega

theorem sat_pow2LargeLoop (W r : Nat) : ∀ (l : List Nat) (s : Buffer × Nat × Nat),
    Sat (pow2LargeLoop W r l s) (OkS fun k => l.length ≤ k)
  | [], _ => sat_pureOk (by simp)
  | c :: l, s => by
    rw [pow2LargeLoop]
    refine sat_tryP (sat_digitP c r) fun d k hk => ?_
    refine (sat_any _).bind fun x k1 _ => ?_
    refine (sat_pow2LargeLoop W r l _).mono fun v m hm a e => ?_
    have := hm a e
    rw [List.length_cons]
    omega

theorem sat_pow2ParseLarge (cfg : Cfg) (r : Nat) (l : List Nat) :
    Sat (pow2ParseLarge cfg r l) (OkS fun k => l.length ≤ k) := by
  unfold pow2ParseLarge
  refine (sat_any _).bind fun _ k0 _ => sat_ite (fun _ => sat_throw) fun _ => ?_
  refine (sat_any _).bind fun _ k1 _ => (sat_any _).bind fun _ k2 _ => ?_
  refine sat_okS (sat_tryP (sat_pow2LargeLoop cfg.W r l.reverse _) fun s k hk => sat_okP
    (Q := fun m => l.length ≤ k + m) fun m => ?_) fun k hk => ?_
  · rw [List.length_reverse] at hk
    omega
  · omega

theorem sat_pow2Parse (cfg : Cfg) (r : Nat) (l : List Nat) :
    Sat (pow2Parse cfg r l) (OkS fun k => l.length ≤ k) := by
  unfold pow2Parse
  refine (sat_any _).bind fun _ k0 _ => (sat_any _).bind fun _ k1 _ => sat_ite (fun _ => ?_) fun _ => ?_
  · exact sat_okS (sat_tryP (T := fun k => l.length ≤ k) (sat_pow2ParseWord cfg.W r l) fun w k hk =>
      sat_pureOk (by omega)) fun k hk => by omega
  · exact sat_okS (sat_pow2ParseLarge cfg r l) fun k hk => by omega

theorem sat_npWordLoop (W r : Nat) : ∀ (l : List Nat) (w : Nat),
    Sat (npWordLoop W r l w) (OkS fun k => l.length ≤ k)
  | [], _ => sat_pureOk (by simp)
  | c :: l, w => by
    rw [npWordLoop]
    refine sat_tryP (sat_digitP c r) fun d k hk => ?_
    refine (sat_any _).bind fun x k1 _ => (sat_any _).bind fun y k2 _ => ?_
    refine (sat_npWordLoop W r l _).mono fun v m hm a e => ?_
    have := hm a e
    rw [List.length_cons]
    omega

theorem sat_npParseWord (W r : Nat) (l : List Nat) : Sat (npParseWord W r l) (OkS fun k => l.length ≤ k) := by
  unfold npParseWord
  refine (sat_any _).bind fun _ k0 _ => (sat_any _).bind fun _ k1 _ => (sat_any _).bind fun _ k2 _ => ?_
  exact sat_okS (sat_npWordLoop W r l 0) fun k hk => by omega

theorem sat_npChunkStep (W range next : Nat) (b : Buffer) :
    Sat (npChunkStep W range next b) fun _ k => b.words.length ≤ k := by
  unfold npChunkStep
  refine (sat_mulWordLoop W range b.words next).bind fun p k h => ?_
  exact (sat_any _).mono fun _ l _ => by omega

theorem sat_npChunkLoop (W r range : Nat) : ∀ (gs : List (List Nat)) (b : Buffer),
    Sat (npChunkLoop W r range gs b) (OkS fun k => gs.flatten.length ≤ k)
  | [], _ => sat_pureOk (by simp)
  | g :: gs, b => by
    rw [npChunkLoop]
    refine sat_tryP (sat_npParseWord W r g) fun d k hk => ?_
    refine (sat_npChunkStep W range d b).bind fun b' k1 h1 => ?_
    refine sat_okS (sat_npChunkLoop W r range gs b') fun m hm => ?_
    rw [List.flatten_cons, List.length_append]
    omega

theorem flatten_rchunks {d : Nat} (hd : 1 ≤ d) (l : List Nat) :
    (rchunks d l.length l).reverse.flatten.length = l.length := by
  rw [(rchunks_flatten hd l).1]

theorem sat_npParseChunk (cfg : Cfg) (r : Nat) (l : List Nat) :
    Sat (npParseChunk cfg r l) (OkS fun k => l.length ≤ k) := by
  unfold npParseChunk
  refine sat_assert.bind fun _ k0 h0 => ?_
  refine (sat_pass (Q := fun i _ => Ibig.radixInfo cfg.W r = .ok i) fun _ h => h).bind fun info k1 h1 => ?_
  refine sat_assert.bind fun _ k2 h2 => ?_
  dsimp only
  refine (sat_any _).bind fun b k3 _ => ?_
  refine sat_okS (sat_tryP (T := fun k => l.length ≤ k) (sat_npChunkLoop cfg.W r info.rangePerWord _ b) fun s k hk =>
    sat_okP fun m => ?_) fun k hk => by omega
  rcases Nat.eq_zero_or_pos info.digitsPerWord with hz | hz
  · rw [hz] at h2
    omega
  · rw [flatten_rchunks hz] at hk
    omega

theorem sat_npDivideConquer (cfg : Cfg) (r chunkBytes : Nat) : ∀ (ps : List UBig) (l : List Nat),
    Sat (npDivideConquer cfg r chunkBytes ps l) (OkS fun k => l.length ≤ k)
  | [], l => by
    rw [npDivideConquer]
    refine (sat_any _).bind fun _ k0 _ => (sat_any _).bind fun _ k1 _ => ?_
    exact sat_okS (sat_npParseChunk cfg r l) fun k hk => by omega
  | p :: ps, l => by
    rw [npDivideConquer]
    refine (sat_any _).bind fun _ k0 _ => (sat_any _).bind fun _ k1 _ => (sat_any _).bind fun lo k2 _ => ?_
    refine sat_ite (fun _ => sat_okS (sat_npDivideConquer cfg r chunkBytes ps l) fun k hk => by omega) fun _ => ?_
    refine sat_split.bind fun q k3 h3 => ?_
    obtain ⟨hi, lo'⟩ := q
    dsimp only at h3 ⊢
    refine sat_tryP (sat_npDivideConquer cfg r chunkBytes ps hi) fun a k4 h4 => ?_
    refine sat_tryP (sat_npDivideConquer cfg r chunkBytes ps lo') fun b k5 h5 => ?_
    exact sat_okP fun m => by omega

theorem sat_npParseLarge (cfg : Cfg) (r : Nat) (l : List Nat) :
    Sat (npParseLarge cfg r l) (OkS fun k => l.length ≤ k) := by
  unfold npParseLarge
  refine (sat_any _).bind fun _ k0 _ => (sat_any _).bind fun _ k1 _ => (sat_any _).bind fun _ k2 _ => ?_
  refine (sat_any _).bind fun _ k3 _ => (sat_any _).bind fun _ k4 _ => (sat_any _).bind fun _ k5 _ => ?_
  exact sat_okS (sat_npDivideConquer cfg r _ _ l) fun k hk => by omega

theorem sat_npParse (cfg : Cfg) (r : Nat) (l : List Nat) :
    Sat (npParse cfg r l) (OkS fun k => l.length ≤ k) := by
  unfold npParse
  refine (sat_any _).bind fun _ k0 _ => (sat_any _).bind fun _ k1 _ => sat_ite (fun _ => ?_) fun _ => ?_
  · exact sat_okS (sat_tryP (T := fun k => l.length ≤ k) (sat_npParseWord cfg.W r l) fun w k hk =>
      sat_pureOk (by omega)) fun k hk => by omega
  · refine (sat_any _).bind fun _ k2 _ => sat_ite (fun _ => ?_) fun _ => ?_
    · exact sat_okS (sat_npParseChunk cfg r l) fun k hk => by omega
    · exact sat_okS (sat_npParseLarge cfg r l) fun k hk => by omega

theorem sat_stripZeros : ∀ l : List Nat, Sat (stripZeros l) fun t k => l.length ≤ t.length + k
  | [] => sat_pure (by simp)
  | c :: l => by
    rw [stripZeros]
    refine (sat_tick (Q := fun _ k => k = 1) rfl).bind fun _ k hk => ?_
    refine sat_ite (fun _ => ?_) fun _ => sat_pure (by omega)
    refine (sat_stripZeros l).mono fun t m h => ?_
    rw [List.length_cons]
    omega

theorem sat_fromStrRadixNoSign (cfg : Cfg) (l : List Nat) (r : Nat) :
    Sat (UBig.fromStrRadixNoSign cfg l r) (OkS fun k => l.length + 1 ≤ k) := by
  unfold UBig.fromStrRadixNoSign
  refine sat_assert.bind fun _ k0 h0 => ?_
  refine sat_ite (fun _ => sat_pure fun _ h => by cases h) fun _ => ?_
  refine (sat_stripZeros l).bind fun t k1 h1 => ?_
  refine sat_ite (fun _ => ?_) fun _ => ?_
  · exact sat_okS (sat_pow2Parse cfg r t) fun k hk => by omega
  · exact sat_okS (sat_npParse cfg r t) fun k hk => by omega

theorem stripPrefix_length {c s t : List Nat} (h : Ibig.stripPrefix c s = some t) : s.length ≤ t.length + c.length := by
  unfold Ibig.stripPrefix at h
  split at h
  · cases h
    rw [List.length_drop]
    omega
  · cases h

theorem stripPrefixOr_length (c s : List Nat) : s.length ≤ (Ibig.stripPrefixOr c s).length + c.length := by
  unfold Ibig.stripPrefixOr
  cases h : Ibig.stripPrefix c s with
  | none => simp
  | some t => exact stripPrefix_length h

theorem parseSign_ge (s : List Nat) : s.length ≤ (Ibig.parseSign s).2.length + 1 := by
  unfold Ibig.parseSign
  cases h : Ibig.stripPrefix [45] s with
  | none => exact stripPrefixOr_length [43] s
  | some t => exact stripPrefix_length h

theorem sat_uFromStrRadix (cfg : Cfg) (l : List Nat) (r : Nat) :
    Sat (UBig.fromStrRadix cfg l r) (OkS fun k => l.length ≤ k) := by
  unfold UBig.fromStrRadix
  refine (sat_any _).bind fun _ k0 _ => ?_
  refine (sat_pass (Q := fun t _ => l.length ≤ t.length + 1) fun t h => ?_).bind fun t k1 h1 => ?_
  · cases h; exact stripPrefixOr_length [43] l
  · exact sat_okS (sat_fromStrRadixNoSign cfg t r) fun k hk => by omega

theorem sat_prefix (cfg : Cfg) (l : List Nat) :
    Sat (UBig.fromStrWithRadixPrefixNoSign cfg l) (OkS fun k => l.length ≤ k) := by
  have strip : ∀ c : List Nat, c.length = 2 → Sat (stripPrefix c l)
      fun o k => k = 1 ∧ ∀ t, o = some t → l.length ≤ t.length + 2 := by
    intro c hc
    refine sat_pass fun o h => ⟨rfl, fun t ht => ?_⟩
    cases h
    have := stripPrefix_length ht
    omega
  unfold UBig.fromStrWithRadixPrefixNoSign
  refine (strip [48, 98] rfl).bind fun o k0 h0 => ?_
  cases o with
  | some t => exact sat_okS (sat_fromStrRadixNoSign cfg t 2) fun k hk => by have := h0.2 t rfl; omega
  | none =>
    refine (strip [48, 111] rfl).bind fun o k1 h1 => ?_
    cases o with
    | some t => exact sat_okS (sat_fromStrRadixNoSign cfg t 8) fun k hk => by have := h1.2 t rfl; omega
    | none =>
      refine (strip [48, 120] rfl).bind fun o k2 h2 => ?_
      cases o with
      | some t => exact sat_okS (sat_fromStrRadixNoSign cfg t 16) fun k hk => by have := h2.2 t rfl; omega
      | none => exact sat_okS (sat_fromStrRadixNoSign cfg l 10) fun k hk => by omega

theorem sat_uPrefix (cfg : Cfg) (l : List Nat) :
    Sat (UBig.fromStrWithRadixPrefix cfg l) (OkS fun k => l.length ≤ k) := by
  unfold UBig.fromStrWithRadixPrefix
  refine (sat_pass (Q := fun t k => l.length ≤ t.length + 1 ∧ k = 1) fun t h => ?_).bind fun t k1 h1 => ?_
  · cases h; exact ⟨stripPrefixOr_length [43] l, rfl⟩
  · exact sat_okS (sat_prefix cfg t) fun k hk => by omega

theorem sat_iFromStrRadix (cfg : Cfg) (l : List Nat) (r : Nat) :
    Sat (IBig.fromStrRadix cfg l r) (OkS fun k => l.length ≤ k) := by
  unfold IBig.fromStrRadix
  refine (sat_any _).bind fun _ k0 _ => ?_
  refine (sat_pass (Q := fun t k => l.length ≤ t.2.length + 1 ∧ k = 2) fun t h => ?_).bind fun t k1 h1 => ?_
  · cases h; exact ⟨parseSign_ge l, rfl⟩
  · obtain ⟨sg, t⟩ := t
    dsimp only at h1
    exact sat_okS (sat_tryP (T := fun k => t.length ≤ k) (sat_fromStrRadixNoSign cfg t r) fun m k hk =>
      sat_pureOk (by omega)) fun k hk => by omega

theorem sat_iPrefix (cfg : Cfg) (l : List Nat) :
    Sat (IBig.fromStrWithRadixPrefix cfg l) (OkS fun k => l.length ≤ k) := by
  unfold IBig.fromStrWithRadixPrefix
  refine (sat_pass (Q := fun t k => l.length ≤ t.2.length + 1 ∧ k = 2) fun t h => ?_).bind fun t k1 h1 => ?_
  · cases h; exact ⟨parseSign_ge l, rfl⟩
  · obtain ⟨sg, t⟩ := t
    dsimp only at h1
    exact sat_okS (sat_tryP (T := fun k => t.length ≤ k) (sat_prefix cfg t) fun m k hk =>
      sat_pureOk (by omega)) fun k hk => by omega

/-! ### Formatting -/

/-- digits in the buffer are counted once, digits in the sink twice -/
def copied (dw : DigitWriter) : Nat := 2 * dw.out.length + dw.buffer.length

/-- The writer counts the digits that it writes. -/
def Copies (dw : DigitWriter) (x : Timed DigitWriter) : Prop := Sat x fun d k => copied d ≤ copied dw + k

theorem Copies.bind {dw : DigitWriter} {x : Timed DigitWriter} {f : DigitWriter → Timed DigitWriter}
    (hx : Copies dw x) (hf : ∀ d, Copies d (f d)) : Copies dw (x >>= f) :=
  Sat.bind hx fun d k hk => (hf d).mono fun e l hl => by omega

theorem Copies.skip {α : Type} {dw : DigitWriter} {x : Timed α} {f : α → Timed DigitWriter}
    (hf : ∀ a, Copies dw (f a)) : Copies dw (x >>= f) :=
  Sat.bind (sat_any x) fun a k _ => (hf a).mono fun e l hl => by omega

theorem Copies.pure (dw : DigitWriter) : Copies dw (Pure.pure dw) := sat_pure (by omega)

theorem sat_flush (W : Nat) (dw : DigitWriter) :
    Sat (DigitWriter.flush W dw) fun d k => copied d ≤ copied dw + k ∧ d.buffer = [] := by
  unfold DigitWriter.flush
  dsimp only
  refine (sat_any _).bind fun _ k0 _ => (sat_any _).bind fun padded k1 _ => (sat_any _).bind fun ascii k2 _ => ?_
  refine (sat_pass (Q := fun s k => s = ascii.take dw.buffer.length ∧ k = s.length + 1) fun s h => ?_).bind
    fun s k3 h3 => sat_pure ?_
  · unfold Ibig.fromUtf8Unchecked Ibig.assertR at h
    split at h
    · cases h
      exact ⟨rfl, rfl⟩
    · cases h
  · have : s.length ≤ dw.buffer.length := by rw [h3.1, List.length_take]; omega
    unfold copied
    simp only [List.length_append, List.length_nil]
    exact ⟨by omega, trivial⟩

theorem writes_flushIfFull (W : Nat) (dw : DigitWriter) : Copies dw (DigitWriter.flushIfFull W dw) :=
  sat_ite (fun _ => (sat_flush W dw).mono fun _ _ h => h.1) fun _ => sat_pure (by omega)

theorem writes_writeLoop (W : Nat) : ∀ (fuel : Nat) (dw : DigitWriter) (buf : List Nat),
    Copies dw (DigitWriter.writeLoop W fuel dw buf)
  | 0, dw, buf => by
    rw [DigitWriter.writeLoop]
    exact sat_ite (fun _ => sat_pure (by omega)) fun _ => sat_throw
  | fuel + 1, dw, buf => by
    rw [DigitWriter.writeLoop]
    refine sat_ite (fun _ => sat_pure (by omega)) fun _ => ?_
    refine (sat_any _).bind fun room k0 _ => ?_
    dsimp only
    refine (sat_any _).bind fun q k1 _ => ?_
    obtain ⟨chunk, rest⟩ := q
    dsimp only
    refine (sat_pass (Q := fun b k => b = dw.buffer ++ chunk ∧ k = chunk.length) fun b h => ?_).bind fun b k2 h2 => ?_
    · cases h; exact ⟨rfl, rfl⟩
    · refine Sat.bind (writes_flushIfFull W _) fun d k3 h3 => ?_
      refine (writes_writeLoop W fuel d rest).mono fun e l hl => ?_
      rw [h2.1] at h3
      unfold copied at *
      simp only [List.length_append] at h3
      omega

theorem writes_write (W : Nat) (dw : DigitWriter) (buf : List Nat) : Copies dw (DigitWriter.write W dw buf) :=
  writes_writeLoop W _ dw buf

theorem writes_pow2Word (W word log width : Nat) (dw : DigitWriter) : Copies dw (pow2WordWrite W word log width dw) := by
  unfold pow2WordWrite
  exact Copies.skip fun _ => Copies.skip fun _ => Copies.skip fun ds => writes_write W dw ds

theorem writes_pow2LargeLoop (W log mask : Nat) : ∀ (fuel word bits : Nat) (rest : List Nat) (dw : DigitWriter),
    Copies dw (pow2LargeLoop' W log mask fuel word bits rest dw)
  | 0, _, _, _, _ => sat_throw
  | fuel + 1, word, bits, rest, dw => by
    rw [pow2LargeLoop']
    refine Copies.skip fun s => ?_
    rcases s with _ | ⟨digit, word, bits, rest⟩
    · exact Copies.pure dw
    · exact (writes_write W dw [digit]).bind fun d => writes_pow2LargeLoop W log mask fuel word bits rest d

theorem writes_pow2Large (cfg : Cfg) (words : List Nat) (log width : Nat) (dw : DigitWriter) :
    Copies dw (pow2LargeWrite cfg words log width dw) := by
  unfold pow2LargeWrite
  refine Copies.skip fun mask => ?_
  cases words.reverse with
  | nil => exact sat_throw
  | cons w rest =>
    exact Copies.skip fun _ => Copies.skip fun _ => Copies.skip fun _ => Copies.skip fun _ =>
      writes_pow2LargeLoop cfg.W log mask _ _ _ _ dw

theorem writes_groups (W r d : Nat) : ∀ (gs : List Nat) (dw : DigitWriter), Copies dw (npWriteGroups W r d gs dw)
  | [], dw => Copies.pure dw
  | g :: gs, dw => by
    rw [npWriteGroups]
    exact Copies.skip fun ds => (writes_write W dw ds).bind fun dw => writes_groups W r d gs dw

theorem writes_medium (W : Nat) (p : PreparedMedium) (r : Nat) (dw : DigitWriter) :
    Copies dw (npMediumWrite W p r dw) := by
  unfold npMediumWrite
  exact Copies.skip fun info => (writes_write W dw p.top).bind fun dw => writes_groups W r _ p.low dw

theorem writes_chunk (W r : Nat) (dw : DigitWriter) (x : UBig) : Copies dw (npWriteChunk W r dw x) := by
  unfold npWriteChunk
  exact Copies.skip fun info => Copies.skip fun b => Copies.skip fun p => Copies.skip fun _ =>
    writes_groups W r _ p.2 dw

theorem writes_bigChunk (cfg : Cfg) (r : Nat) (ps : List UBig) : ∀ (i : Nat) (dw : DigitWriter) (x : UBig),
    Copies dw (npWriteBigChunk cfg r ps i dw x)
  | 0, dw, x => writes_chunk cfg.W r dw x
  | i + 1, dw, x => by
    rw [npWriteBigChunk]
    cases ps[i]? with
    | none => exact sat_throw
    | some p =>
      exact Copies.skip fun q => (writes_bigChunk cfg r ps i dw q.1).bind fun dw => writes_bigChunk cfg r ps i dw q.2

theorem writes_chunks (cfg : Cfg) (r : Nat) (ps : List UBig) : ∀ (cs : List (Nat × UBig)) (dw : DigitWriter),
    Copies dw (npWriteChunks cfg r ps cs dw)
  | [], dw => Copies.pure dw
  | (i, x) :: cs, dw => by
    rw [npWriteChunks]
    exact Copies.skip fun _ => (writes_bigChunk cfg r ps i dw x).bind fun dw => writes_chunks cfg r ps cs dw

theorem writes_large (cfg : Cfg) (p : PreparedLarge) (r : Nat) (dw : DigitWriter) :
    Copies dw (npLargeWrite cfg p r dw) := by
  unfold npLargeWrite
  exact (writes_medium cfg.W p.top r dw).bind fun dw => writes_chunks cfg r p.powers p.chunks dw

theorem sat_writeDigits (W : Nat) (be : Bool) (dc : DigitCase) (p : Prepared) (hp : ∀ dw, Copies dw (p.write dw)) :
    Sat (writeDigits W be dc p) fun ds k => 2 * ds.length ≤ k := by
  unfold writeDigits
  refine Sat.bind (hp _) fun dw k hk => (sat_flush W dw).bind fun d l hl => sat_pure ?_
  unfold copied at *
  rw [hl.2] at hl
  simp only [List.length_nil] at hk hl
  omega

theorem sat_emit (sg pre : List Nat) (n : Nat) (text : List Nat) :
    Sat (emit sg pre n text) fun t k => t = text ∧ k = sg.length + pre.length + n + 1 :=
  sat_pass fun t h => by cases h; exact ⟨rfl, rfl⟩

theorem sat_formatPrepared (cfg : Cfg) (be : Bool) (sign : Sign) (pre : List Nat) (dc : DigitCase) (f : FmtFlags)
    (p : Prepared) (hp : ∀ dw, Copies dw (p.write dw)) :
    Sat (formatPrepared cfg be sign pre dc f p) fun text k => text.length ≤ k := by
  unfold formatPrepared
  refine (sat_any _).bind fun w k0 _ => ?_
  dsimp only
  refine (sat_any _).bind fun width k1 _ => (sat_writeDigits cfg.W be dc p hp).bind fun ds k2 h2 => ?_
  have key : ∀ (n : Nat) (text : List Nat), text.length ≤ (signStr sign f).length + pre.length + n + ds.length →
      Sat (emit (signStr sign f) pre n text) fun text l => text.length ≤ k0 + (k1 + (k2 + l)) := by
    intro n text ht
    refine (sat_emit _ _ _ _).mono fun t k h => ?_
    rw [h.1]
    omega
  cases f.width with
  | none => exact key 0 _ (by simp only [List.length_append]; omega)
  | some m =>
    dsimp only
    refine sat_ite (fun _ => key 0 _ (by simp only [List.length_append]; omega)) fun _ => sat_ite (fun _ => ?_) fun _ => ?_
    · exact key _ _ (by simp only [List.length_append, List.length_replicate]; omega)
    · refine key _ _ ?_
      have : leftFill f (m - width) ≤ m - width := by
        unfold leftFill
        split <;> omega
      simp only [List.length_append, List.length_replicate]
      omega

theorem sat_fmtPow2 (cfg : Cfg) (be : Bool) (sign : Sign) (mag : UBig) (r : Nat) (pre : List Nat) (dc : DigitCase)
    (f : FmtFlags) : Sat (fmtPow2 cfg be sign mag r pre dc f) fun text k => text.length ≤ k := by
  unfold fmtPow2
  refine (sat_any _).bind fun _ k0 _ => ?_
  cases mag with
  | small w =>
    exact (sat_formatPrepared cfg be sign pre dc f _ fun dw => writes_pow2Word _ _ _ _ dw).mono fun t l hl => by omega
  | large b =>
    refine (sat_any _).bind fun width k1 _ => ?_
    exact (sat_formatPrepared cfg be sign pre dc f _ fun dw => writes_pow2Large _ _ _ _ dw).mono fun t l hl => by omega

theorem sat_fmtNonPow2 (cfg : Cfg) (be : Bool) (sign : Sign) (mag : UBig) (r : Nat) (pre : List Nat) (dc : DigitCase)
    (f : FmtFlags) : Sat (fmtNonPow2 cfg be sign mag r pre dc f) fun text k => text.length ≤ k := by
  unfold fmtNonPow2
  refine (sat_any _).bind fun _ k0 _ => ?_
  cases mag with
  | small w =>
    refine (sat_any _).bind fun ds k1 _ => ?_
    exact (sat_formatPrepared cfg be sign pre dc f _ fun dw => writes_write _ dw ds).mono fun t l hl => by omega
  | large b =>
    refine (sat_any _).bind fun info k1 _ => (sat_any _).bind fun n k2 _ => sat_ite (fun _ => ?_) fun _ => ?_
    · refine (sat_any _).bind fun p k3 _ => ?_
      exact (sat_formatPrepared cfg be sign pre dc f _ fun dw => writes_medium _ p r dw).mono fun t l hl => by omega
    · refine (sat_any _).bind fun p k3 _ => ?_
      exact (sat_formatPrepared cfg be sign pre dc f _ fun dw => writes_large _ p r dw).mono fun t l hl => by omega

theorem sat_fmtFull (cfg : Cfg) (be : Bool) (sign : Sign) (mag : UBig) (r : Nat) (pre : List Nat) (dc : DigitCase)
    (f : FmtFlags) : Sat (fmtFull cfg be sign mag r pre dc f) fun text k => text.length ≤ k :=
  sat_ite (fun _ => sat_fmtPow2 cfg be sign mag r pre dc f) fun _ => sat_fmtNonPow2 cfg be sign mag r pre dc f

/-! ### Addition, powers and bitwise operators -/

theorem sat_addLarge (cfg : Cfg) (a : Buffer) (b : List Nat) :
    Sat (UBig.addLarge cfg a b) fun _ k => min a.words.length b.length ≤ k := by
  unfold UBig.addLarge
  dsimp only
  refine sat_slice.bind fun r k0 h0 => ?_
  refine (sat_onSlice fun s _ => sat_addSameLen cfg.W s r).bind fun p k1 h1 => ?_
  refine (sat_any _).mono fun _ k _ => ?_
  have : a.len = a.words.length := rfl
  omega

theorem sat_cloned {α : Type} {cfg : Cfg} {b : Buffer} {f : Buffer → Timed α} {Q : α → Nat → Prop} {n : Nat}
    (hQ : ∀ a k, Q a k ↔ n ≤ k) (h : ∀ c : Buffer, c.words = b.words → Sat (f c) Q) :
    Sat (do let c ← Buffer.clone cfg b; f c) Q :=
  (Takes.sat (takes_clone cfg b)).bind fun c k hc => (h c hc).mono fun a l hl => by
    rw [hQ] at hl ⊢
    omega

theorem sat_add (cfg : Cfg) (o1 o2 : Own) (a b : Buffer) :
    Sat (UBig.add cfg o1 o2 (.large a) (.large b)) fun _ k => min a.words.length b.words.length ≤ k := by
  cases o1 <;> cases o2
  · refine sat_ite (fun _ => sat_addLarge cfg a _) fun _ => (sat_addLarge cfg b _).mono fun _ k h => by omega
  · exact sat_addLarge cfg a _
  · exact (sat_addLarge cfg b _).mono fun _ k h => by omega
  · refine sat_ite (fun _ => sat_cloned (fun _ _ => Iff.rfl) fun c hc => ?_) fun _ =>
      sat_cloned (fun _ _ => Iff.rfl) fun c hc => ?_
    · rw [← hc]
      exact sat_addLarge cfg c _
    · rw [← hc]
      exact (sat_addLarge cfg c _).mono fun _ k h => by omega

theorem sat_subLarge (cfg : Cfg) (a : Buffer) (b : List Nat) :
    Sat (UBig.subLarge cfg a b) fun _ k => b.length ≤ k := by
  unfold UBig.subLarge
  refine sat_ite (fun _ => sat_throw) fun _ => ?_
  refine (sat_subInPlace cfg.W a.words b).bind fun p k h => ?_
  exact (sat_any _).mono fun _ l _ => by omega

theorem sat_subLargeRefVal (cfg : Cfg) (a : List Nat) (b : Buffer) :
    Sat (UBig.subLargeRefVal cfg a b) fun _ k => b.words.length ≤ k := by
  unfold UBig.subLargeRefVal
  dsimp only
  refine sat_ite (fun _ => sat_throw) fun _ => ?_
  refine (sat_any _).bind fun l k0 _ => (sat_subSameLenSwap cfg.W l b.words).bind fun p k h => ?_
  exact (sat_any _).mono fun _ l _ => by omega

theorem sat_sub (cfg : Cfg) (o1 o2 : Own) (a b : Buffer) :
    Sat (UBig.sub cfg o1 o2 (.large a) (.large b)) fun _ k => b.words.length ≤ k := by
  cases o1 <;> cases o2
  · exact sat_subLarge cfg a _
  · exact sat_subLarge cfg a _
  · exact sat_subLargeRefVal cfg _ b
  · exact sat_cloned (fun _ _ => Iff.rfl) fun c hc => sat_subLarge cfg c _

theorem sat_bitandLarge (cfg : Cfg) (a : Buffer) (b : List Nat) :
    Sat (UBig.bitandLarge cfg a b) fun _ k => min a.words.length b.length ≤ k := by
  unfold UBig.bitandLarge
  have ht : Sat (Buffer.truncateTo a b.length) fun c _ => min a.words.length b.length ≤ c.words.length := by
    refine sat_ite (fun h => sat_pass fun c hc => ?_) fun _ => sat_pure (by omega)
    unfold Ibig.Buffer.truncate Ibig.assertR at hc
    split at hc
    · cases hc
      simp only [List.length_take]
      omega
    · cases hc
  refine ht.bind fun c k0 h0 => (sat_zipInPlace _ c.words b).bind fun ws k1 h1 => ?_
  exact (sat_any _).mono fun _ l _ => by omega

theorem sat_bitand (cfg : Cfg) (o1 o2 : Own) (a b : Buffer) :
    Sat (UBig.bitand cfg o1 o2 (.large a) (.large b)) fun _ k => min a.words.length b.words.length ≤ k := by
  cases o1 <;> cases o2
  · refine sat_ite (fun _ => sat_bitandLarge cfg a _) fun _ => (sat_bitandLarge cfg b _).mono fun _ k h => by omega
  · exact sat_bitandLarge cfg a _
  · exact (sat_bitandLarge cfg b _).mono fun _ k h => by omega
  · refine sat_ite (fun _ => sat_cloned (fun _ _ => Iff.rfl) fun c hc => ?_) fun _ =>
      sat_cloned (fun _ _ => Iff.rfl) fun c hc => ?_
    · rw [← hc]
      exact sat_bitandLarge cfg c _
    · rw [← hc]
      exact (sat_bitandLarge cfg c _).mono fun _ k h => by omega

theorem sat_bitopLarge (f : Nat → Nat → Nat) (cfg : Cfg) (a : Buffer) (b : List Nat) :
    Sat (UBig.bitopLarge f cfg a b) fun _ k => min a.words.length b.length ≤ k := by
  unfold UBig.bitopLarge
  refine (sat_zipInPlace _ a.words b).bind fun ws k1 h1 => ?_
  exact (sat_any _).mono fun _ l _ => by omega

theorem sat_bitop (f : Nat → Nat → Nat) (cfg : Cfg) (o1 o2 : Own) (a b : Buffer) :
    Sat (UBig.bitop f cfg o1 o2 (.large a) (.large b)) fun _ k => min a.words.length b.words.length ≤ k := by
  cases o1 <;> cases o2
  · refine sat_ite (fun _ => sat_bitopLarge f cfg a _) fun _ => (sat_bitopLarge f cfg b _).mono fun _ k h => by omega
  · exact sat_bitopLarge f cfg a _
  · exact (sat_bitopLarge f cfg b _).mono fun _ k h => by omega
  · refine sat_ite (fun _ => sat_cloned (fun _ _ => Iff.rfl) fun c hc => ?_) fun _ =>
      sat_cloned (fun _ _ => Iff.rfl) fun c hc => ?_
    · rw [← hc]
      exact sat_bitopLarge f cfg c _
    · rw [← hc]
      exact (sat_bitopLarge f cfg c _).mono fun _ k h => by omega

theorem sat_powLoop (cfg : Cfg) (x : UBig) (e : Nat) : ∀ (p : Nat) (res : UBig),
    Sat (UBig.powLoop cfg x e p res) fun _ k => p + 1 ≤ k
  | 0, res => by
    rw [UBig.powLoop]
    refine (sat_tick (Q := fun _ k => k = 1) rfl).bind fun _ k hk => (sat_any _).mono fun _ l _ => by omega
  | p + 1, res => by
    rw [UBig.powLoop]
    refine (sat_tick (Q := fun _ k => k = 1) rfl).bind fun _ k hk => ?_
    refine (sat_any _).bind fun r k1 _ => (sat_any _).bind fun r k2 _ => ?_
    exact (sat_powLoop cfg x e p r).mono fun _ l hl => by omega

theorem sat_ckSub (a b : Nat) : Sat (ckSub a b) fun c k => b ≤ a ∧ c = a - b ∧ k = 1 := by
  refine sat_pass fun c h => ?_
  unfold Ibig.ckSub at h
  split at h
  · cases h
    exact ⟨by assumption, rfl, rfl⟩
  · cases h

theorem sat_powGeneral (cfg : Cfg) (x : UBig) {e : Nat} (h0 : e ≠ 0) (he : e < 2 ^ cfg.U) :
    Sat (UBig.powGeneral cfg x e) fun _ k => Nat.size e ≤ k := by
  have hs : bitLen e = Nat.size e := by
    unfold bitLen
    rw [if_neg h0]
    exact le_antisymm (Nat.lt_size.mpr (Nat.log2_self_le h0)) (Nat.size_le.mpr Nat.lt_log2_self)
  have hl : Nat.size e ≤ cfg.U := Nat.size_le.mpr he
  unfold UBig.powGeneral
  refine (sat_ckSub _ _).bind fun s k0 hk0 => (sat_ckSub _ _).bind fun p k1 hk1 => ?_
  refine (sat_any _).bind fun r k2 _ => sat_assert.bind fun _ k3 h3 => ?_
  refine (sat_powLoop cfg x e p r).mono fun _ l hl => ?_
  unfold leadingZeros at hk1
  omega

theorem sat_pow (cfg : Cfg) {x : UBig} (hx : x.WF cfg) (h3 : 3 ≤ x.value cfg) {e : Nat} (h : 3 ≤ e)
    (he : e < 2 ^ cfg.U) : Sat (UBig.pow cfg x e) fun _ k => Nat.size e ≤ k := by
  unfold UBig.pow
  rw [if_neg (by omega), if_neg (by omega), if_neg (by omega)]
  split
  · simp [UBig.value] at h3
  · simp [UBig.value] at h3
  · simp [UBig.value] at h3
  · exact sat_powGeneral cfg x (by omega) he

end Ibig.Timed
