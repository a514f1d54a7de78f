import Verif.Spec.FmtSink
/-! Formatting into a sink that may fail does the same as formatting into a sink that does not, up to the
failure. -/
namespace Ibig

theorem ok_of_bind {α β : Type} {x : R α} {f : α → R β} {b : β} (h : (x >>= f) = .ok b) :
    ∃ a, x = .ok a ∧ f a = .ok b := by
  rcases x with p | a
  · cases h
  · exact ⟨a, rfl, h⟩

/-- Pass the strings `ps` to the sink, one after another, until a call fails; then return `Err`.  If none
fails, return `Ok(a)`. -/
def deliver {α : Type} (accept : Calls → Bool) (a : α) : Calls → Calls → Except Unit α × Calls
  | c, [] => (.ok a, c)
  | c, p :: ps => if accept (c ++ [p]) then deliver accept a (c ++ [p]) ps else (.error (), c ++ [p])

/-- The only effect of `x` is to deliver `ps`; then its value is `a`. -/
def Delivers {α : Type} (accept : Calls → Bool) (x : Io α) (ps : Calls) (a : α) : Prop :=
  ∀ c, x c = .ok (deliver accept a c ps)

section
variable {accept : Calls → Bool}

theorem delivers_pure {α : Type} (a : α) : Delivers accept (Io.pure a) [] a := fun _ => rfl

theorem delivers_ofR {α : Type} {x : R α} {a : α} (h : x = .ok a) : Delivers accept (Io.ofR x) [] a := by
  intro c; rw [h]; rfl

theorem delivers_write (s : List Nat) : Delivers accept (Io.writeStr accept s) [s] () := by
  intro c
  unfold Io.writeStr deliver deliver
  split <;> rfl

theorem deliver_append {α β : Type} (a : α) (b : β) : ∀ (ps qs c : Calls),
    deliver accept b c (ps ++ qs) = match deliver accept a c ps with
      | (.ok _, c) => deliver accept b c qs
      | (.error e, c) => (.error e, c) := by
  intro ps
  induction ps with
  | nil => intro qs c; rfl
  | cons p ps ih =>
    intro qs c
    rw [List.cons_append, deliver, deliver]
    split
    · exact ih qs _
    · rfl

theorem deliver_ok {α : Type} (a : α) : ∀ (ps c : Calls) (a' : α) (c' : Calls),
    deliver accept a c ps = (.ok a', c') → a' = a := by
  intro ps
  induction ps with
  | nil => intro c a' c' h; cases h; rfl
  | cons p ps ih =>
    intro c a' c' h
    unfold deliver at h
    split at h
    · exact ih _ _ _ h
    · cases h

theorem Delivers.bind {α β : Type} {x : Io α} {f : α → Io β} {ps qs : Calls} {a : α} {b : β}
    (hx : Delivers accept x ps a) (hf : Delivers accept (f a) qs b) : Delivers accept (x >>= f) (ps ++ qs) b := by
  intro c
  show Io.bind x f c = _
  unfold Io.bind
  rw [hx c, deliver_append a b]
  rcases h : deliver accept a c ps with ⟨r, c'⟩
  rcases r with e | a'
  · rfl
  · have := deliver_ok _ _ _ _ _ h
    subst this
    exact hf c'

theorem Delivers.bindR {α β : Type} {x : R α} {f : α → Io β} {qs : Calls} {a : α} {b : β} (hx : x = .ok a)
    (hf : Delivers accept (f a) qs b) : Delivers accept (Io.ofR x >>= f) qs b :=
  (delivers_ofR hx).bind hf

theorem delivers_repeat (ch : Nat) : ∀ n, Delivers accept (Io.writeRepeat accept ch n) (List.replicate n [ch]) ()
  | 0 => delivers_pure ()
  | n + 1 => (delivers_write [ch]).bind (delivers_repeat ch n)

theorem flatten_replicate_one (ch : Nat) : ∀ n, (List.replicate n [ch]).flatten = List.replicate n ch
  | 0 => rfl
  | n + 1 => by rw [List.replicate_succ, List.flatten_cons, flatten_replicate_one ch n]; rfl

theorem delivers_all : ∀ ss, Delivers accept (Io.writeAll accept ss) ss ()
  | [] => delivers_pure ()
  | s :: ss => (delivers_write s).bind (delivers_all ss)

/-! ### The digit writer -/

/-- The state of the writer without what has been written. -/
def DigitWriter.strip (dw : DigitWriter) : SinkWriter := ⟨dw.buffer, dw.digitCase, dw.be⟩

/-- `x` does what takes the writer from `dw` to `dw'`. -/
def Follows (accept : Calls → Bool) (x : Io SinkWriter) (dw dw' : DigitWriter) : Prop :=
  ∃ ps, dw'.out = dw.out ++ ps.flatten ∧ Delivers accept x ps dw'.strip

theorem follows_pure (dw : DigitWriter) : Follows accept (Io.pure dw.strip) dw dw :=
  ⟨[], by simp, delivers_pure _⟩

theorem Follows.bind {x : Io SinkWriter} {f : SinkWriter → Io SinkWriter} {d1 d2 d3 : DigitWriter}
    (hx : Follows accept x d1 d2) (hf : Follows accept (f d2.strip) d2 d3) : Follows accept (x >>= f) d1 d3 := by
  obtain ⟨ps, h1, h2⟩ := hx
  obtain ⟨qs, h3, h4⟩ := hf
  exact ⟨ps ++ qs, by rw [h3, h1, List.flatten_append, List.append_assoc], h2.bind h4⟩

theorem Follows.bindR {α : Type} {x : R α} {a : α} {f : α → Io SinkWriter} {d1 d2 : DigitWriter} (hx : x = .ok a)
    (hf : Follows accept (f a) d1 d2) : Follows accept (Io.ofR x >>= f) d1 d2 := by
  obtain ⟨ps, h1, h2⟩ := hf
  exact ⟨ps, h1, h2.bindR hx⟩

theorem flush_follows {W : Nat} {dw dw' : DigitWriter} (h : dw.flush W = .ok dw') :
    Follows accept (dw.strip.flush accept W) dw dw' := by
  obtain ⟨_, h1, h⟩ := ok_of_bind h
  obtain ⟨ascii, h2, h⟩ := ok_of_bind h
  obtain ⟨s, h3, h⟩ := ok_of_bind h
  cases h
  refine ⟨[s], by simp, ?_⟩
  have ht : dw.strip.text W = .ok s := by
    unfold SinkWriter.text
    show ((assertR _) >>= _) = _
    rw [show dw.strip.buffer = dw.buffer from rfl, h1]
    show (chunksToAscii W dw.be dw.digitCase _ _ >>= _) = _
    rw [h2]
    exact h3
  exact Delivers.bindR ht ((delivers_write s).bind (delivers_pure _))

theorem flushIfFull_follows {W : Nat} {dw dw' : DigitWriter} (h : dw.flushIfFull W = .ok dw') :
    Follows accept (dw.strip.flushIfFull accept W) dw dw' := by
  unfold DigitWriter.flushIfFull at h
  unfold SinkWriter.flushIfFull
  rw [show dw.strip.buffer = dw.buffer from rfl]
  split at h
  · rw [if_pos (by assumption)]; exact flush_follows h
  · rw [if_neg (by assumption)]; cases h; exact follows_pure _

theorem writeLoop_follows {W : Nat} : ∀ (fuel : Nat) (dw : DigitWriter) (buf : List Nat) (dw' : DigitWriter),
    DigitWriter.writeLoop W fuel dw buf = .ok dw' →
    Follows accept (SinkWriter.writeLoop accept W fuel dw.strip buf) dw dw' := by
  intro fuel
  induction fuel with
  | zero =>
    intro dw buf dw' h
    unfold DigitWriter.writeLoop at h
    unfold SinkWriter.writeLoop
    split at h
    · rw [if_pos (by assumption)]; cases h; exact follows_pure _
    · cases h
  | succ fuel ih =>
    intro dw buf dw' h
    unfold DigitWriter.writeLoop at h
    unfold SinkWriter.writeLoop
    split at h
    · rw [if_pos (by assumption)]; cases h; exact follows_pure _
    · rw [if_neg (by assumption)]
      obtain ⟨room, h1, h⟩ := ok_of_bind h
      obtain ⟨⟨a, b⟩, h2, h⟩ := ok_of_bind h
      obtain ⟨d2, h3, h⟩ := ok_of_bind h
      refine Follows.bindR h1 (Follows.bindR h2 (Follows.bind (d2 := d2) ?_ (ih _ _ _ h)))
      obtain ⟨ps, e1, e2⟩ := flushIfFull_follows (accept := accept) h3
      exact ⟨ps, e1, e2⟩

theorem write_follows {W : Nat} {dw dw' : DigitWriter} {buf : List Nat} (h : dw.write W buf = .ok dw') :
    Follows accept (dw.strip.write accept W buf) dw dw' := writeLoop_follows _ _ _ _ h

/-! ### Power-of-two radix -/

theorem pow2Word_follows {W word log width : Nat} {dw dw' : DigitWriter}
    (h : pow2WordWrite W word log width dw = .ok dw') :
    Follows accept (pow2WordSink accept W word log width dw.strip) dw dw' := by
  obtain ⟨_, h1, h⟩ := ok_of_bind h
  obtain ⟨_, h2, h⟩ := ok_of_bind h
  obtain ⟨_, h3, h⟩ := ok_of_bind h
  exact .bindR h1 (.bindR h2 (.bindR h3 (write_follows h)))

theorem pow2LargeLoop_follows {W log mask : Nat} : ∀ (fuel word bits : Nat) (rest : List Nat)
    (dw dw' : DigitWriter), pow2LargeLoop' W log mask fuel word bits rest dw = .ok dw' →
    Follows accept (pow2LargeLoopSink accept W log mask fuel word bits rest dw.strip) dw dw' := by
  intro fuel
  induction fuel with
  | zero => intro word bits rest dw dw' h; cases h
  | succ fuel ih =>
    intro word bits rest dw dw' h
    unfold pow2LargeLoop' at h
    unfold pow2LargeLoopSink
    obtain ⟨s, h1, h⟩ := ok_of_bind h
    refine .bindR h1 ?_
    rcases s with - | ⟨digit, word, bits, rest⟩
    · cases h; exact follows_pure _
    · obtain ⟨d, h2, h⟩ := ok_of_bind h
      exact (write_follows h2).bind (ih _ _ _ _ _ h)

theorem pow2Large_follows {cfg : Cfg} {words : List Nat} {log width : Nat} {dw dw' : DigitWriter}
    (h : pow2LargeWrite cfg words log width dw = .ok dw') :
    Follows accept (pow2LargeSink accept cfg words log width dw.strip) dw dw' := by
  unfold pow2LargeWrite at h
  unfold pow2LargeSink
  obtain ⟨_, h1, h⟩ := ok_of_bind h
  refine .bindR h1 ?_
  generalize words.reverse = l at h ⊢
  rcases l with - | ⟨w, ws⟩
  · cases h
  · obtain ⟨_, h2, h⟩ := ok_of_bind h
    obtain ⟨_, h3, h⟩ := ok_of_bind h
    obtain ⟨_, h4, h⟩ := ok_of_bind h
    obtain ⟨_, h5, h⟩ := ok_of_bind h
    exact .bindR h2 (.bindR h3 (.bindR h4 (.bindR h5 (pow2LargeLoop_follows _ _ _ _ _ _ h))))

/-! ### Other radixes -/

theorem npGroups_follows {W radix k : Nat} : ∀ (gs : List Nat) (dw dw' : DigitWriter),
    npWriteGroups W radix k gs dw = .ok dw' → Follows accept (npGroupsSink accept W radix k gs dw.strip) dw dw' := by
  intro gs
  induction gs with
  | nil => intro dw dw' h; cases h; exact follows_pure _
  | cons g gs ih =>
    intro dw dw' h
    unfold npWriteGroups at h
    unfold npGroupsSink
    obtain ⟨_, h1, h⟩ := ok_of_bind h
    obtain ⟨_, h2, h⟩ := ok_of_bind h
    exact .bindR h1 ((write_follows h2).bind (ih _ _ h))

theorem npMedium_follows {W radix : Nat} {p : PreparedMedium} {dw dw' : DigitWriter}
    (h : npMediumWrite W p radix dw = .ok dw') : Follows accept (npMediumSink accept W p radix dw.strip) dw dw' := by
  obtain ⟨_, h1, h⟩ := ok_of_bind h
  obtain ⟨_, h2, h⟩ := ok_of_bind h
  exact .bindR h1 ((write_follows h2).bind (npGroups_follows _ _ _ h))

theorem npChunk_follows {W radix : Nat} {x : UBig} {dw dw' : DigitWriter}
    (h : npWriteChunk W radix dw x = .ok dw') : Follows accept (npChunkSink accept W radix dw.strip x) dw dw' := by
  obtain ⟨_, h1, h⟩ := ok_of_bind h
  obtain ⟨_, h2, h⟩ := ok_of_bind h
  obtain ⟨⟨_, _⟩, h3, h⟩ := ok_of_bind h
  obtain ⟨_, h4, h⟩ := ok_of_bind h
  exact .bindR h1 (.bindR h2 (.bindR h3 (.bindR h4 (npGroups_follows _ _ _ h))))

theorem npBigChunk_follows {cfg : Cfg} {radix : Nat} {powers : List UBig} : ∀ (i : Nat) (x : UBig)
    (dw dw' : DigitWriter), npWriteBigChunk cfg radix powers i dw x = .ok dw' →
    Follows accept (npBigChunkSink accept cfg radix powers i dw.strip x) dw dw' := by
  intro i
  induction i with
  | zero => intro x dw dw' h; exact npChunk_follows h
  | succ i ih =>
    intro x dw dw' h
    unfold npWriteBigChunk at h
    unfold npBigChunkSink
    generalize powers[i]? = o at h ⊢
    rcases o with - | p
    · cases h
    · obtain ⟨⟨q, r⟩, h1, h⟩ := ok_of_bind h
      obtain ⟨d, h2, h⟩ := ok_of_bind h
      exact .bindR h1 ((ih _ _ _ h2).bind (ih _ _ _ h))

theorem npChunks_follows {cfg : Cfg} {radix : Nat} {powers : List UBig} : ∀ (cs : List (Nat × UBig))
    (dw dw' : DigitWriter), npWriteChunks cfg radix powers cs dw = .ok dw' →
    Follows accept (npChunksSink accept cfg radix powers cs dw.strip) dw dw' := by
  intro cs
  induction cs with
  | nil => intro dw dw' h; cases h; exact follows_pure _
  | cons c cs ih =>
    intro dw dw' h
    obtain ⟨i, x⟩ := c
    obtain ⟨d, h2, h⟩ := ok_of_bind h
    exact (npBigChunk_follows _ _ _ _ h2).bind (ih _ _ h)

theorem npLarge_follows {cfg : Cfg} {radix : Nat} {p : PreparedLarge} {dw dw' : DigitWriter}
    (h : npLargeWrite cfg p radix dw = .ok dw') : Follows accept (npLargeSink accept cfg p radix dw.strip) dw dw' := by
  obtain ⟨d, h2, h⟩ := ok_of_bind h
  exact (npMedium_follows h2).bind (npChunks_follows _ _ _ h)

/-! ### Whole numbers -/

/-- `x` delivers a text, whatever the way it is cut. -/
def DeliversText (accept : Calls → Bool) (x : Io Unit) (text : List Nat) : Prop :=
  ∃ ps : Calls, ps.flatten = text ∧ Delivers accept x ps ()

theorem DeliversText.bind {x y : Io Unit} {s t : List Nat} (hx : DeliversText accept x s)
    (hy : DeliversText accept y t) : DeliversText accept (x >>= fun _ => y) (s ++ t) := by
  obtain ⟨ps, h1, h2⟩ := hx
  obtain ⟨qs, h3, h4⟩ := hy
  exact ⟨ps ++ qs, by rw [List.flatten_append, h1, h3], h2.bind h4⟩

theorem DeliversText.bindR {α : Type} {x : R α} {a : α} {f : α → Io Unit} {t : List Nat} (hx : x = .ok a)
    (hf : DeliversText accept (f a) t) : DeliversText accept (Io.ofR x >>= f) t := by
  obtain ⟨ps, h1, h2⟩ := hf
  exact ⟨ps, h1, h2.bindR hx⟩

theorem deliversText_write (s : List Nat) : DeliversText accept (Io.writeStr accept s) s :=
  ⟨[s], by simp, delivers_write s⟩

theorem deliversText_repeat (ch n : Nat) :
    DeliversText accept (Io.writeRepeat accept ch n) (List.replicate n ch) :=
  ⟨_, flatten_replicate_one ch n, delivers_repeat ch n⟩

/-- The two ways to write digits agree. -/
def SamePrepared (accept : Calls → Bool) (p : Prepared) (q : PreparedSink) : Prop :=
  q.width = p.width ∧ ∀ dw dw', p.write dw = .ok dw' → Follows accept (q.write dw.strip) dw dw'

theorem writeDigits_delivers {W : Nat} {be : Bool} {c : DigitCase} {p : Prepared} {q : PreparedSink}
    (hpq : SamePrepared accept p q) {digits : List Nat} (h : writeDigits W be c p = .ok digits) :
    DeliversText accept (writeDigitsSink accept W be c q) digits := by
  obtain ⟨d1, h1, h⟩ := ok_of_bind h
  obtain ⟨d2, h2, h⟩ := ok_of_bind h
  cases h
  obtain ⟨ps, e1, e2⟩ := hpq.2 _ _ h1
  obtain ⟨qs, e3, e4⟩ := flush_follows (accept := accept) h2
  refine ⟨ps ++ (qs ++ []), ?_, e2.bind (e4.bind (delivers_pure ()))⟩
  rw [e3, e1]
  simp

theorem formatPrepared_delivers {cfg : Cfg} {be : Bool} {sign : Sign} {pre : List Nat} {c : DigitCase} {f : FmtFlags}
    {p : Prepared} {q : PreparedSink} (hpq : SamePrepared accept p q) {text : List Nat}
    (h : formatPrepared cfg be sign pre c f p = .ok text) :
    DeliversText accept (formatPreparedSink accept cfg be sign pre c f q) text := by
  obtain ⟨w, h1, h⟩ := ok_of_bind h
  obtain ⟨width, h2, h⟩ := ok_of_bind h
  obtain ⟨digits, h3, h⟩ := ok_of_bind h
  have hd := writeDigits_delivers hpq h3
  unfold formatPreparedSink
  refine .bindR (hpq.1.trans h1) (.bindR h2 ?_)
  have plain : DeliversText accept (do
      Io.writeStr accept (signStr sign f)
      Io.writeStr accept pre
      writeDigitsSink accept cfg.W be c q) (signStr sign f ++ (pre ++ digits)) :=
    (deliversText_write _).bind ((deliversText_write _).bind hd)
  generalize f.width = fw at h ⊢
  rcases fw with - | minWidth
  · cases h
    rw [List.append_assoc]
    exact plain
  · simp only at h ⊢
    split at h
    · rw [if_pos (by assumption)]
      cases h
      rw [List.append_assoc]
      exact plain
    · rw [if_neg (by assumption)]
      split at h
      · rw [if_pos (by assumption)]
        cases h
        rw [List.append_assoc, List.append_assoc]
        exact (deliversText_write _).bind ((deliversText_write _).bind ((deliversText_repeat _ _).bind hd))
      · rw [if_neg (by assumption)]
        cases h
        simp only [List.append_assoc]
        exact (deliversText_repeat _ _).bind
          ((deliversText_write _).bind ((deliversText_write _).bind (hd.bind (deliversText_repeat _ _))))

theorem fmtFull_delivers {cfg : Cfg} {be : Bool} {sign : Sign} {mag : UBig} {radix : Nat} {pre : List Nat}
    {c : DigitCase} {f : FmtFlags} {text : List Nat} (h : fmtFull cfg be sign mag radix pre c f = .ok text) :
    DeliversText accept (fmtFullSink accept cfg be sign mag radix pre c f) text := by
  unfold fmtFull at h
  unfold fmtFullSink
  split at h
  · rw [if_pos (by assumption)]
    unfold fmtPow2 at h
    unfold fmtPow2Sink
    obtain ⟨_, h1, h⟩ := ok_of_bind h
    refine .bindR h1 ?_
    rcases mag with w | b
    · exact formatPrepared_delivers ⟨rfl, fun _ _ h => pow2Word_follows h⟩ h
    · obtain ⟨_, h2, h⟩ := ok_of_bind h
      exact .bindR h2 (formatPrepared_delivers ⟨rfl, fun _ _ h => pow2Large_follows h⟩ h)
  · rw [if_neg (by assumption)]
    unfold fmtNonPow2 at h
    unfold fmtNonPow2Sink
    obtain ⟨_, h1, h⟩ := ok_of_bind h
    refine .bindR h1 ?_
    rcases mag with w | b
    · obtain ⟨_, h2, h⟩ := ok_of_bind h
      exact .bindR h2 (formatPrepared_delivers ⟨rfl, fun _ _ h => write_follows h⟩ h)
    · obtain ⟨_, h2, h⟩ := ok_of_bind h
      obtain ⟨_, h3, h⟩ := ok_of_bind h
      refine .bindR h2 (.bindR h3 ?_)
      split at h
      · rw [if_pos (by assumption)]
        obtain ⟨_, h4, h⟩ := ok_of_bind h
        exact .bindR h4 (formatPrepared_delivers ⟨rfl, fun _ _ h => npMedium_follows h⟩ h)
      · rw [if_neg (by assumption)]
        obtain ⟨_, h4, h⟩ := ok_of_bind h
        exact .bindR h4 (formatPrepared_delivers ⟨rfl, fun _ _ h => npLarge_follows h⟩ h)

/-! ### Rings -/

theorem ringFmt_delivers {cut : List Nat → Calls} (hcut : ∀ s, (cut s).flatten = s) {cfg : Cfg} {be : Bool}
    {t : FmtTrait} {r : Ring} {f : FmtFlags} {text : List Nat} (h : r.fmt cfg be t f = .ok text) :
    DeliversText accept (r.fmtSink accept cut cfg be t f) text := by
  unfold Ring.fmt at h
  unfold Ring.fmtSink
  generalize r.repr = rr at h ⊢
  rcases rr with s | l
  · obtain ⟨m, h1, h⟩ := ok_of_bind h
    cases h
    exact (deliversText_write _).bind (.bindR h1 ⟨_, hcut _, delivers_all _⟩)
  · obtain ⟨m, h1, h⟩ := ok_of_bind h
    obtain ⟨t, h2, h⟩ := ok_of_bind h
    cases h
    exact (deliversText_write _).bind (.bindR h1 (fmtFull_delivers h2))

theorem moduloFmt_delivers {cut : List Nat → Calls} (hcut : ∀ s, (cut s).flatten = s) {cfg : Cfg} {be : Bool}
    {t : FmtTrait} {x : Modulo} {f : FmtFlags} {text : List Nat} (h : x.fmt cfg be t f = .ok text) :
    DeliversText accept (x.fmtSink accept cut cfg be t f) text := by
  unfold Modulo.fmt at h
  unfold Modulo.fmtSink
  rcases x with s | l
  · obtain ⟨m, h1, h⟩ := ok_of_bind h
    obtain ⟨t, h2, h⟩ := ok_of_bind h
    cases h
    simp only [List.append_assoc]
    exact .bindR h1 (DeliversText.bind ⟨_, hcut _, delivers_all _⟩
      ((deliversText_write _).bind ((ringFmt_delivers hcut h2).bind (deliversText_write _))))
  · obtain ⟨m, h1, h⟩ := ok_of_bind h
    obtain ⟨t, h2, h⟩ := ok_of_bind h
    obtain ⟨r, h3, h⟩ := ok_of_bind h
    cases h
    simp only [List.append_assoc]
    exact .bindR h1 ((fmtFull_delivers h2).bind
      ((deliversText_write _).bind ((ringFmt_delivers hcut h3).bind (deliversText_write _))))

/-! ### What is observed -/

theorem deliver_spec {α : Type} (a : α) : ∀ (ps c : Calls), (∀ k < c.length, accept (c.take (k + 1)) = true) →
    ∃ result qs, deliver accept a c ps = (result, c ++ qs) ∧ qs <+: ps ∧
      match result with
      | .ok _ => AcceptedBefore accept (c ++ qs) (c ++ qs).length ∧ qs = ps
      | .error _ => c ++ qs ≠ [] ∧ accept (c ++ qs) = false ∧
          AcceptedBefore accept (c ++ qs) ((c ++ qs).length - 1) := by
  intro ps
  induction ps with
  | nil => intro c hc; exact ⟨.ok a, [], by simp [deliver], by simp, by simpa [AcceptedBefore] using hc⟩
  | cons p ps ih =>
    intro c hc
    unfold deliver
    by_cases hp : accept (c ++ [p]) = true
    · rw [if_pos hp]
      obtain ⟨r, qs, h1, h2, h3⟩ := ih (c ++ [p]) (by
        intro k hk
        rw [List.length_append, List.length_singleton] at hk
        by_cases e : k = c.length
        · rw [e, List.take_of_length_le (by simp)]; exact hp
        · rw [List.take_append_of_le_length (by omega)]; exact hc k (by omega))
      refine ⟨r, p :: qs, by rw [h1]; simp, by simpa using h2, ?_⟩
      rw [List.append_assoc] at h3
      rcases r with e | a'
      · exact h3
      · exact ⟨h3.1, by rw [h3.2]⟩
    · rw [if_neg hp]
      refine ⟨.error (), [p], rfl, by simp, by simp, by simpa using hp, ?_⟩
      intro k hk
      simp only [List.length_append, List.length_singleton, Nat.add_sub_cancel] at hk
      rw [List.take_append_of_le_length (by omega)]
      exact hc k hk

theorem DeliversText.prints {x : Io Unit} {text : List Nat} (h : DeliversText accept x text) :
    PrintsInto accept text x := by
  obtain ⟨ps, h1, h2⟩ := h
  obtain ⟨r, qs, e1, e2, e3⟩ := deliver_spec (accept := accept) () ps [] (by simp)
  rw [List.nil_append] at e1 e3
  refine ⟨r, qs, by rw [h2 [], e1], ?_⟩
  rcases r with e | a
  · refine ⟨e3.1, e3.2.1, e3.2.2, ?_⟩
    rw [← h1]
    obtain ⟨t, rfl⟩ := e2
    rw [List.flatten_append]
    exact List.prefix_append _ _
  · exact ⟨e3.1, by rw [e3.2, h1]⟩

end

end Ibig
