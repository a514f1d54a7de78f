import Verif.Model.SerdeErr
import Verif.Proofs.Serde
/-! Serialisation with a data format that can report errors. -/
namespace Ibig

/-! ### Serialisation -/

/-- Make the calls `todo`, one after another, until one fails. -/
def makeCalls {E : Type} (format : List SerCall → Except E Unit) : List SerCall → List SerCall →
    Except E Unit × List SerCall
  | c, [] => (.ok (), c)
  | c, p :: ps =>
    match format (c ++ [p]) with
    | .error e => (.error e, c ++ [p])
    | .ok _ => makeCalls format (c ++ [p]) ps

theorem serializeLoop_eq {E : Type} (format : List SerCall → Except E Unit) {W : Nat} : ∀ (cs : List (List Nat))
    (es : List Nat), joinChunks W cs = .ok es → ∀ calls,
    serializeLoop format W cs calls = .ok (makeCalls format calls (es.map .element ++ [.finish])) := by
  intro cs
  induction cs with
  | nil =>
    intro es h calls
    cases h
    simp only [serializeLoop, List.map_nil, List.nil_append, makeCalls]
    generalize format (calls ++ [SerCall.finish]) = q
    rcases q with e | u <;> rfl
  | cons c cs ih =>
    intro es h calls
    unfold joinChunks at h
    rcases h1 : joinWords W 0 c 0 with p | x
    · rw [h1] at h; cases h
    · rw [h1] at h
      simp only [bind, Except.bind] at h
      rcases h2 : joinChunks W cs with p | xs
      · rw [h2] at h; cases h
      · rw [h2] at h
        cases h
        simp only [serializeLoop, h1, bind, Except.bind, List.map_cons, List.cons_append, makeCalls]
        generalize format (calls ++ [SerCall.element x]) = q
        rcases q with e | u
        · rfl
        · exact ih xs h2 _

theorem UBig.serializeInto_eq {E : Type} (format : List SerCall → Except E Unit) {cfg : Cfg} {x : UBig} {n : Nat}
    {es : List Nat} (h : x.serialize cfg = .ok (n, es)) :
    x.serializeInto format cfg = .ok (makeCalls format [] (.seq n :: es.map .element ++ [.finish])) := by
  unfold UBig.serialize at h
  unfold UBig.serializeInto
  simp only at h ⊢
  generalize chunksFuel (wordsPerU64 cfg.W) x.asWords.length x.asWords = cs at h ⊢
  rcases h1 : joinChunks cfg.W cs with p | xs
  · rw [h1] at h; cases h
  · rw [h1] at h
    cases h
    simp only [List.cons_append, makeCalls, List.nil_append]
    generalize format [SerCall.seq cs.length] = q
    rcases q with e | u
    · rfl
    · exact serializeLoop_eq format cs es h1 _

theorem makeCalls_spec {E : Type} (format : List SerCall → Except E Unit) : ∀ (ps c : List SerCall),
    (∀ k < c.length, format (c.take (k + 1)) = .ok ()) →
    ∃ result qs, makeCalls format c ps = (result, c ++ qs) ∧ qs <+: ps ∧
      match result with
      | .ok _ => (∀ k < (c ++ qs).length, format ((c ++ qs).take (k + 1)) = .ok ()) ∧ qs = ps
      | .error e => c ++ qs ≠ [] ∧ format (c ++ qs) = .error e ∧
          ∀ k < (c ++ qs).length - 1, format ((c ++ qs).take (k + 1)) = .ok () := by
  intro ps
  induction ps with
  | nil => intro c hc; exact ⟨.ok (), [], by simp [makeCalls], by simp, by simpa using hc⟩
  | cons p ps ih =>
    intro c hc
    unfold makeCalls
    rcases hp : format (c ++ [p]) with e | u
    · refine ⟨.error e, [p], rfl, by simp, by simp, hp, ?_⟩
      intro k hk
      simp only [List.length_append, List.length_singleton, Nat.add_sub_cancel] at hk
      rw [List.take_append_of_le_length (by omega)]
      exact hc k hk
    · simp only
      obtain ⟨r, qs, h1, h2, h3⟩ := ih (c ++ [p]) (by
        intro k hk
        rw [List.length_append, List.length_singleton] at hk
        by_cases e : k = c.length
        · rw [e, List.take_of_length_le (by simp)]; exact hp
        · rw [List.take_append_of_le_length (by omega)]; exact hc k (by omega))
      refine ⟨r, p :: qs, by rw [h1]; simp, by simpa using h2, ?_⟩
      rw [List.append_assoc] at h3
      rcases r with e | a'
      · exact h3
      · exact ⟨h3.1, by rw [h3.2]⟩

/-! ### Deserialisation without errors -/

theorem collectErr_ok {E : Type} : ∀ es : List Nat, collectErr (es.map (Except.ok (ε := E))) = .ok es
  | [] => rfl
  | x :: es => by simp only [List.map_cons, collectErr, collectErr_ok es]

theorem assertEnd_ok {E : Type} (es : List Nat) :
    assertEnd (es.map (Except.ok (ε := E))) = (do assertR (es = []); .ok (.ok ())) := by
  cases es <;> simp [assertEnd, assertR, bind, Except.bind]

theorem takeAllErr_ok {E : Type} {W : Nat} : ∀ (n : Nat) (es : List Nat) (b : Buffer),
    takeAllErr W n (es.map (Except.ok (ε := E))) b =
      (do let r ← takeAll64 W n es b; .ok (.ok (r.1, r.2.map .ok))) := by
  intro n
  induction n with
  | zero => intro es b; rfl
  | succ n ih =>
    intro es b
    cases es with
    | nil => rfl
    | cons x xs =>
      simp only [List.map_cons, takeAllErr, takeAll64]
      rcases pushWord64 W x 0 (wordsPerU64 W) b with p | c
      · rfl
      · simp only [bind, Except.bind]
        exact ih xs c

theorem UBig.deserializeErr_ok {E : Type} (cfg : Cfg) (hint : Option Nat) (es : List Nat) :
    UBig.deserializeErr cfg hint (es.map (Except.ok (ε := E))) =
      (do let u ← UBig.deserialize cfg hint es; .ok (.ok u)) := by
  match hint with
  | none =>
    simp only [UBig.deserializeErr, UBig.deserialize, collectErr_ok, bind, Except.bind]
    rcases len64ToMaxLen cfg es.length with p | m
    · rfl
    · simp only
      rcases Buffer.allocate cfg m with p | b
      · rfl
      · simp only
        rcases pushAll64 cfg.W es b with p | c <;> rfl
  | some 0 =>
    simp only [UBig.deserializeErr, UBig.deserialize, assertEnd_ok, bind, Except.bind]
    rcases assertR (es = []) with p | u <;> rfl
  | some 1 =>
    cases es with
    | nil => rfl
    | cons x xs =>
      simp only [UBig.deserializeErr, UBig.deserializeOne, UBig.deserialize, List.map_cons, assertEnd_ok, bind,
        Except.bind]
      rcases assertR (xs = []) with p | u <;> rfl
  | some (n + 2) =>
    simp only [UBig.deserializeErr, UBig.deserializeSome, UBig.deserialize, bind, Except.bind]
    rcases len64ToMaxLen cfg (n + 2) with p | m
    · rfl
    · simp only
      rcases Buffer.allocate cfg m with p | b
      · rfl
      · simp only
        rw [takeAllErr_ok]
        rcases takeAll64 cfg.W (n + 2) es b with p | ⟨c, rest⟩
        · rfl
        · simp only [bind, Except.bind, assertEnd_ok]
          rcases assertR (rest = []) with p | u <;> rfl

/-! ### Deserialisation with an error -/

theorem collectErr_error {E : Type} (e : E) (rest : SeqData E) : ∀ es : List Nat,
    collectErr (es.map .ok ++ .error e :: rest) = .error e
  | [] => rfl
  | x :: es => by simp only [List.map_cons, List.cons_append, collectErr, collectErr_error e rest es]

/-- An error among the elements that are taken. -/
theorem takeAllErr_error {E : Type} {cfg : Cfg} (hv : cfg.Valid) (e : E) (rest : SeqData E) : ∀ (es : List Nat)
    (n : Nat) (b : Buffer), (∀ x ∈ es, x < 2 ^ 64) → es.length < n → b.OK cfg →
    b.words.length + es.length * wordsPerU64 cfg.W ≤ b.cap →
    takeAllErr cfg.W n (es.map .ok ++ .error e :: rest) b = .ok (.error e) := by
  intro es
  induction es with
  | nil =>
    intro n b _ hn _ _
    obtain ⟨n, rfl⟩ : ∃ m, n = m + 1 := ⟨n - 1, by simp at hn; omega⟩
    rfl
  | cons x es ih =>
    intro n b hes hn hb hc
    obtain ⟨n, rfl⟩ : ∃ m, n = m + 1 := ⟨n - 1, by simp at hn; omega⟩
    simp only [List.mem_cons, forall_eq_or_imp] at hes
    rw [List.length_cons, Nat.succ_mul] at hc
    simp only [List.map_cons, List.cons_append, takeAllErr]
    obtain ⟨c, h0, h1, h2, l, h3, h4, -⟩ := pushWord64_spec hv hes.1 _ (Nat.zero_add _) hb (by omega)
    rw [h0]
    simp only [bind, Except.bind]
    exact ih n c hes.2 (by simpa using hn) h1 (by rw [h3, h2, List.length_append]; omega)

/-- An error after the elements that are taken. -/
theorem takeAllErr_after {E : Type} {cfg : Cfg} (hv : cfg.Valid) (rest : SeqData E) : ∀ (es : List Nat)
    (b : Buffer), (∀ x ∈ es, x < 2 ^ 64) → b.OK cfg →
    b.words.length + es.length * wordsPerU64 cfg.W ≤ b.cap →
    ∃ c, takeAllErr cfg.W es.length (es.map .ok ++ rest) b = .ok (.ok (c, rest)) := by
  intro es
  induction es with
  | nil => intro b _ _ _; exact ⟨b, rfl⟩
  | cons x es ih =>
    intro b hes hb hc
    simp only [List.mem_cons, forall_eq_or_imp] at hes
    rw [List.length_cons, Nat.succ_mul] at hc
    simp only [List.map_cons, List.cons_append, takeAllErr, List.length_cons]
    obtain ⟨c, h0, h1, h2, l, h3, h4, -⟩ := pushWord64_spec hv hes.1 _ (Nat.zero_add _) hb (by omega)
    rw [h0]
    simp only [bind, Except.bind]
    exact ih c hes.2 h1 (by rw [h3, h2, List.length_append]; omega)

theorem UBig.deserializeErr_error {E : Type} {cfg : Cfg} (hv : cfg.Valid) {hint : Option Nat} {es : List Nat}
    (hes : ∀ x ∈ es, x < 2 ^ 64) (e : E) (rest : SeqData E)
    (hh : ∀ n, hint = some n → es.length ≤ n ∧ n * wordsPerU64 cfg.W ≤ cfg.maxLen + 4) :
    UBig.deserializeErr cfg hint (es.map .ok ++ .error e :: rest) = .ok (.error e) := by
  match hint, hh with
  | none, _ => simp only [UBig.deserializeErr, collectErr_error]
  | some 0, hh =>
    have := (hh 0 rfl).1
    have : es = [] := List.length_eq_zero_iff.mp (by omega)
    subst this
    rfl
  | some 1, hh =>
    have := (hh 1 rfl).1
    match es, this with
    | [], _ => rfl
    | [x], _ => rfl
  | some (n + 2), hh =>
    obtain ⟨h1, h2⟩ := hh _ rfl
    have hU : cfg.maxLen + 4 < 2 ^ cfg.U := by
      have := hv.bits; have := hv.W16; have := hv.large
      have : cfg.maxLen * 16 ≤ cfg.maxLen * cfg.W := Nat.mul_le_mul_left _ hv.W16
      omega
    have hm : es.length * wordsPerU64 cfg.W ≤ (n + 2) * wordsPerU64 cfg.W := Nat.mul_le_mul_right _ h1
    simp only [UBig.deserializeErr, UBig.deserializeSome, len64ToMaxLen, if_pos (lt_of_le_of_lt h2 hU), bind,
      Except.bind, Buffer.allocate_ok h2]
    have hb : (⟨[], allocCap cfg ((n + 2) * wordsPerU64 cfg.W)⟩ : Buffer).OK cfg :=
      ⟨by simp [IsWords], by simp⟩
    have hcap := le_allocCap h2
    rcases Nat.lt_or_ge es.length (n + 2) with hlt | hge
    · rw [takeAllErr_error hv e rest es (n + 2) _ hes hlt hb (by simp; omega)]
    · obtain ⟨c, hc⟩ := takeAllErr_after hv (Except.error e :: rest) es _ hes hb (by simp; omega)
      have e2 : n + 2 = es.length := by omega
      rw [← e2] at hc
      rw [hc]
      rfl

end Ibig
