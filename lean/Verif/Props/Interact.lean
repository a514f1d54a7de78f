import Verif.Proofs.Interact
import Verif.Props.ModUnwind
/-!
# C74: programs that react to what they see
-/
namespace Ibig

/-- C74: a program with any control flow (`next` says which instructions may follow what it has done and seen so far), which
may use every operation of the programs of C71 and also `extended_gcd`, serialization and random numbers, and may
catch panics and go on.  Whatever it does and sees, the mathematical program is permitted to do and see, and in the end
every variable satisfies the invariants of its type and stands for the number, ring or element that the specification
gives. -/
theorem C74_programs {cfg : Cfg} (hv : cfg.Valid) (be : Bool) {addr : Nat → Nat} (ha : Function.Injective addr)
    {next : List Event → XInstr → Prop} (hn : ∀ tr c, next tr c → c.OK cfg) {s : Store UBig IBig} (hs : s.WF cfg)
    {tr : List Event} {t : MState} (h : Run cfg be addr next (.start s) tr t) :
    ∃ w, MathRun cfg next (.start (s.values cfg)) tr w ∧ MState.Means cfg addr t w :=
  Run.ref hv ha hn ⟨hs, rfl, fun _ => trivial, fun _ => trivial⟩ h

theorem XInstr.May.kinds {cfg : Cfg} {v : MathState} {c : XInstr} {e : Panic} (h : c.May cfg v (.error e)) :
    DocumentedM e ∨ e = .emptyRange ∨ (∃ i, c = .base i ∧ (e = .outOfMemory ∧ ¬i.Room cfg v ∨ e = .unwrap ∧ ¬i.Defined v)) := by
  cases h with
  | panic _ h => exact .inl h
  | limit h1 h =>
    rcases h with rfl | rfl
    · exact .inl (.inl (by simp [Documented]))
    · exact .inr (.inr ⟨_, rfl, .inl ⟨rfl, h1⟩⟩)
  | undefined h => exact .inr (.inr ⟨_, rfl, .inr ⟨rfl, h⟩⟩)
  | urandEmpty => exact .inr (.inl rfl)
  | irandEmpty => exact .inr (.inl rfl)
  | _ => exact .inl (.inl (by simp [Documented]))

/-- C74: each panic of such a program is documented, or is the report of an empty range by `rand`, or is "out of
memory" in an instruction that has no room with the numbers that the variables stand for at that point, or is the report of
a variable that holds nothing, which the Rust compiler rejects. -/
theorem C74_panics {cfg : Cfg} (hv : cfg.Valid) (be : Bool) {addr : Nat → Nat} (ha : Function.Injective addr)
    {next : List Event → XInstr → Prop} (hn : ∀ tr c, next tr c → c.OK cfg) {s : Store UBig IBig} (hs : s.WF cfg)
    {tr : List Event} {t : MState} (h : Run cfg be addr next (.start s) tr t) {past future : List Event} {ev : Event}
    (htr : tr = past ++ ev :: future) {e : Panic} (he : ev.panic = some e) :
    DocumentedM e ∨ e = .emptyRange ∨ ∃ i v, ev.instr = .base i ∧ MathRun cfg next (.start (s.values cfg)) past v ∧
      (e = .outOfMemory ∧ ¬i.Room cfg v ∨ e = .unwrap ∧ ¬i.Defined v) := by
  obtain ⟨w, h1, -⟩ := C74_programs hv be ha hn hs h
  clear h
  induction h1 generalizing future with
  | start => simp at htr
  | @step tr w w' c o h hx hm ih =>
    rcases List.eq_nil_or_concat future with rfl | ⟨future, x, rfl⟩
    · obtain ⟨-, h⟩ := List.append_inj' htr rfl
      cases h
      cases he
    · rw [List.concat_eq_append, ← List.cons_append, ← List.append_assoc] at htr
      exact ih (List.append_inj' htr rfl).1
  | @panic tr w c e' h hx hm ih =>
    rcases List.eq_nil_or_concat future with rfl | ⟨future, x, rfl⟩
    · obtain ⟨rfl, h'⟩ := List.append_inj' htr rfl
      cases h'
      cases he
      rcases hm.kinds with h1 | h1 | ⟨i, h1, h2⟩
      · exact .inl h1
      · exact .inr (.inl h1)
      · exact .inr (.inr ⟨i, _, h1, h, h2⟩)
    · rw [List.concat_eq_append, ← List.cons_append, ← List.append_assoc] at htr
      exact ih (List.append_inj' htr rfl).1

/-- C74: every number of the range can come out of a random draw, at any point of any program. -/
theorem C74_random {cfg : Cfg} (hv : cfg.Valid) (be : Bool) {addr : Nat → Nat} (ha : Function.Injective addr)
    {next : List Event → XInstr → Prop} (hn : ∀ tr c, next tr c → c.OK cfg) {s : Store UBig IBig} (hs : s.WF cfg)
    {tr : List Event} {t : MState} (h : Run cfg be addr next (.start s) tr t) (k : Bool) (d low high : Nat) :
    (next tr (.urand k d low high) → ∀ n, (t.n.u low).value cfg ≤ n →
      n < (t.n.u high).value cfg + (if k then 1 else 0) → (k = true → Fits cfg ((t.n.u high).value cfg - (t.n.u low).value cfg + 1)) →
      ∃ t', Run cfg be addr next (.start s) (tr ++ [⟨.urand k d low high, [], none⟩]) t' ∧ (t'.n.u d).value cfg = n) ∧
    (next tr (.irand k d low high) → ∀ z, (t.n.i low).value cfg ≤ z →
      z < (t.n.i high).value cfg + (if k then 1 else 0) →
      Fits cfg ((t.n.i high).value cfg - (t.n.i low).value cfg + (if k then 1 else 0)).natAbs →
      ∃ t', Run cfg be addr next (.start s) (tr ++ [⟨.irand k d low high, [], none⟩]) t' ∧ (t'.n.i d).value cfg = z) := by
  obtain ⟨w, -, hw⟩ := C74_programs hv be ha hn hs h
  have hwu : ∀ k, (t.n.u k).WF cfg := hw.wf.1
  have hwi : ∀ k, (t.n.i k).WF cfg := hw.wf.2
  refine ⟨fun hx n h1 h2 hf => ?_, fun hx z h1 h2 hf => ?_⟩
  · have key : ∃ y, SampleCan (if k then UniformUBig.newInclusive cfg (t.n.u low) (t.n.u high)
        else UniformUBig.new cfg (t.n.u low) (t.n.u high)) (fun t u => u.sample cfg t) (.ok y) ∧ y.value cfg = n := by
      cases k
      · obtain ⟨u, e, hun⟩ := (C32_ubig_new hv (hwu low) (hwu high)).1 (by simp only [Bool.false_eq_true, if_false] at h2; omega)
        obtain ⟨y, g1, -, g2⟩ := (UniformOn.can (sample := fun t (u : UniformUBig) => u.sample cfg t) hun e).2 n
          (by omega) (by simp only [Bool.false_eq_true, if_false] at h2; omega)
        exact ⟨y, g1, by exact_mod_cast g2⟩
      · obtain ⟨u, e, hun⟩ := (C32_ubig_new_inclusive hv (hwu low) (hwu high)).1
          (by simp only [if_true] at h2; omega) (hf rfl)
        obtain ⟨y, g1, -, g2⟩ := (UniformOn.can (sample := fun t (u : UniformUBig) => u.sample cfg t) hun e).2 n
          (by omega) (by simp only [if_true] at h2; omega)
        exact ⟨y, g1, by exact_mod_cast g2⟩
    obtain ⟨y, g1, g2⟩ := key
    exact ⟨_, .step h hx ⟨_, g1, rfl⟩, by simpa [Store.setU] using g2⟩
  · have key : ∃ y, SampleCan (if k then UniformIBig.newInclusive cfg (t.n.i low) (t.n.i high)
        else UniformIBig.new cfg (t.n.i low) (t.n.i high)) (fun t u => u.sample cfg t) (.ok y) ∧ y.value cfg = z := by
      cases k
      · simp only [Bool.false_eq_true, if_false, add_zero] at h2 hf
        obtain ⟨u, e, hun⟩ := (C32_ibig_new hv (hwi low) (hwi high)).1 (by omega) hf
        obtain ⟨y, g1, -, g2⟩ := (UniformOn.can (sample := fun t (u : UniformIBig) => u.sample cfg t) hun e).2 z h1 h2
        exact ⟨y, g1, g2⟩
      · simp only [if_true] at h2 hf
        obtain ⟨u, e, hun⟩ := (C32_ibig_new_inclusive hv (hwi low) (hwi high)).1 (by omega) hf
        obtain ⟨y, g1, -, g2⟩ := (UniformOn.can (sample := fun t (u : UniformIBig) => u.sample cfg t) hun e).2 z h1 h2
        exact ⟨y, g1, g2⟩
    obtain ⟨y, g1, g2⟩ := key
    exact ⟨_, .step h hx ⟨_, g1, rfl⟩, by simpa [Store.setI] using g2⟩

/-- Every instruction has an outcome. -/
theorem XInstr.can {cfg : Cfg} (hv : cfg.Valid) (be : Bool) (addr : Nat → Nat) {s : MState} (hs : s.n.WF cfg) (c : XInstr) :
    ∃ out, c.Can cfg be addr s out := by
  have key : ∀ {δ α : Type} {dist : R δ} {sample : Nat → δ → Draw (Option α)} {wf : α → Prop} {value : α → Int}
      {low high : Int}, low < high → (∃ d, dist = .ok d ∧ UniformOn (fun t => sample t d) wf value low high) →
      ∃ r, SampleCan dist sample r := by
    rintro δ α dist sample wf value low high hlt ⟨d, e, hd⟩
    obtain ⟨y, h, -⟩ := (UniformOn.can hd e).2 low le_rfl hlt
    exact ⟨_, h⟩
  have err : ∀ {δ α : Type} {dist : R δ} {sample : Nat → δ → Draw (Option α)} {e : Panic}, dist = .error e →
      ∃ r, SampleCan dist sample r := fun h => ⟨_, (SampleCan.of_error h).mpr rfl⟩
  cases c with
  | urand k d low high =>
    suffices h : ∃ r, SampleCan (if k then UniformUBig.newInclusive cfg (s.n.u low) (s.n.u high)
        else UniformUBig.new cfg (s.n.u low) (s.n.u high)) (fun t u => u.sample cfg t) r by
      obtain ⟨r, h⟩ := h
      exact ⟨_, r, h, rfl⟩
    cases k
    · obtain ⟨h1, h2, h3⟩ := C32_ubig_new hv (hs.1 low) (hs.1 high)
      rcases Nat.lt_trichotomy ((s.n.u low).value cfg) ((s.n.u high).value cfg) with g | g | g
      · exact key (sample := fun t (u : UniformUBig) => u.sample cfg t) (by exact_mod_cast g) (h1 g)
      · exact err (h2 g)
      · exact err (h3 g)
    · obtain ⟨h1, h2, h3⟩ := C32_ubig_new_inclusive hv (hs.1 low) (hs.1 high)
      rcases Nat.lt_or_ge ((s.n.u high).value cfg) ((s.n.u low).value cfg) with g | g
      · exact err (h3 g)
      · by_cases hf : Fits cfg ((s.n.u high).value cfg - (s.n.u low).value cfg + 1)
        · exact key (sample := fun t (u : UniformUBig) => u.sample cfg t) (by omega) (h1 g hf)
        · exact err (h2 g hf)
  | irand k d low high =>
    suffices h : ∃ r, SampleCan (if k then UniformIBig.newInclusive cfg (s.n.i low) (s.n.i high)
        else UniformIBig.new cfg (s.n.i low) (s.n.i high)) (fun t u => u.sample cfg t) r by
      obtain ⟨r, h⟩ := h
      exact ⟨_, r, h, rfl⟩
    cases k
    · obtain ⟨h1, h2, h3⟩ := C32_ibig_new hv (hs.2 low) (hs.2 high)
      by_cases hf : Fits cfg ((s.n.i high).value cfg - (s.n.i low).value cfg).natAbs
      · rcases lt_or_ge ((s.n.i low).value cfg) ((s.n.i high).value cfg) with g | g
        · exact key (sample := fun t (u : UniformIBig) => u.sample cfg t) g (h1 g hf)
        · exact err (h2 g hf)
      · exact err (h3 hf)
    · obtain ⟨h1, h2, h3⟩ := C32_ibig_new_inclusive hv (hs.2 low) (hs.2 high)
      by_cases hf : Fits cfg ((s.n.i high).value cfg - (s.n.i low).value cfg).natAbs
      · by_cases hf' : Fits cfg ((s.n.i high).value cfg - (s.n.i low).value cfg + 1).natAbs
        · rcases lt_or_ge ((s.n.i high).value cfg) ((s.n.i low).value cfg) with g | g
          · exact err (h2 g hf)
          · exact key (sample := fun t (u : UniformIBig) => u.sample cfg t) (by omega) (h1 g hf')
        · exact err (h3 (.inr hf'))
      · exact err (h3 (.inl hf))
  | _ => exact ⟨_, rfl⟩

/-- C74: no program gets stuck: a run can be continued with every instruction that the program chooses, with a result
or a panic. -/
theorem C74_progress {cfg : Cfg} (hv : cfg.Valid) (be : Bool) {addr : Nat → Nat} (ha : Function.Injective addr)
    {next : List Event → XInstr → Prop} (hn : ∀ tr c, next tr c → c.OK cfg) {s : Store UBig IBig} (hs : s.WF cfg)
    {tr : List Event} {t : MState} (h : Run cfg be addr next (.start s) tr t) {c : XInstr} (hc : next tr c) :
    ∃ ev t', ev.instr = c ∧ Run cfg be addr next (.start s) (tr ++ [ev]) t' := by
  obtain ⟨w, -, hw⟩ := C74_programs hv be ha hn hs h
  obtain ⟨out, ho⟩ := XInstr.can hv be addr hw.wf c
  match out, ho with
  | .ok (t', o), ho => exact ⟨_, t', rfl, .step h hc ho⟩
  | .error e, ho => exact ⟨_, _, rfl, .panic h hc ho⟩

/-! ### An example -/

/-- Draw a number from a range; if that panics, draw one from another range; then compute an extended gcd, a product modulo
the gcd, write the result to a data format, read it back, and begin again if its lowest digit is even. -/
def exNext (tr : List Event) (c : XInstr) : Prop :=
  match tr.getLast? with
  | none => c = .urand false 2 0 1
  | some ev =>
    match ev.instr, ev.panic with
    | .urand false .., some _ => c = .urand true 2 1 0
    | .urand .., _ => c = .uextGcd 3 0 1 2 0
    | .uextGcd .., _ => c = .base (.ring 0 3)
    | .base (.ring ..), none => c = .base (.ofI .ref 0 0 0)
    | .base (.ring ..), some _ => c = .base (.num (.ubin .div .ref .ref 2 0 3))
    | .base (.ofI ..), _ => c = .base (.residue 4 0)
    | .base (.residue ..), _ => c = .userde true 5 4
    | .userde .., _ => ∃ d ∈ ev.seen.getLast?, (∃ l, d = .list l ∧ l.headD 0 % 2 = 0) ∧ c = .urand false 2 0 1
    | _, _ => False

theorem exNext_ok {cfg : Cfg} : ∀ tr c, exNext tr c → c.OK cfg := by
  intro tr c h
  unfold exNext at h
  split at h
  · subst h; trivial
  · split at h
    all_goals first | (subst h; trivial) | exact h.elim | skip
    obtain ⟨_, _, _, rfl⟩ := h
    trivial

example {cfg : Cfg} (hv : cfg.Valid) {s : Store UBig IBig} (hs : s.WF cfg) {tr : List Event} {t : MState} :=
  C74_programs hv false (addr := fun k => 1000 + 8 * k) (fun a b h => by simpa using h) exNext_ok hs (tr := tr) (t := t)

/-- On a 64-bit build, from `2^128 - 1` and `2^64 + 5`: the first draw panics, because its range is upside down. -/
theorem exNext_panics : Run cfg64 false (fun k => 1000 + 8 * k) exNext (.start exStore)
    [⟨.urand false 2 0 1, [], some .negativeUBig⟩] (.start exStore) :=
  .panic (tr := []) .start rfl ⟨.error .negativeUBig, (SampleCan.of_error (by decide +kernel)).mpr rfl, rfl⟩

/-- That panic is one of the permitted ones. -/
example := C74_panics cfg64_valid false (fun a b h => by simpa using h) exNext_ok exStore_wf
  exNext_panics (past := []) (future := []) rfl (e := .negativeUBig) rfl

/-- The second draw can give `2^100`, and the program goes on with the extended gcd. -/
example : ∃ t ev t', Run cfg64 false (fun k => 1000 + 8 * k) exNext (.start exStore)
      [⟨.urand false 2 0 1, [], some .negativeUBig⟩, ⟨.urand true 2 1 0, [], none⟩] t ∧ (t.n.u 2).value cfg64 = 2 ^ 100 ∧
    ev.instr = .uextGcd 3 0 1 2 0 ∧ Run cfg64 false (fun k => 1000 + 8 * k) exNext (.start exStore)
      [⟨.urand false 2 0 1, [], some .negativeUBig⟩, ⟨.urand true 2 1 0, [], none⟩, ev] t' := by
  have ha : Function.Injective (fun k => 1000 + 8 * k) := fun a b h => by simpa using h
  obtain ⟨t, h1, h2⟩ := (C74_random cfg64_valid false ha exNext_ok exStore_wf exNext_panics true 2 1 0).1 rfl (2 ^ 100)
    (by decide +kernel) (by decide +kernel) (fun _ => fitsEx 200 (by decide +kernel) (by decide))
  obtain ⟨ev, t', h3, h4⟩ := C74_progress cfg64_valid false ha exNext_ok exStore_wf h1 (c := .uextGcd 3 0 1 2 0) rfl
  exact ⟨t, ev, t', h1, h2, h3, h4⟩

end Ibig
