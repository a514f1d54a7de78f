import Verif.Proofs.InteractPortable
import Verif.Props.Interact
/-!
# C75: interactive programs do not depend on the build
-/
namespace Ibig

/-- C75: take two builds (word sizes, address sizes, placements of rings, byte orders) and an interactive program (C74), started
with variables of the same values.  Whatever it does and sees in a run on the first build, as long as
the first build reports no limit ("number too large" or "out of memory"), it can do and see on the second build, with the same
values in its variables at the end; or the second build reports a limit at some instruction of the run, and up to there everything is
the same. -/
theorem C75_portable {cfg cfg' : Cfg} (hv : cfg.Valid) (hv' : cfg'.Valid) (be be' : Bool) {addr addr' : Nat → Nat}
    (ha : Function.Injective addr) (ha' : Function.Injective addr') {next : List Event → XInstr → Prop}
    (hn : ∀ tr c, next tr c → c.OK cfg) (hn' : ∀ tr c, next tr c → c.OK cfg') {s s' : Store UBig IBig} (hs : s.WF cfg)
    (hs' : s'.WF cfg') (heq : s.values cfg = s'.values cfg') {tr : List Event} {t : MState}
    (h : Run cfg be addr next (.start s) tr t)
    (hl : ∀ ev ∈ tr, ev.panic ≠ some .tooLarge ∧ ev.panic ≠ some .outOfMemory) :
    (∃ t' v, Run cfg' be' addr' next (.start s') tr t' ∧ MState.Means cfg addr t v ∧ MState.Means cfg' addr' t' v) ∨
    ∃ pre ev post e t', tr = pre ++ ev :: post ∧ (e = .tooLarge ∨ e = .outOfMemory) ∧
      Run cfg' be' addr' next (.start s') (pre ++ [⟨ev.instr, [], some e⟩]) t' := by
  induction h with
  | start =>
    refine .inl ⟨_, .start (s.values cfg), .start, ⟨hs, rfl, fun _ => trivial, fun _ => trivial⟩,
      hs', heq.symm, fun _ => trivial, fun _ => trivial⟩
  | @step tr t t2 c o hrun hc hx ih =>
    rcases ih (fun ev hev => hl ev (by simp [hev])) with ⟨t', v, h1, h2, h3⟩ | ⟨pre, ev, post, e, t', h1, h2, h3⟩
    · rcases XInstr.portable hv hv' ha ha' be be' h2 h3 (hn _ _ hc) (hn' _ _ hc) hx (fun e _ => by simp) with
        ⟨out', g1, g2⟩ | ⟨e, g1, g2⟩
      · match out', g1, g2 with
        | .ok (t2', o'), g1, ⟨g2, w, g3, g4⟩ =>
          subst g2
          exact .inl ⟨t2', w, .step h1 hc g1, g3, g4⟩
      · exact .inr ⟨tr, _, [], e, _, rfl, g1, .panic h1 hc g2⟩
    · exact .inr ⟨pre, ev, post ++ [⟨c, o, none⟩], e, t', by rw [h1]; simp, h2, h3⟩
  | @panic tr t c e hrun hc hx ih =>
    rcases ih (fun ev hev => hl ev (by simp [hev])) with ⟨t', v, h1, h2, h3⟩ | ⟨pre, ev, post, e', t', h1, h2, h3⟩
    · have hle := hl ⟨c, [], some e⟩ (by simp)
      rcases XInstr.portable hv hv' ha ha' be be' h2 h3 (hn _ _ hc) (hn' _ _ hc) hx (fun e' he' hee => by
          cases hee
          rcases he' with rfl | rfl
          · exact hle.1 rfl
          · exact hle.2 rfl) with ⟨out', g1, g2⟩ | ⟨e', g1, g2⟩
      · match out', g1, g2 with
        | .error e', g1, g2 =>
          cases (show e = e' from g2)
          exact .inl ⟨_, _, .panic h1 hc g1, (XInstr.ref hv ha be h2 (hn _ _ hc) hx).2,
            (XInstr.ref hv' ha' be' h3 (hn' _ _ hc) g1).2⟩
      · exact .inr ⟨tr, _, [], e', _, rfl, g1, .panic h1 hc g2⟩
    · exact .inr ⟨pre, ev, post ++ [⟨c, [], some e⟩], e', t', by rw [h1]; simp, h2, h3⟩

/-- The example of C74 on the 64-bit build and on the 16-bit build: the panic in the first draw. -/
example := C75_portable cfg64_valid cfg16_valid false true (addr' := id) (fun a b h => by simpa using h) (fun a b h => h)
  exNext_ok exNext_ok exStore_wf exStore16_wf exStores_values exNext_panics (by simp)

/-- The second draw gives `2^100` on the 64-bit build; so it can on the 16-bit build, unless that reports a limit. -/
example : ∃ t, Run cfg64 false (fun k => 1000 + 8 * k) exNext (.start exStore)
      [⟨.urand false 2 0 1, [], some .negativeUBig⟩, ⟨.urand true 2 1 0, [], none⟩] t ∧ (t.n.u 2).value cfg64 = 2 ^ 100 ∧
    ((∃ t' v, Run cfg16 true id exNext (.start exStore16)
        [⟨.urand false 2 0 1, [], some .negativeUBig⟩, ⟨.urand true 2 1 0, [], none⟩] t' ∧
        MState.Means cfg64 (fun k => 1000 + 8 * k) t v ∧ MState.Means cfg16 id t' v) ∨
      ∃ pre ev post e t', [⟨.urand false 2 0 1, [], some .negativeUBig⟩, ⟨.urand true 2 1 0, [], none⟩] = pre ++ ev :: post ∧
        (e = .tooLarge ∨ e = .outOfMemory) ∧ Run cfg16 true id exNext (.start exStore16) (pre ++ [⟨ev.instr, [], some e⟩]) t') := by
  have ha : Function.Injective (fun k => 1000 + 8 * k) := fun a b h => by simpa using h
  obtain ⟨t, h1, h2⟩ := (C74_random cfg64_valid false ha exNext_ok exStore_wf exNext_panics true 2 1 0).1 rfl (2 ^ 100)
    (by decide +kernel) (by decide +kernel) (fun _ => fitsEx 200 (by decide +kernel) (by decide))
  exact ⟨t, h1, h2, C75_portable cfg64_valid cfg16_valid false true ha (fun a b h => h) exNext_ok exNext_ok exStore_wf
    exStore16_wf exStores_values h1 (by simp)⟩

end Ibig
