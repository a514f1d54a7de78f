import Verif.Proofs.Unwind
import Verif.Props.History
/-!
# C48: programs that catch panics
-/
namespace Ibig

/-- C48: a program that catches panics and goes on computes what it computes over the mathematical integers: it
sees the same things and catches the same panics, all of them documented ones; and in the end, every variable
satisfies the invariants of its type and has the mathematical value, where a variable modified in place by an
operation that panicked has become zero, and no other variable has changed.  In particular no panic leaves a
broken number behind. -/
theorem C48_caught_panics {cfg : Cfg} (hv : cfg.Valid) (be : Bool) {bs : List (List Instr)}
    (hp : ∀ b ∈ bs, ∀ c ∈ b, c.OK cfg) {s t : Store UBig IBig} (hs : s.WF cfg)
    {seen : List (List Obs × Option Panic)} (h : runCaught cfg be bs s = (t, seen)) :
    mathCaught (cfg.maxLen * cfg.W) bs (s.values cfg) = (t.values cfg, seen) ∧ t.WF cfg ∧
    ∀ r ∈ seen, ∀ e, r.2 = some e → Documented e ∧ ¬Internal e := by
  obtain ⟨h1, h2, h3⟩ := runCaught_ref hv be bs hp hs
  rw [h] at h1 h2 h3
  exact ⟨h2, h1, fun r hr e he => ⟨h3 r hr e he, (h3 r hr e he).not_internal⟩⟩

/-- A block that subtracts too much from `u1` in place, one that divides by zero without touching anything, one
that divides `i0` by zero in place, and one that looks at what is left. -/
def exBlocks : List (List Instr) :=
  [[.ubin .add .val .ref 2 0 1, .ubin .sub .val .ref 1 1 0, .look (.ubitLen 2)],
   [.look (.ubitLen 2), .udivrem .trunc .ref .ref 0 2 0 5],
   [.iprim .div .val 0 0 (.i 8) 0],
   [.look (.ufmt .display .default 1), .look (.ubitLen 0), .look (.iisZero 0)]]

theorem exBlocks_ok : ∀ b ∈ exBlocks, ∀ c ∈ b, c.OK cfg64 := by
  intro b hb c hc
  simp only [exBlocks, List.mem_cons, List.not_mem_nil, or_false] at hb
  rcases hb with rfl | rfl | rfl | rfl <;> simp only [List.mem_cons, List.not_mem_nil, or_false] at hc
  · rcases hc with rfl | rfl | rfl <;> trivial
  · rcases hc with rfl | rfl <;> trivial
  · subst hc
    show (PTy.i 8).Valid ∧ (PTy.i 8).InRange 0
    simp [PTy.Valid, PTy.InRange]
  · rcases hc with rfl | rfl | rfl <;> trivial

example : (runCaught cfg64 false exBlocks exStore).2 =
    [([], some .negativeUBig), ([.nat 129], some .divideByZero), ([], some .divideByZero),
     ([.list (asciiBytes "0"), .nat 128, .bool true], none)] := by decide +kernel

example := C48_caught_panics cfg64_valid false exBlocks_ok exStore_wf rfl

end Ibig
