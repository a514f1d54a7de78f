import Verif.Proofs.ModUnwind
import Verif.Props.ModHistory
import Verif.Spec.ExamplesModular
/-!
# C71: programs with modular rings that catch panics
-/
namespace Ibig

/-- C71: the model of what an operation in place leaves behind agrees with the model of the operation: it panics when
the operation does, and otherwise leaves the result. -/
theorem C71_left (cfg : Cfg) (x y : Modulo) :
    (Modulo.addAssignLeft cfg.W x y).toR = Modulo.addAssign cfg.W x y ∧
    (Modulo.subAssignLeft cfg.W x y).toR = Modulo.subAssign cfg.W x y ∧
    (Modulo.mulAssignLeft cfg x y).toR = Modulo.mulAssign cfg x y ∧
    (Modulo.cloneFromLeft x y).toR = Modulo.cloneFrom x y :=
  ⟨Modulo.addAssignLeft_toR cfg.W x y, Modulo.subAssignLeft_toR cfg.W x y, Modulo.mulAssignLeft_toR cfg x y,
    Modulo.cloneFromLeft_toR x y⟩

example : Modulo.addAssignLeft 64 exEl2 exEl1 = (exEl2, some .differentRings) ∧
    Modulo.cloneFromLeft exEl2' exEl2 = (exEl2, none) := by decide +kernel
example := C71_left cfg64 exEl2 exEl2'

/-- C71: `x += y`, `x -= y` and `x *= y`, if they panic, leave the element `x` as it was.  Here `x` and `y` are
elements of the same ring, or of rings at different addresses. -/
theorem C71_in_place {cfg : Cfg} (hv : cfg.Valid) {r r' : Ring} {n n' : Nat} (hr : IsRing cfg r n) (hr' : IsRing cfg r' n')
    (hd : r.addr = r'.addr → r = r') {x y : Modulo} {j k : Nat} (hx : Elem cfg r x j) (hy : Elem cfg r' y k) :
    ((Modulo.addAssignLeft cfg.W x y).2 ≠ none → (Modulo.addAssignLeft cfg.W x y).1 = x) ∧
    ((Modulo.subAssignLeft cfg.W x y).2 ≠ none → (Modulo.subAssignLeft cfg.W x y).1 = x) ∧
    ((Modulo.mulAssignLeft cfg x y).2 ≠ none → (Modulo.mulAssignLeft cfg x y).1 = x) ∧
    (Modulo.cloneFromLeft x y).2 = none :=
  Modulo.left_unchanged hv hr hr' hd hx hy

/-- Elements of a ring modulo `2^64 + 5` and of a ring modulo a one-word number. -/
example := C71_in_place cfg64_valid exRing2_is exRing1_is (fun h => absurd h (by decide +kernel)) exEl2_is exEl1_is
/-- Elements of the same ring. -/
example := C71_in_place cfg64_valid exRing2_is exRing2_is (fun _ => rfl) exEl2_is exEl2'_is

/-- C71: a program with rings that catches panics and goes on computes what it should: in the end every variable
satisfies the invariants of its type and stands for the number, ring or element that the specification gives, where
an operation on rings or elements that panicked has changed nothing.  Each panic is documented, or is "out of memory"
(an instruction without room), or is the report of a variable that holds nothing, which the Rust compiler rejects. -/
theorem C71_caught_panics {cfg : Cfg} (hv : cfg.Valid) (be : Bool) {addr : Nat → Nat} (ha : Function.Injective addr)
    {bs : List (List MInstr)} (hp : ∀ b ∈ bs, ∀ c ∈ b, c.OK cfg) {s : Store UBig IBig} (hs : s.WF cfg) {t : MState}
    {seen : List (List Obs × Option Panic)} (h : runModCaught cfg be addr bs (.start s) = (t, seen)) :
    (∃ w, ModCaught cfg bs (.start (s.values cfg)) w seen ∧ MState.Means cfg addr t w) ∧
    ∀ r ∈ seen, ∀ e, r.2 = some e → DocumentedM e ∨ e = .outOfMemory ∨ e = .unwrap := by
  obtain ⟨w, h1, h2⟩ := runModCaught_ref hv ha be bs hp (s := .start s) (v := .start (s.values cfg))
    ⟨hs, rfl, fun _ => trivial, fun _ => trivial⟩
  rw [h] at h1 h2
  exact ⟨⟨w, h1, h2⟩, h1.kinds⟩

/-- Two rings modulo `2^64 + 5`; a product in place and a sum in place of elements of different rings; a division by
zero; a ring modulo zero; a subtraction in place on numbers that panics; and a look at what is left. -/
def exModBlocks : List (List MInstr) :=
  [[.ring 0 1, .ring 1 1, .ofU .ref 0 0 0, .ofU .ref 1 1 0, .mul .val .ref 0 0 1, .fmt .display .default 0],
   [.ringEq 0 1, .add .val .ref 0 0 1],
   [.ofBool 2 0 false, .div 0 0 2],
   [.num (.ubin .sub .val .ref 1 1 0), .ring 0 1],
   [.ring 0 1],
   [.fmt .display .default 0, .fmt .display .default 1, .eq 0 0, .num (.look (.ufmt .display .default 1))]]

theorem exModBlocks_ok {cfg : Cfg} : ∀ b ∈ exModBlocks, ∀ c ∈ b, c.OK cfg := by
  intro b hb c hc
  simp only [exModBlocks, List.mem_cons, List.not_mem_nil, or_false] at hb
  rcases hb with rfl | rfl | rfl | rfl | rfl | rfl <;> simp only [List.mem_cons, List.not_mem_nil, or_false] at hc
  · rcases hc with rfl | rfl | rfl | rfl | rfl | rfl <;> trivial
  · rcases hc with rfl | rfl <;> trivial
  · rcases hc with rfl | rfl <;> trivial
  · rcases hc with rfl | rfl <;> trivial
  · subst hc; trivial
  · rcases hc with rfl | rfl | rfl | rfl <;> trivial

example : (runModCaught cfg64 false (fun k => 1000 + 8 * k) exModBlocks (.start exStore)).2 =
    [([], some .differentRings), ([.bool false], some .differentRings), ([], some .notInvertible),
     ([], some .negativeUBig), ([], some .divideByZero),
     ([.list (asciiBytes "24 (mod 18446744073709551621)"),
       .list (asciiBytes "24 (mod 18446744073709551621)"), .bool true, .list (asciiBytes "0")], none)] := by
  decide +kernel

example {cfg : Cfg} (hv : cfg.Valid) {s : Store UBig IBig} (hs : s.WF cfg) :=
  C71_caught_panics hv false (addr := fun k => 1000 + 8 * k) (fun a b h => by simpa using h) exModBlocks_ok hs rfl

end Ibig
