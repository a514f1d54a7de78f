import Verif.Proofs.History
import Verif.Props.Modular
import Verif.Props.Float
import Verif.Spec.Examples
import Verif.Spec.ExamplesModular
/-!
# C33, C34, C38, C39, C40: programs, capacities, the size limit, and independence of the word size

A program (`Model/History.lean`) is a sequence of operations on variables; `mathProgram` (`Spec/History.lean`)
is the same sequence over the mathematical numbers.
-/
namespace Ibig

/-- C39: every program computes what it computes over the mathematical integers.  If the mathematical
program panics (for a documented reason), the real one panics with the same reason; otherwise it sees exactly the
same things and ends with the same numbers in its variables, each of which satisfies the
invariants of its type (canonical form and capacity, `UBig.WF`, `IBig.WF`). -/
theorem C39_programs {cfg : Cfg} (hv : cfg.Valid) (be : Bool) {p : List Instr} (hp : ∀ c ∈ p, c.OK cfg)
    {s : Store UBig IBig} (hs : s.WF cfg) :
    match mathProgram (cfg.maxLen * cfg.W) p (s.values cfg) with
    | .ok (v, seen) => ∃ t, runProgram cfg be p s = .ok (t, seen) ∧ t.WF cfg ∧ t.values cfg = v
    | .error e => runProgram cfg be p s = .error e ∧ Documented e := by
  have h := runProgram_ref hv be p hp hs
  have hd := mathProgram_docs cfg.bits p (s.values cfg)
  simp only [Cfg.bits] at h hd
  generalize mathProgram (cfg.maxLen * cfg.W) p (s.values cfg) = y at h hd ⊢
  match y, h with
  | .error e, h => exact ⟨h, hd e rfl⟩
  | .ok (v, o), h => exact h

/-- C39, every intermediate value: the same holds at every point of the program. -/
theorem C39_intermediate {cfg : Cfg} (hv : cfg.Valid) (be : Bool) {p q : List Instr}
    (hp : ∀ c ∈ p ++ q, c.OK cfg) {s t : Store UBig IBig} (hs : s.WF cfg) {seen : List Obs}
    (h : runProgram cfg be (p ++ q) s = .ok (t, seen)) :
    ∃ m seen', runProgram cfg be p s = .ok (m, seen') ∧ m.WF cfg ∧
      mathProgram (cfg.maxLen * cfg.W) p (s.values cfg) = .ok (m.values cfg, seen') := by
  have h1 := C39_programs hv be (p := p) (fun c hc => hp c (List.mem_append_left _ hc)) hs
  generalize hy : mathProgram (cfg.maxLen * cfg.W) p (s.values cfg) = y at h1
  match y, h1 with
  | .ok (v, o), ⟨m, e, h2, h3⟩ => exact ⟨m, o, e, h2, by rw [h3]⟩
  | .error e, ⟨h', _⟩ =>
    exfalso
    have : ∀ (p : List Instr) (s : Store UBig IBig) (x : Panic), runProgram cfg be p s = .error x →
        runProgram cfg be (p ++ q) s = .error x := by
      intro p
      induction p with
      | nil => intro s x h; cases h
      | cons c p ih =>
        intro s x h
        rw [List.cons_append]
        unfold runProgram at h ⊢
        cases hc : c.exec cfg be s with
        | error e => rw [hc] at h; exact h
        | ok r =>
          obtain ⟨r, o⟩ := r
          rw [hc] at h
          simp only [bind, Except.bind] at h ⊢
          cases hr : runProgram cfg be p r with
          | error e => rw [hr] at h; rw [ih r e hr]; exact h
          | ok z => rw [hr] at h; cases h
    rw [this p s e h'] at h
    cases h

/-- A store for the examples: `u0 = 2^128-1`, `u1 = 2^64+5`, `i0 = -(2^128-1)`, everything else zero. -/
def exStore : Store UBig IBig :=
  ⟨fun k => if k = 0 then exA else if k = 1 then exB else .small 0,
   fun k => if k = 0 then exNegA else ⟨.pos, .small 0⟩⟩

theorem exStore_wf : exStore.WF cfg64 := by
  have hz : (UBig.small 0).WF cfg64 := by show 0 < 2 ^ 64; norm_num
  constructor <;> intro k <;> simp only [exStore]
  · split
    · exact exA_wf
    · split
      · exact exB_wf
      · exact hz
  · split
    · exact exNegA_wf
    · exact ⟨hz, fun _ => rfl⟩

/-- A program that multiplies, divides, shifts, takes a gcd, works on negative numbers, parses and looks. -/
def exProgram : List Instr :=
  [.ubin .mul .ref .ref 2 0 1, .udivrem .trunc .ref .ref 3 4 2 0, .look (.ueq 3 1), .ushl .val 5 1 200,
   .ubin .gcd .ref .ref 6 5 2, .ibin .and .ref .ref 1 0 0, .iprim .divEuclid .val 2 0 (.i 8) (-7),
   .iparse 16 3 (asciiBytes "-fF"), .look (.itext 36 { FmtFlags.default with alternate := true } 3),
   .look (.utrailingZeros 5), .look (.ucmp 0 1), .sprim .add .ref 7 1 8 (-5), .look (.iandU .ref 0 16 0xff0),
   .udivremS .euclid .val 8 1 8 7, .look (.iremEuclid .ref 0 (.u 8) 10), .iparsePrefix 4 (asciiBytes "+0x1_"),
   .look (.ifmt .lowerHex ⟨some 8, 42, some .center, false, true, false⟩ 3), .look (.iF32 0)]

/-- What the example program sees. -/
def exSeen : List Obs :=
  [.bool true, .parseOk, .list (asciiBytes "-73"), .optNat (some 200), .ord .gt, .nat 0, .int 0, .int 5,
   .parseError .invalidDigit, .list (asciiBytes "*-0xff**"), .nat (2 ^ 31 + (127 + 128) * 2 ^ 23)]

/-- The instructions of the example program take valid arguments, on every build with enough room. -/
theorem exProgram_ok {cfg : Cfg} (hU : 16 ≤ cfg.U) (hN : 9 ≤ cfg.maxLen * cfg.W) :
    ∀ c ∈ exProgram, c.OK cfg := by
  intro c hc
  have hs : ∀ {n : Nat}, n < 2 ^ 15 → n < 2 ^ (cfg.U - 1) := fun h =>
    lt_of_lt_of_le h (Nat.pow_le_pow_right (by norm_num) (by omega))
  have hnum : IsNumeral 16 (asciiBytes "fF") [15, 15] := by
    refine .cons ?_ (.cons ?_ .nil) <;> unfold IsDigit <;> decide +kernel
  have e : (splitSign (asciiBytes "-fF")).2 = asciiBytes "fF" := by decide +kernel
  simp only [exProgram, List.mem_cons, List.not_mem_nil, or_false] at hc
  rcases hc with rfl | rfl | rfl | rfl | rfl | rfl | rfl | rfl | rfl | rfl | rfl | rfl | rfl | rfl | rfl | rfl |
    rfl | rfl <;> try trivial
  · show 200 < 2 ^ cfg.U
    exact lt_of_lt_of_le (hs (by norm_num)) (Nat.pow_le_pow_right (by norm_num) (by omega))
  · show (PTy.i 8).Valid ∧ (PTy.i 8).InRange (-7)
    simp [PTy.Valid, PTy.InRange]
  · refine ⟨hs (by decide +kernel), Or.inl ⟨[15, 15], ?_⟩⟩
    rw [e]; exact hnum
  · show (PTy.i 8).Valid ∧ (PTy.i 8).InRange (-5)
    simp [PTy.Valid, PTy.InRange]
  · show (PTy.u 16).Valid ∧ 0xff0 < 2 ^ 16
    simp [PTy.Valid]
  · show (PTy.i 8).Valid ∧ (PTy.i 8).InRange 7
    simp [PTy.Valid, PTy.InRange]
  · show (PTy.u 8).Valid ∧ (PTy.u 8).InRange 10
    simp [PTy.Valid, PTy.InRange]
  · have e : splitRadix (splitSign (asciiBytes "+0x1_")).2 = (16, asciiBytes "1_") := by decide +kernel
    refine ⟨hs (by decide +kernel), Or.inr ?_⟩
    rw [e]
    show 16 ^ 2 < 2 ^ (cfg.maxLen * cfg.W)
    calc 16 ^ 2 < 2 ^ 9 := by norm_num
      _ ≤ _ := Nat.pow_le_pow_right (by norm_num) hN

example : (runProgram cfg64 false exProgram exStore).map (fun r => (r.2, (r.1.i 2).value cfg64)) =
    .ok (exSeen, -(2 ^ 128 - 1 : Int) / -7) := by decide +kernel

/-- The program meets the hypotheses, for example on the 64-bit build with the variables `exStore`. -/
example {cfg : Cfg} (hv : cfg.Valid) (hU : 16 ≤ cfg.U) (hN : 9 ≤ cfg.maxLen * cfg.W) {s : Store UBig IBig}
    (hs : s.WF cfg) := C39_programs hv false (exProgram_ok hU hN) hs
example : 16 ≤ cfg64.U ∧ 9 ≤ cfg64.maxLen * cfg64.W ∧ exStore.WF cfg64 := ⟨by decide, by decide +kernel, exStore_wf⟩
example {t : Store UBig IBig} {seen : List Obs} (h : runProgram cfg64 false exProgram exStore = .ok (t, seen)) :=
  C39_intermediate cfg64_valid false (p := exProgram.take 7) (q := exProgram.drop 7)
    (by rw [List.take_append_drop]; exact exProgram_ok (by decide) (by decide +kernel)) exStore_wf
    (by rw [List.take_append_drop]; exact h)

/-- C34: after every program, every large number in a variable has a buffer of at least its length and, with a
standard library that gives new vectors the requested capacity, at most its length plus a quarter plus four words.
(That no operation pushes past the allocated capacity is `C33_programs`: the model of `push` fails an assertion in
this case, as the code does.) -/
theorem C34_programs {cfg : Cfg} (hv : cfg.Valid) (be : Bool) {p : List Instr} (hp : ∀ c ∈ p, c.OK cfg)
    {s t : Store UBig IBig} (hs : s.WF cfg) {seen : List Obs} (h : runProgram cfg be p s = .ok (t, seen))
    (k : Nat) (b : Buffer) (hb : t.u k = .large b ∨ (t.i k).mag = .large b) :
    b.words.length ≤ b.cap ∧
      ((∀ n, cfg.spare n = 0) → b.cap ≤ b.words.length + b.words.length / 4 + 4 ∧ b.cap ≤ cfg.maxLen + 4) := by
  have h1 := C39_programs hv be hp hs
  rw [h] at h1
  have hw : t.WF cfg := by
    generalize mathProgram (cfg.maxLen * cfg.W) p (s.values cfg) = y at h1
    match y, h1 with
    | .ok (v, o), ⟨t', e, h2, _⟩ => cases e; exact h2
    | .error e, ⟨h1, _⟩ => cases h1
  have hb : b.WF cfg := by
    rcases hb with hb | hb
    · have := hw.1 k; rw [hb] at this; exact this
    · have := (hw.2 k).mag; rw [hb] at this; exact this
  refine ⟨hb.fits, fun h0 => ?_⟩
  have := hb.compact h0
  omega

/-- Variable 5, after the example program. -/
example {t : Store UBig IBig} {seen : List Obs} (h : runProgram cfg64 false exProgram exStore = .ok (t, seen))
    {b : Buffer} (hb : t.u 5 = .large b) :=
  C34_programs cfg64_valid false (exProgram_ok (by decide) (by decide +kernel)) exStore_wf h 5 b (Or.inl hb)

/-- The panics that the crate reports as its own errors, or that stand for a failed assertion or a failed
check of the language: "internal error: not enough memory allocated", `assert!`, arithmetic overflow, index out of
bounds, `unwrap` of `None`; and the artefact of the model, exhausted recursion fuel. -/
def Internal (p : Panic) : Prop :=
  p = .allocatedTooLittle ∨ p = .assertFailed ∨ p = .overflow ∨ p = .index ∨ p = .unwrap ∨ p = .fuel

theorem Documented.not_internal {p : Panic} (h : Documented p) : ¬Internal p := by
  unfold Documented at h
  unfold Internal
  rcases h with rfl | rfl | rfl | rfl | rfl <;> simp

/-- C33: no program ever panics with an internal error. -/
theorem C33_programs {cfg : Cfg} (hv : cfg.Valid) (be : Bool) {p : List Instr} (hp : ∀ c ∈ p, c.OK cfg)
    {s : Store UBig IBig} (hs : s.WF cfg) {e : Panic} (h : runProgram cfg be p s = .error e) :
    Documented e ∧ ¬Internal e := by
  have h1 := C39_programs hv be hp hs
  rw [h] at h1
  generalize mathProgram (cfg.maxLen * cfg.W) p (s.values cfg) = y at h1
  match y, h1 with
  | .ok (v, o), ⟨t', e, _⟩ => cases e
  | .error x, ⟨h1, h2⟩ => cases h1; exact ⟨h2, h2.not_internal⟩

example : (runProgram cfg64 false [.ubin .mul .ref .ref 2 0 1, .ubin .sub .ref .ref 3 1 2] exStore).map
    (fun r => r.2) = .error .negativeUBig := by decide +kernel

/-- C33: multiplication and division, for operands of every length: the only panics are "number too large"
and division by zero. -/
theorem C33_mul_div {cfg : Cfg} (hv : cfg.Valid) (o1 o2 : Own) {a b : UBig} (ha : a.WF cfg) (hb : b.WF cfg)
    {e : Panic} :
    (UBig.mul cfg o1 o2 a b = .error e → e = .tooLarge) ∧
    (UBig.div cfg o1 o2 a b = .error e → e = .divideByZero) ∧
    (UBig.rem cfg o1 o2 a b = .error e → e = .divideByZero) ∧
    (UBig.divRem cfg o1 o2 a b = .error e → e = .divideByZero) := by
  refine ⟨fun h => ?_, fun h => ?_, fun h => ?_, fun h => ?_⟩
  · have hm := UBig.mul_spec hv o1 o2 ha hb
    by_cases hf : Fits cfg (a.value cfg * b.value cfg)
    · obtain ⟨c, e1, -⟩ := hm.1 hf; rw [h] at e1; cases e1
    · have := hm.2 hf; rw [h] at this; cases this; rfl
  · have hm := UBig.div_spec hv o1 o2 ha hb
    by_cases h0 : b.value cfg = 0
    · have := hm.2 h0; rw [h] at this; cases this; rfl
    · obtain ⟨c, e1, -⟩ := hm.1 h0; rw [h] at e1; cases e1
  · have hm := UBig.rem_spec hv o1 o2 ha hb
    by_cases h0 : b.value cfg = 0
    · have := hm.2 h0; rw [h] at this; cases this; rfl
    · obtain ⟨c, e1, -⟩ := hm.1 h0; rw [h] at e1; cases e1
  · have hm := UBig.divRem_spec hv o1 o2 ha hb
    by_cases h0 : b.value cfg = 0
    · have := hm.2 h0; rw [h] at this; cases this; rfl
    · obtain ⟨c, e1, -⟩ := hm.1 h0; rw [h] at e1; cases e1

/-- A 300-word number and a 100-word number. -/
example {e : Panic} := C33_mul_div cfg64_valid .ref .val exLong_wf exMid_wf (e := e)

/-- `x` does not end in an internal error. -/
def Sound {α : Type} (x : R α) : Prop := ∀ e, x = .error e → ¬Internal e

theorem sound_ok {α : Type} {x : R α} {a : α} (h : x = .ok a) : Sound x := by
  intro e he; rw [h] at he; cases he

theorem sound_error {α : Type} {x : R α} {p : Panic} (h : x = .error p)
    (hp : p = .tooLarge ∨ p = .outOfMemory ∨ p = .notInvertible ∨ p = .divideByZero ∨ p = .differentRings) :
    Sound x := by
  intro e he
  rw [h] at he; cases he
  unfold Internal
  rcases hp with rfl | rfl | rfl | rfl | rfl <;> simp

/-- C33: modular operations. -/
theorem C33_modular {cfg : Cfg} (hv : cfg.Valid) {r : Ring} {n : Nat} (hr : IsRing cfg r n) (o1 o2 : Own)
    {x y : Modulo} {j k : Nat} (hx : Elem cfg r x j) (hy : Elem cfg r y k) {u e : UBig} (hu : u.WF cfg)
    (he : e.WF cfg) {i : IBig} (hi : i.WF cfg) :
    Sound (r.fromUBig cfg o1 u) ∧ Sound (r.fromIBig cfg o1 i) ∧ Sound (x.residue cfg) ∧ Sound (x.neg cfg.W) ∧
    Sound (Modulo.add cfg.W o1 o2 x y) ∧ Sound (Modulo.sub cfg.W o1 o2 x y) ∧
    Sound (Modulo.mul cfg o1 o2 x y) ∧ Sound (x.inverse cfg) ∧ Sound (Modulo.div cfg x y) ∧
    Sound (x.pow cfg e) ∧ Sound (x.powSigned cfg i) := by
  obtain ⟨⟨_, _, a1, -⟩, ⟨_, _, a2, -⟩, ⟨_, _, a3, -⟩, -⟩ := C27_add_sub_neg_eq hv hr o1 o2 hx hy
  obtain ⟨-, c, a4, -⟩ := C27_residue hv hr hx
  refine ⟨?_, ?_, sound_ok a4, sound_ok a1, sound_ok a2, sound_ok a3, ?_, ?_, ?_, ?_, ?_⟩
  · rcases Ring.fromUBig_spec hv (hr.ok hv) o1 hu with ⟨m, h, -⟩ | ⟨h, -⟩
    · exact sound_ok h
    · exact sound_error h (by simp)
  · rcases Ring.fromIBig_spec hv (hr.ok hv) o1 hi with ⟨m, h, -⟩ | ⟨h, -⟩
    · exact sound_ok h
    · exact sound_error h (by simp)
  · rcases C27_mul hv hr o1 o2 hx hy with ⟨m, h, -⟩ | ⟨h, -⟩
    · exact sound_ok h
    · exact sound_error h (by simp)
  · rcases C28_inverse hv hr hx with ⟨-, m, _, h, -⟩ | ⟨-, h⟩ | ⟨h, -⟩
    · exact sound_ok h
    · exact sound_ok h
    · exact sound_error h (by simp)
  · obtain ⟨h1, h2⟩ := C28_div hv hr hx hy
    by_cases hg : Nat.gcd k n = 1
    · rcases h1 hg with ⟨m, _, h, -⟩ | ⟨h, -⟩ | ⟨h, -⟩
      · exact sound_ok h
      · exact sound_error h (by simp)
      · exact sound_error h (by simp)
    · rcases h2 hg with h | ⟨h, -⟩ <;> exact sound_error h (by simp)
  · rcases C29_pow hv hr hx he with ⟨m, h, -⟩ | ⟨h, -⟩
    · exact sound_ok h
    · exact sound_error h (by simp)
  · obtain ⟨h1, h2, h3⟩ := C29_pow_signed hv hr hx hi
    by_cases h0 : 0 ≤ i.value cfg
    · rcases h1 h0 with ⟨m, h, -⟩ | ⟨h, -⟩
      · exact sound_ok h
      · exact sound_error h (by simp)
    · by_cases hg : Nat.gcd j n = 1
      · rcases h2 (by omega) hg with ⟨m, _, h, -⟩ | ⟨h, -⟩ | ⟨h, -⟩
        · exact sound_ok h
        · exact sound_error h (by simp)
        · exact sound_error h (by simp)
      · rcases h3 (by omega) hg with h | ⟨h, -⟩ <;> exact sound_error h (by simp)

/-- Elements of the ring modulo `2^64 + 5`. -/
example := C33_modular cfg64_valid exRing2_is .ref .val exEl2_is exEl2'_is exLong_wf exA_wf exNegA_wf

/-- C33: the ring constructor panics only for a zero modulus. -/
theorem C33_ring_new {cfg : Cfg} (hv : cfg.Valid) (addr : Nat) {m : UBig} (hm : m.WF cfg) :
    Sound (Ring.new cfg addr m) := by
  obtain ⟨h1, h2⟩ := C27_new hv addr hm
  by_cases h : m.value cfg = 0
  · exact sound_error (h2 h) (by simp)
  · obtain ⟨r, e, -⟩ := h1 h; exact sound_ok e

/-- A modulus of 300 words. -/
example := C33_ring_new cfg64_valid 1000 exLong_wf

theorem Yields.tooLarge_iff {cfg : Cfg} {x : R UBig} {n : Nat} (h : Yields cfg x n) :
    x = .error .tooLarge ↔ ¬n < 2 ^ (cfg.maxLen * cfg.W) := by
  refine ⟨fun e hf => ?_, fun hf => h.2 hf⟩
  obtain ⟨c, hc, -⟩ := h.1 hf
  rw [e] at hc; cases hc

theorem IYields.tooLarge_iff {cfg : Cfg} {x : R IBig} {z : Int} (h : IYields cfg x z) :
    x = .error .tooLarge ↔ ¬z.natAbs < 2 ^ (cfg.maxLen * cfg.W) := by
  refine ⟨fun e hf => ?_, fun hf => h.2 hf⟩
  obtain ⟨c, hc, -⟩ := h.1 hf
  rw [e] at hc; cases hc

/-- C38, `UBig`: these operations panic with "number too large" exactly when the result has more than
`MAX_BIT_LEN = MAX_LEN * WORD_BITS` bits (and by C39 they do not panic otherwise). -/
theorem C38_ubig {cfg : Cfg} (hv : cfg.Valid) (o1 o2 : Own) {a b : UBig} (ha : a.WF cfg) (hb : b.WF cfg)
    {n : Nat} (hn : n < 2 ^ cfg.U) :
    (UBig.add cfg o1 o2 a b = .error .tooLarge ↔ ¬a.value cfg + b.value cfg < 2 ^ (cfg.maxLen * cfg.W)) ∧
    (UBig.mul cfg o1 o2 a b = .error .tooLarge ↔ ¬a.value cfg * b.value cfg < 2 ^ (cfg.maxLen * cfg.W)) ∧
    (a.shl cfg o1 n = .error .tooLarge ↔ ¬a.value cfg * 2 ^ n < 2 ^ (cfg.maxLen * cfg.W)) ∧
    (a.setBit cfg n = .error .tooLarge ↔ ¬(a.value cfg ||| 2 ^ n) < 2 ^ (cfg.maxLen * cfg.W)) ∧
    (a.pow cfg n = .error .tooLarge ↔ ¬a.value cfg ^ n < 2 ^ (cfg.maxLen * cfg.W)) := by
  refine ⟨(UBig.add_spec hv o1 o2 ha hb).tooLarge_iff, (UBig.mul_spec hv o1 o2 ha hb).tooLarge_iff,
    (UBig.shl_spec hv o1 ha hn).tooLarge_iff, ?_, (UBig.pow_spec hv ha hn).tooLarge_iff⟩
  obtain ⟨m, h1, h2⟩ := UBig.setBit_spec hv ha n
  have e : a.value cfg ||| 2 ^ n = m :=
    Nat.eq_of_testBit_eq fun i => by rw [h1, testBit_or_two_pow]
  rw [e]
  exact h2.tooLarge_iff

/-- A 300-word number, a 100-word number, and the largest shift amount. -/
example := C38_ubig cfg64_valid .ref .val exLong_wf exMid_wf (n := 2 ^ 64 - 1) (by decide)

/-- C38, `IBig`. -/
theorem C38_ibig {cfg : Cfg} (hv : cfg.Valid) (o1 o2 : Own) {a b : IBig} (ha : a.WF cfg) (hb : b.WF cfg)
    {n : Nat} (hn : n < 2 ^ cfg.U) :
    (IBig.add cfg o1 o2 a b = .error .tooLarge ↔
      ¬(a.value cfg + b.value cfg).natAbs < 2 ^ (cfg.maxLen * cfg.W)) ∧
    (IBig.sub cfg o1 o2 a b = .error .tooLarge ↔
      ¬(a.value cfg - b.value cfg).natAbs < 2 ^ (cfg.maxLen * cfg.W)) ∧
    (IBig.mul cfg o1 o2 a b = .error .tooLarge ↔
      ¬(a.value cfg * b.value cfg).natAbs < 2 ^ (cfg.maxLen * cfg.W)) ∧
    (a.shl cfg o1 n = .error .tooLarge ↔ ¬(a.value cfg * 2 ^ n).natAbs < 2 ^ (cfg.maxLen * cfg.W)) ∧
    (a.pow cfg n = .error .tooLarge ↔ ¬(a.value cfg ^ n).natAbs < 2 ^ (cfg.maxLen * cfg.W)) :=
  ⟨(IBig.add_spec hv o1 o2 ha hb).tooLarge_iff, (IBig.sub_spec hv o1 o2 ha hb).tooLarge_iff,
    (IBig.mul_spec hv o1 o2 ha hb).tooLarge_iff, (IBig.shl_spec hv o1 ha hn).tooLarge_iff,
    (IBig.pow_spec hv ha hn).tooLarge_iff⟩

/-- A negative and a positive integer, and the largest shift amount. -/
example := C38_ibig cfg64_valid .ref .val exNegA_wf exPosB_wf (n := 2 ^ 64 - 1) (by decide)

/-- The last bit below the limit is accepted and the next one is not (16-bit build). -/
example : (UBig.small 1).shl cfg16 .val 65504 = .error .tooLarge ∧
    (UBig.small 2).pow cfg16 65504 = .error .tooLarge ∧
    ((UBig.small 1).shl cfg16 .val 65503).toBool = true ∧
    65504 < 2 ^ cfg16.U ∧ cfg16.maxLen * cfg16.W = 65504 := by decide +kernel

/-- C40: on two builds, a program run on variables with the same values gives the same result, unless one of
the builds stops with "number too large" (the limits of the builds differ): both panic with the same panic, or
both see the same things and end with the same values. -/
theorem C40_programs {cfg cfg' : Cfg} (hv : cfg.Valid) (hv' : cfg'.Valid) (be be' : Bool) {p : List Instr}
    (hp : ∀ c ∈ p, c.OK cfg) (hp' : ∀ c ∈ p, c.OK cfg') {s s' : Store UBig IBig} (hs : s.WF cfg)
    (hs' : s'.WF cfg') (heq : s.values cfg = s'.values cfg')
    (h : runProgram cfg be p s ≠ .error .tooLarge) (h' : runProgram cfg' be' p s' ≠ .error .tooLarge) :
    (∃ e, runProgram cfg be p s = .error e ∧ runProgram cfg' be' p s' = .error e) ∨
    (∃ t t' seen, runProgram cfg be p s = .ok (t, seen) ∧ runProgram cfg' be' p s' = .ok (t', seen) ∧
      t.values cfg = t'.values cfg') := by
  have a := C39_programs hv be hp hs
  have a' := C39_programs hv' be' hp' hs'
  rw [← heq] at a'
  have key : mathProgram (cfg.maxLen * cfg.W) p (s.values cfg) =
      mathProgram (cfg'.maxLen * cfg'.W) p (s.values cfg) := by
    rcases Nat.le_total (cfg.maxLen * cfg.W) (cfg'.maxLen * cfg'.W) with hle | hle
    · rcases mathProgram_stops hle p (s.values cfg) with e | e
      · rw [e] at a; exact absurd a.1 h
      · exact e
    · rcases mathProgram_stops hle p (s.values cfg) with e | e
      · rw [e] at a'; exact absurd a'.1 h'
      · exact e.symm
  rw [← key] at a'
  generalize mathProgram (cfg.maxLen * cfg.W) p (s.values cfg) = y at a a'
  match y, a, a' with
  | .error e, a, a' => exact Or.inl ⟨e, a.1, a'.1⟩
  | .ok (v, o), ⟨t, h1, _, h2⟩, ⟨t', h1', _, h2'⟩ =>
    exact Or.inr ⟨t, t', o, h1, h1', by rw [h2, h2']⟩

/-- C40: the conversions to floats give the same bits on all builds. -/
theorem C40_floats {cfg cfg' : Cfg} (hv : cfg.Valid) (hv' : cfg'.Valid) {a a' : UBig} (ha : a.WF cfg)
    (ha' : a'.WF cfg') (heq : a.value cfg = a'.value cfg') {i i' : IBig} (hi : i.WF cfg) (hi' : i'.WF cfg')
    (heqi : i.value cfg = i'.value cfg') :
    a.toF32 cfg = a'.toF32 cfg' ∧ a.toF64 cfg = a'.toF64 cfg' ∧
    i.toF32 cfg = i'.toF32 cfg' ∧ i.toF64 cfg = i'.toF64 cfg' := by
  obtain ⟨⟨b, h1, h2⟩, ⟨c, h3, h4⟩⟩ := C19_ubig_to_float hv ha
  obtain ⟨⟨b', g1, g2⟩, ⟨c', g3, g4⟩⟩ := C19_ubig_to_float hv' ha'
  obtain ⟨⟨d, k1, k2⟩, ⟨e, k3, k4⟩⟩ := C19_ibig_to_float hv hi
  obtain ⟨⟨d', l1, l2⟩, ⟨e', l3, l4⟩⟩ := C19_ibig_to_float hv' hi'
  rw [heq] at h2 h4
  rw [heqi] at k1 k2 k3 k4
  rw [h1, h3, g1, g3, k1, k3, l1, l3, C19_unique h2 g2, C19_unique h4 g4, C19_unique k2 l2, C19_unique k4 l4]
  exact ⟨rfl, rfl, rfl, rfl⟩

/-- `2^64 + 5` and its opposite on the 64-bit build and on the 16-bit build. -/
example := C40_floats cfg64_valid cfg16_valid exB_wf (a' := bigOf [5, 0, 0, 0, 1]) (bigOf_wf _ (by decide +kernel))
  (by decide +kernel) exNegB_wf (i' := ibigOf .neg [5, 0, 0, 0, 1])
  (ibigOf_wf _ (bigOf_wf _ (by decide +kernel)) (by decide +kernel)) (by decide +kernel)

/-- The same values as `exStore`, on the 16-bit build. -/
def exStore16 : Store UBig IBig :=
  ⟨fun k => if k = 0 then bigOf (List.replicate 8 65535) else if k = 1 then bigOf [5, 0, 0, 0, 1] else .small 0,
   fun k => if k = 0 then ibigOf .neg (List.replicate 8 65535) else ⟨.pos, .small 0⟩⟩

theorem exStore16_wf : exStore16.WF cfg16 := by
  have hz : (UBig.small 0).WF cfg16 := by show 0 < 2 ^ 16; norm_num
  constructor <;> intro k <;> simp only [exStore16]
  · split
    · exact bigOf_wf _ (by decide +kernel)
    · split
      · exact bigOf_wf _ (by decide +kernel)
      · exact hz
  · split
    · exact ibigOf_wf _ (bigOf_wf _ (by decide +kernel)) (by decide +kernel)
    · exact ⟨hz, fun _ => rfl⟩

theorem exStores_values : exStore.values cfg64 = exStore16.values cfg16 := by
  have e0 : exA.value cfg64 = (bigOf (List.replicate 8 65535)).value cfg16 := by decide +kernel
  have e1 : exB.value cfg64 = (bigOf [5, 0, 0, 0, 1]).value cfg16 := by decide +kernel
  have e2 : exNegA.value cfg64 = (ibigOf .neg (List.replicate 8 65535)).value cfg16 := by decide +kernel
  simp only [Store.values, exStore, exStore16, Store.mk.injEq]
  constructor <;> funext k
  · by_cases h0 : k = 0
    · simp only [h0, if_true]; exact e0
    · by_cases h1 : k = 1
      · simp only [h1, if_true]; exact e1
      · simp only [h0, h1, if_false]; rfl
  · by_cases h0 : k = 0
    · simp only [h0, if_true]; exact e2
    · simp only [h0, if_false]; rfl

example : (runProgram cfg16 true exProgram exStore16).map (fun r => r.2) = .ok exSeen ∧
    (runProgram cfg64 false exProgram exStore).map (fun r => r.2) = .ok exSeen := by
  constructor <;> decide +kernel

/-- The example program, on the 64-bit build and on the 16-bit build. -/
example := C40_programs cfg64_valid cfg16_valid false true (exProgram_ok (by decide) (by decide +kernel))
  (exProgram_ok (by decide) (by decide +kernel)) exStore_wf exStore16_wf exStores_values
  (fun h => absurd (congrArg Except.toBool h) (by decide +kernel))
  (fun h => absurd (congrArg Except.toBool h) (by decide +kernel))

end Ibig
