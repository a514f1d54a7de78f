import Verif.Proofs.Address
import Verif.Spec.Examples
/-!
C50: the unsafe code that manages scratch memory has no undefined behaviour, and what is read from a slice is
what was last written to it.
C51: the layouts the crate asks for are exactly the numbers of words of the word-level model.
-/
namespace Ibig

/-- A 64-bit little-endian target with a current `core`. -/
def target64 : Target := ⟨cfg64, 8, 2 ^ 63 - 1, false⟩

/-- A 16-bit big-endian target with words of alignment one and an old `core`. -/
def target16 : Target := ⟨cfg16, 1, 2 ^ cfg16.U - 1, true⟩

theorem target64_ok : target64.OK :=
  ⟨cfg64_valid, ⟨3, rfl⟩, by decide, by decide, by decide⟩

theorem target16_ok : target16.OK :=
  ⟨cfg16_valid, ⟨0, rfl⟩, one_dvd _, by decide, by decide⟩

/-! ### C50 -/

/-- For every history of allocations, releases, writes and reads on scratch memory of `M` words, with any
allocator that keeps its contract and any previous contents of memory: the raw-pointer code reads exactly
the words, and ends in exactly the panic, of a stack of lists with room for `M` words. -/
theorem C50_scratch {t : Target} (ht : t.OK) {layout : Layout} {answer M : Nat} (hw : layout.Words t M)
    (ha : AllocatorOK t layout answer) {A : MemoryAllocation}
    (hA : MemoryAllocation.new t layout answer = .ok A) (before : Bytes) {ops : List MemOp}
    (hops : ∀ op ∈ ops, op.OK t.cfg.W) :
    runScratch t A ⟨before, []⟩ ops =
      ((runPure M (decide (layout.align = t.align)) [] ops).1,
        (runPure M (decide (layout.align = t.align)) [] ops).2.map Fault.panic) :=
  runScratch_refines ht hw ha hA before hops

/-- In particular there is never undefined behaviour. -/
theorem C50_no_ub {t : Target} (ht : t.OK) {layout : Layout} {answer M : Nat} (hw : layout.Words t M)
    (ha : AllocatorOK t layout answer) {A : MemoryAllocation}
    (hA : MemoryAllocation.new t layout answer = .ok A) (before : Bytes) {ops : List MemOp}
    (hops : ∀ op ∈ ops, op.OK t.cfg.W) : (runScratch t A ⟨before, []⟩ ops).2 ≠ some .ub := by
  rw [C50_scratch ht hw ha hA before hops]
  cases (runPure M (decide (layout.align = t.align)) [] ops).2 with
  | none => simp
  | some p => simp

/-- Six words on the 64-bit target. -/
example {A : MemoryAllocation} (hA : MemoryAllocation.new target64 ⟨48, 8⟩ 4096 = .ok A) (before : Bytes) :=
  C50_no_ub target64_ok (M := 6) ⟨by decide, Or.inl rfl⟩ (Or.inr ⟨by decide, by decide⟩) hA before
    (ops := [.fill 2 7, .write 0 1 (2 ^ 64 - 1), .read 0 1, .release, .copy [1, 2, 3], .read 0 2])
    (by have hb : base target64.cfg.W = 2 ^ 64 := rfl
        simp [MemOp.OK, IsWords, hb])
example : MemoryAllocation.new target64 ⟨48, 8⟩ 4096 = .ok ⟨⟨48, 8⟩, 4096⟩ := by decide +kernel

/-- Allocation: the panic "out of memory" exactly if the size is above `isize::MAX` or the allocator has no
memory, and otherwise the memory the allocator handed out; never undefined behaviour. -/
theorem C50_new (t : Target) (layout : Layout) (answer : Nat) :
    (MemoryAllocation.new t layout answer = .error (.panic .outOfMemory) ↔
      layout.size ≠ 0 ∧ (t.isizeMax < layout.size ∨ answer = 0)) ∧
    (¬ (layout.size ≠ 0 ∧ (t.isizeMax < layout.size ∨ answer = 0)) →
      ∃ A, MemoryAllocation.new t layout answer = .ok A ∧ A.layout = layout ∧
        (layout.size ≠ 0 → A.start = answer)) := by
  rw [MemoryAllocation.new_spec]
  split_ifs with h1 h2
  · exact ⟨⟨fun h => (by cases h), fun h => absurd h1 h.1⟩, fun _ => ⟨_, rfl, rfl, fun h => absurd h1 h⟩⟩
  · exact ⟨⟨fun h => (by cases h), fun h => by omega⟩, fun _ => ⟨_, rfl, rfl, fun _ => rfl⟩⟩
  · exact ⟨⟨fun _ => by omega, fun _ => rfl⟩, fun h => absurd (by omega) h⟩

/-- Six words on the 64-bit target. -/
example := (C50_new target64 ⟨48, 8⟩ 4096).2 (by decide)

/-- Memory is given back exactly if it was handed out, with the same address and layout. -/
theorem C50_drop {t : Target} {layout : Layout} {answer : Nat} {A : MemoryAllocation}
    (hA : MemoryAllocation.new t layout answer = .ok A) :
    A.drop (handedOut layout answer) = .ok (handedOut layout answer).isSome := by
  unfold MemoryAllocation.drop handedOut
  rw [MemoryAllocation.new_spec] at hA
  split_ifs at hA with g1 g2
  · cases hA
    rw [if_neg (by simpa using g1), if_pos g1]
    rfl
  · cases hA
    rw [if_pos g1, if_neg g1, requireR_true rfl]
    rfl

/-- Six words on the 64-bit target. -/
example := C50_drop (t := target64) (layout := ⟨48, 8⟩) (answer := 4096) (A := ⟨⟨48, 8⟩, 4096⟩) (by decide +kernel)

/-- The word-level model, in which scratch memory is the number of words left, allocates no more than the
code: with the lists `ls` live in a memory of `M` words, whatever it allocates the code allocates too, with
the same words and the same number of words left. -/
theorem C50_words {M : Nat} {ls : List (List Nat)} (h : (ls.map List.length).sum ≤ M) :
    (∀ n x l rest, allocFill (M - (ls.map List.length).sum) n x = .ok (l, rest) →
      MemOp.pure M true ls (.fill n x) = .ok (l :: ls, []) ∧ rest = M - ((l :: ls).map List.length).sum) ∧
    (∀ source l rest, allocCopy (M - (ls.map List.length).sum) source = .ok (l, rest) →
      MemOp.pure M true ls (.copy source) = .ok (l :: ls, []) ∧
        rest = M - ((l :: ls).map List.length).sum) ∧
    (∀ n source x l rest, allocCopyFill (M - (ls.map List.length).sum) n source x = .ok (l, rest) →
      MemOp.pure M true ls (.copyFill n source x) = .ok (l :: ls, []) ∧
        rest = M - ((l :: ls).map List.length).sum) := by
  refine ⟨?_, ?_, ?_⟩
  · intro n x l rest hl
    unfold allocFill at hl
    split_ifs at hl with g
    cases hl
    simp only [MemOp.pure, pureAlloc, List.length_replicate, List.map_cons, List.sum_cons, true_and]
    rw [if_pos (by omega)]
    exact ⟨rfl, by omega⟩
  · intro source l rest hl
    unfold allocCopy at hl
    split_ifs at hl with g
    cases hl
    simp only [MemOp.pure, pureAlloc, List.map_cons, List.sum_cons, true_and]
    rw [if_pos (by omega)]
    exact ⟨rfl, by omega⟩
  · intro n source x l rest hl
    unfold allocCopyFill at hl
    by_cases hs : source.length ≤ n
    · rw [assertR_true hs] at hl
      simp only [bind, Except.bind] at hl
      split_ifs at hl with g
      cases hl
      simp only [MemOp.pure, if_pos hs, pureAlloc, List.length_append, List.length_replicate, List.map_cons,
        List.sum_cons, true_and]
      rw [if_pos (by omega)]
      exact ⟨rfl, by omega⟩
    · unfold assertR at hl
      rw [if_neg hs] at hl
      cases hl

/-- Two slices in memory of six words. -/
example := C50_words (M := 6) (ls := [[1, 2], [3]]) (by decide)

/-- A history that nests slices, writes through an older one, releases, reallocates, and runs out. -/
def exOps : List MemOp :=
  [.fill 2 7, .copy [1, 2, 3], .write 1 0 9, .read 1 0, .read 0 2, .release, .copyFill 3 [5] 6, .read 0 0, .read 0 2,
    .read 1 1, .write 0 1 (2 ^ 63), .read 0 1, .fill 4 0]

example : ∃ A, MemoryAllocation.new target64 ⟨6 * 8, 8⟩ 4096 = .ok A ∧
    runScratch target64 A ⟨fun _ => none, []⟩ exOps =
      ([9, 3, 5, 6, 7, 2 ^ 63], some (.panic .allocatedTooLittle)) := by
  refine ⟨⟨⟨48, 8⟩, 4096⟩, by decide +kernel, ?_⟩
  rw [C50_scratch target64_ok (layout := ⟨48, 8⟩) (M := 6) (answer := 4096) ⟨by decide, Or.inl rfl⟩
    (Or.inr ⟨by decide, by decide⟩) (by decide +kernel) _ (by
    have hb : base target64.cfg.W = 2 ^ 64 := rfl
    simp [exOps, MemOp.OK, IsWords, hb])]
  decide +kernel

example : ∃ A, MemoryAllocation.new target64 ⟨0, 1⟩ 0 = .ok A ∧
    runScratch target64 A ⟨fun _ => none, []⟩ [.fill 0 0] = ([], some (.panic .allocatedTooLittle)) :=
  ⟨⟨⟨0, 1⟩, 1⟩, by decide +kernel, by
    rw [C50_scratch target64_ok (layout := ⟨0, 1⟩) (M := 0) (answer := 0) ⟨by decide, Or.inr ⟨rfl, rfl⟩⟩
      (Or.inl rfl) (by decide +kernel) _ (by simp [MemOp.OK]; decide)]
    decide +kernel⟩

/-! ### C51 -/

/-- Scratch memory for a multiplication (/repo/src/mul_ops.rs:333): the layout computed by the crate,
allocated, is memory for exactly the number of words of the word-level model, or the same panic;
`usize` arithmetic does not overflow. -/
theorem C51_mul {t : Target} (ht : t.OK) {n answer : Nat} (hn : n ≤ t.cfg.maxLen + 4) (ha : answer ≠ 0) :
    Provides t ((mulLayout t n).raw >>= fun l => MemoryAllocation.new t l answer)
      (allocMemory t.cfg (mulMemoryRequirement n)) :=
  (mulLayout_agrees ht hn).provides ha

/-- 300 words on the 64-bit target. -/
example := C51_mul target64_ok (n := 300) (answer := 4096) (by decide) (by decide)

/-- Scratch memory for a division (/repo/src/div_ops.rs:1369, modular/convert.rs:210). -/
theorem C51_div {t : Target} (ht : t.OK) {lhsLen rhsLen answer : Nat} (hr : rhsLen ≤ t.cfg.maxLen + 4)
    (ha : answer ≠ 0) :
    Provides t ((divLayout t lhsLen rhsLen).raw >>= fun l => MemoryAllocation.new t l answer)
      (divMemoryRequirement lhsLen rhsLen >>= allocMemory t.cfg) := by
  rcases divLayout_agrees ht hr (l := lhsLen) with ⟨w, e1, e2⟩ | ⟨p, e1, e2⟩
  · rw [e1]; exact e2.provides ha
  · rw [e1, e2]; rfl

/-- 300 words by 100 words on the 64-bit target. -/
example := C51_div target64_ok (lhsLen := 300) (rhsLen := 100) (answer := 4096) (by decide) (by decide)

/-- Scratch memory for a multiplication in a ring (/repo/src/modular/mul.rs:71-72). -/
theorem C51_ring {t : Target} (ht : t.OK) {r : RingLarge} {answer : Nat} (h2 : 2 ≤ r.modulus.length)
    (hr : r.modulus.length ≤ t.cfg.maxLen) (ha : answer ≠ 0) :
    Provides t ((ringMulLayout t r.modulus.length).raw >>= fun l => MemoryAllocation.new t l answer)
      (r.mulMemory t.cfg >>= allocMemory t.cfg) := by
  obtain ⟨w, h1, h3⟩ := ringMulLayout_agrees ht h2 hr
  rw [h1 r rfl]
  exact h3.provides ha

/-- A modulus of 4000 words on the 16-bit target. -/
example {r : RingLarge} (h : r.modulus.length = 4000) := C51_ring target16_ok (r := r) (answer := 4096)
  (by omega) (by rw [h]; decide) (by decide)

/-- Scratch memory for a power in a ring (/repo/src/modular/pow.rs:147-156), with its table. -/
theorem C51_pow {t : Target} (ht : t.OK) {r : RingLarge} {answer entries : Nat} (h2 : 2 ≤ r.modulus.length)
    (hr : r.modulus.length ≤ t.cfg.maxLen) (ha : answer ≠ 0) :
    Provides t ((powLayout t entries r.modulus.length).raw >>= fun l => MemoryAllocation.new t l answer)
      (r.mulMemory t.cfg >>= fun w => allocMemory t.cfg (entries * r.modulus.length + w)) := by
  obtain ⟨w, h1, h3⟩ := powLayout_agrees ht (e := entries) h2 hr
  rw [h1 r rfl]
  exact h3.provides ha

/-- 16 powers modulo 300 words on the 64-bit target. -/
example {r : RingLarge} (h : r.modulus.length = 300) := C51_pow target64_ok (r := r) (answer := 4096) (entries := 16)
  (by omega) (by rw [h]; decide) (by decide)

/-- Numbers (/repo/src/buffer.rs:28): a buffer the crate asks the standard library for has at most
`isize::MAX` bytes (`c` words are requested; the vector may have more), so `Vec::with_capacity` does not panic with "capacity overflow"; and computing its capacity
(/repo/src/buffer.rs:166, 177) does not overflow. -/
theorem C51_buffer {t : Target} (ht : t.OK) {n : Nat} {b : Buffer} (h : Buffer.allocate t.cfg n = .ok b) :
    (∃ c, b = Buffer.withCapacity t.cfg c ∧ n ≤ c ∧ c * t.size ≤ t.isizeMax) ∧
      n + n / 8 + 2 < 2 ^ t.cfg.U ∧ n + n / 4 + 4 < 2 ^ t.cfg.U := by
  have hv := ht.valid
  rcases Nat.lt_or_ge (t.cfg.maxLen + 4) n with hlt | hle
  · rw [Buffer.allocate_err hlt] at h; cases h
  · rw [Buffer.allocate_ok hle] at h
    cases h
    have hb := hv.bits
    have hl := hv.large
    have hs : t.size = t.cfg.W / 8 := rfl
    suffices hx : (n ≤ min (n + n / 8 + 2) (t.cfg.maxLen + 4) ∧
        min (n + n / 8 + 2) (t.cfg.maxLen + 4) * t.size ≤ t.isizeMax) ∧
        n + n / 8 + 2 < 2 ^ t.cfg.U ∧ n + n / 4 + 4 < 2 ^ t.cfg.U from ⟨⟨_, rfl, hx.1⟩, hx.2⟩
    simp only [Target.isizeMax, hs]
    generalize t.cfg.maxLen = m at *
    have key : min (n + n / 8 + 2) (m + 4) * (t.cfg.W / 8) ≤ (m + 4) * (t.cfg.W / 8) :=
      Nat.mul_le_mul_right _ (Nat.min_le_right _ _)
    rcases hv.word with e | e | e <;> rcases hv.usize with e' | e' | e' <;> rw [e] at hb key ⊢ <;> rw [e'] at hb ⊢ <;>
      norm_num at hb key ⊢ <;> omega

/-- 100 words on the 64-bit target. -/
example := C51_buffer target64_ok (n := 100) (b := ⟨[], 114⟩) (by decide +kernel)

example : (mulLayout target64 300).raw >>= (fun l => MemoryAllocation.new target64 l 4096) =
    .ok ⟨⟨(4 * 300 + 13 * 9) * 8, 8⟩, 4096⟩ := by decide +kernel
example : allocMemory cfg64 (mulMemoryRequirement 300) = .ok (4 * 300 + 13 * 9) := by decide +kernel
example : Buffer.allocate cfg64 100 = .ok ⟨[], 114⟩ := by decide +kernel
example : ringMulLayout target16 4000 >>= (fun _ => Except.ok ()) = .ok () := by decide +kernel
example : (ringMulLayout target16 4000).raw >>= (fun l => MemoryAllocation.new target16 l 4096) =
    .error (.panic .outOfMemory) := by decide +kernel

end Ibig
