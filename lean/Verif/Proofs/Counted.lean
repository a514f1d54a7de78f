import Verif.Model.ModularTime
import Verif.Model.FmtTime
import Verif.Proofs.Buffer
/-!
Lower bounds on the numbers of steps: every loop counts its iterations.
-/
namespace Ibig.Timed

/-- The result and the number of steps, if there is a result, satisfy `Q`. -/
def Sat {α : Type} (x : Timed α) (Q : α → Nat → Prop) : Prop := ∀ a k, x = .ok (a, k) → Q a k

theorem Sat.bind {α β : Type} {x : Timed α} {f : α → Timed β} {Q : α → Nat → Prop} {T : β → Nat → Prop}
    (hx : Sat x Q) (hf : ∀ a k, Q a k → Sat (f a) fun b l => T b (k + l)) : Sat (x >>= f) T := by
  intro b n h
  rcases x with e | ⟨a, k⟩
  · cases h
  · have h' : (match f a with
      | .error e => Except.error e
      | .ok (b, l) => Except.ok (b, k + l) : Timed β) = .ok (b, n) := h
    generalize hy : f a = y at h'
    rcases y with e | ⟨b', l⟩
    · cases h'
    · cases h'
      exact hf a k (hx a k rfl) b l hy

theorem Sat.mono {α : Type} {x : Timed α} {Q T : α → Nat → Prop} (hx : Sat x Q) (h : ∀ a k, Q a k → T a k) : Sat x T :=
  fun a k e => h a k (hx a k e)

theorem sat_any {α : Type} (x : Timed α) : Sat x fun _ _ => True := fun _ _ _ => trivial

theorem sat_pure {α : Type} {a : α} {Q : α → Nat → Prop} (h : Q a 0) : Sat (pure a) Q := by
  intro b k e
  cases e
  exact h

theorem sat_pass {α : Type} {n : Nat} {x : R α} {Q : α → Nat → Prop} (h : ∀ a, x = .ok a → Q a n) :
    Sat (pass n x) Q := by
  intro b k e
  rcases x with e' | a
  · cases e
  · cases e
    exact h _ rfl

theorem sat_throw {α : Type} {e : Panic} {Q : α → Nat → Prop} : Sat (throwT e) Q := by
  intro b k h
  cases h

theorem sat_ite {α : Type} {c : Prop} [Decidable c] {x y : Timed α} {Q : α → Nat → Prop} (hx : c → Sat x Q)
    (hy : ¬c → Sat y Q) : Sat (if c then x else y) Q := by
  by_cases h : c
  · rw [if_pos h]; exact hx h
  · rw [if_neg h]; exact hy h

theorem sat_tick {Q : Unit → Nat → Prop} (h : Q () 1) : Sat tick Q := sat_pass fun _ _ => h

theorem sat_assert {p : Prop} [Decidable p] : Sat (assertR p) fun _ k => p ∧ k = 1 := by
  refine sat_pass fun a h => ⟨?_, rfl⟩
  unfold Ibig.assertR at h
  split at h
  · assumption
  · cases h

theorem sat_slice {l : List Nat} {i j : Nat} : Sat (sliceR l i j) fun s k => s.length = j - i ∧ k = 1 := by
  refine sat_pass fun a h => ⟨?_, rfl⟩
  unfold Ibig.sliceR at h
  split at h
  · rename_i hh
    cases h
    simp
    omega
  · cases h

theorem sat_split {l : List Nat} {n : Nat} :
    Sat (splitR l n) fun p k => p.1.length = n ∧ p.2.length + n = l.length ∧ k = 1 := by
  refine sat_pass fun a h => ?_
  unfold Ibig.splitR at h
  split at h
  · rename_i hh
    cases h
    simp
    omega
  · cases h

theorem sat_onSlice {α : Type} {c : List Nat} {i j : Nat} {f : List Nat → Timed (List Nat × α)} {n : Nat}
    (h : ∀ s, s.length = j - i → Sat (f s) fun _ k => n ≤ k) : Sat (onSlice c i j f) fun _ k => n + 1 ≤ k :=
  sat_slice.bind fun s k hs => (h s hs.1).bind fun p l hl => by
    obtain ⟨_, _⟩ := p
    exact sat_pure (by omega)

/-! ### Words -/

theorem sat_addLoop (W : Nat) : ∀ (a b : List Nat) (c : Bool),
    Sat (addLoop W a b c) fun _ k => min a.length b.length ≤ k
  | [], _, _ => sat_pure (by simp)
  | _ :: _, [], _ => sat_pure (by simp)
  | x :: a, y :: b, c => by
    rw [addLoop]
    refine (sat_tick (Q := fun _ k => k = 1) rfl).bind fun _ k hk => ?_
    refine (sat_addLoop W a b _).bind fun p l hl => ?_
    obtain ⟨_, _⟩ := p
    exact sat_pure (by simp; omega)

theorem sat_subLoop (W : Nat) : ∀ (a b : List Nat) (c : Bool),
    Sat (subLoop W a b c) fun _ k => min a.length b.length ≤ k
  | [], _, _ => sat_pure (by simp)
  | _ :: _, [], _ => sat_pure (by simp)
  | x :: a, y :: b, c => by
    rw [subLoop]
    refine (sat_tick (Q := fun _ k => k = 1) rfl).bind fun _ k hk => ?_
    refine (sat_subLoop W a b _).bind fun p l hl => ?_
    obtain ⟨_, _⟩ := p
    exact sat_pure (by simp; omega)

theorem sat_subSwapLoop (W : Nat) : ∀ (a b : List Nat) (c : Bool),
    Sat (subSwapLoop W a b c) fun _ k => min a.length b.length ≤ k
  | [], _, _ => sat_pure (by simp)
  | _ :: _, [], _ => sat_pure (by simp)
  | x :: a, y :: b, c => by
    rw [subSwapLoop]
    refine (sat_tick (Q := fun _ k => k = 1) rfl).bind fun _ k hk => ?_
    refine (sat_subSwapLoop W a b _).bind fun p l hl => ?_
    obtain ⟨_, _⟩ := p
    exact sat_pure (by simp; omega)

theorem sat_addSameLen (W : Nat) (a b : List Nat) : Sat (addSameLen W a b) fun _ k => b.length + 1 ≤ k :=
  sat_assert.bind fun _ k hk => (sat_addLoop W a b false).mono fun _ l hl => by omega

theorem sat_subSameLen (W : Nat) (a b : List Nat) : Sat (subSameLen W a b) fun _ k => b.length + 1 ≤ k :=
  sat_assert.bind fun _ k hk => (sat_subLoop W a b false).mono fun _ l hl => by omega

theorem sat_subSameLenSwap (W : Nat) (a b : List Nat) : Sat (subSameLenSwap W a b) fun _ k => b.length + 1 ≤ k :=
  sat_assert.bind fun _ k hk => (sat_subSwapLoop W a b false).mono fun _ l hl => by omega

theorem sat_addInPlace (W : Nat) (a b : List Nat) : Sat (addInPlace W a b) fun _ k => b.length + 2 ≤ k := by
  refine sat_split.bind fun p k hk => ?_
  obtain ⟨lo, hi⟩ := p
  refine (sat_addSameLen W lo b).bind fun q l hl => ?_
  obtain ⟨lo', carry⟩ := q
  refine sat_ite (fun _ => (sat_any _).bind fun r m _ => ?_) fun _ => sat_pure (by omega)
  obtain ⟨_, _⟩ := r
  exact sat_pure (by omega)

theorem sat_subInPlace (W : Nat) (a b : List Nat) : Sat (subInPlace W a b) fun _ k => b.length + 2 ≤ k := by
  refine sat_split.bind fun p k hk => ?_
  obtain ⟨lo, hi⟩ := p
  refine (sat_subSameLen W lo b).bind fun q l hl => ?_
  obtain ⟨lo', carry⟩ := q
  refine sat_ite (fun _ => (sat_any _).bind fun r m _ => ?_) fun _ => sat_pure (by omega)
  obtain ⟨_, _⟩ := r
  exact sat_pure (by omega)

theorem sat_addSignedSameLen (W : Nat) (a : List Nat) (s : Sign) (b : List Nat) :
    Sat (addSignedSameLen W a s b) fun _ k => a.length = b.length ∧ b.length + 2 ≤ k := by
  refine sat_assert.bind fun _ k hk => ?_
  cases s
  · refine (sat_addSameLen W a b).bind fun q l hl => ?_
    obtain ⟨_, _⟩ := q
    exact sat_pure (by omega)
  · refine (sat_subSameLen W a b).bind fun q l hl => ?_
    obtain ⟨_, _⟩ := q
    exact sat_pure (by omega)

theorem sat_mulWordLoop (W m : Nat) : ∀ (a : List Nat) (c : Nat), Sat (mulWordLoop W m a c) fun _ k => a.length ≤ k
  | [], _ => sat_pure (by simp)
  | x :: a, c => by
    rw [mulWordLoop]
    refine (sat_tick (Q := fun _ k => k = 1) rfl).bind fun _ k hk => ?_
    refine (sat_mulWordLoop W m a _).bind fun p l hl => ?_
    obtain ⟨_, _⟩ := p
    exact sat_pure (by simp; omega)

theorem sat_addMulWordLoop (W m : Nat) : ∀ (a b : List Nat) (c : Nat),
    Sat (addMulWordLoop W m a b c) fun _ k => min a.length b.length ≤ k
  | [], _, _ => sat_pure (by simp)
  | _ :: _, [], _ => sat_pure (by simp)
  | x :: a, y :: b, c => by
    rw [addMulWordLoop]
    refine (sat_tick (Q := fun _ k => k = 1) rfl).bind fun _ k hk => ?_
    refine (sat_addMulWordLoop W m a b _).bind fun p l hl => ?_
    obtain ⟨_, _⟩ := p
    exact sat_pure (by simp; omega)

theorem sat_subMulWordLoop (W m : Nat) : ∀ (a b : List Nat) (c : Nat),
    Sat (subMulWordLoop W m a b c) fun _ k => min a.length b.length ≤ k
  | [], _, _ => sat_pure (by simp)
  | _ :: _, [], _ => sat_pure (by simp)
  | x :: a, y :: b, c => by
    rw [subMulWordLoop]
    refine (sat_pass (Q := fun _ k => k = 1) fun _ _ => rfl).bind fun v k hk => ?_
    refine (sat_subMulWordLoop W m a b _).bind fun p l hl => ?_
    obtain ⟨_, _⟩ := p
    exact sat_pure (by simp; omega)

theorem sat_addMulWordSameLen (W : Nat) (a : List Nat) (m : Nat) (b : List Nat) :
    Sat (addMulWordSameLen W a m b) fun _ k => b.length + 1 ≤ k :=
  sat_assert.bind fun _ k hk => (sat_addMulWordLoop W m a b 0).mono fun _ l hl => by omega

theorem sat_subMulWordSameLen (W : Nat) (a : List Nat) (m : Nat) (b : List Nat) :
    Sat (subMulWordSameLen W a m b) fun _ k => b.length + 1 ≤ k := by
  refine sat_assert.bind fun _ k hk => (sat_subMulWordLoop W m a b _).bind fun p l hl => ?_
  obtain ⟨r, cpm⟩ := p
  exact (sat_any _).bind fun _ m _ => sat_pure (by omega)

theorem sat_shlLoop (W s : Nat) : ∀ (a : List Nat) (c : Nat), Sat (shlLoop W s a c) fun _ k => a.length ≤ k
  | [], _ => sat_pure (by simp)
  | x :: a, c => by
    rw [shlLoop]
    refine (sat_tick (Q := fun _ k => k = 1) rfl).bind fun _ k hk => ?_
    refine (sat_shlLoop W s a _).bind fun p l hl => ?_
    obtain ⟨_, _⟩ := p
    exact sat_pure (by simp; omega)

theorem sat_shrLoop (W s : Nat) : ∀ (a : List Nat), Sat (shrLoop W s a) fun _ k => a.length ≤ k
  | [] => sat_pure (by simp)
  | x :: a => by
    rw [shrLoop]
    refine (sat_tick (Q := fun _ k => k = 1) rfl).bind fun _ k hk => ?_
    refine (sat_shrLoop W s a).bind fun p l hl => ?_
    obtain ⟨_, _⟩ := p
    exact sat_pure (by simp; omega)

theorem sat_fastDivLoop (W : Nat) (fd : FastDivideNormalized) : ∀ (a : List Nat) (r : Nat),
    Sat (fastDivLoop W fd a r) fun _ k => a.length ≤ k
  | [], _ => sat_pure (by simp)
  | x :: a, r => by
    rw [fastDivLoop]
    refine (sat_fastDivLoop W fd a r).bind fun p l hl => ?_
    obtain ⟨_, _⟩ := p
    refine (sat_pass (Q := fun _ k => k = 1) fun _ _ => rfl).bind fun v k hk => ?_
    obtain ⟨_, _⟩ := v
    exact sat_pure (by simp; omega)

theorem sat_fastRemLoop (W : Nat) (fd : FastDivideNormalized) : ∀ (a : List Nat) (r : Nat),
    Sat (fastRemLoop W fd a r) fun _ k => a.length ≤ k
  | [], _ => sat_pure (by simp)
  | x :: a, r => by
    rw [fastRemLoop]
    refine (sat_fastRemLoop W fd a r).bind fun p l hl => ?_
    refine (sat_pass (Q := fun _ k => k = 1) fun _ _ => rfl).bind fun v k hk => ?_
    obtain ⟨_, _⟩ := v
    exact sat_pure (by simp; omega)

theorem sat_zipInPlace (f : Nat → Nat → Nat) : ∀ (a b : List Nat),
    Sat (zipInPlace f a b) fun _ k => min a.length b.length ≤ k
  | [], _ => sat_pure (by simp)
  | _ :: _, [] => sat_pure (by simp)
  | x :: a, y :: b => by
    rw [zipInPlace]
    refine (sat_tick (Q := fun _ k => k = 1) rfl).bind fun _ k hk => ?_
    refine (sat_zipInPlace f a b).bind fun p l hl => ?_
    exact sat_pure (by simp; omega)

/-! ### Schoolbook multiplication and division -/

theorem sat_addMulChunkLoop (W : Nat) (a : List Nat) : ∀ (b c : List Nat) (i : Nat) (carry : Bool),
    Sat (addMulChunkLoop W a c i b carry) fun _ k => a.length * b.length ≤ k
  | [], _, _, _ => sat_pure (by simp)
  | m :: b, c, i, carry => by
    rw [addMulChunkLoop]
    refine (sat_onSlice fun s _ => sat_addMulWordSameLen W s m a).bind fun p k hk => ?_
    obtain ⟨c, w⟩ := p
    refine (sat_any _).bind fun x k1 _ => ?_
    dsimp only
    refine (sat_any _).bind fun c k2 _ => ?_
    refine (sat_addMulChunkLoop W a b c _ _).mono fun _ l hl => ?_
    rw [List.length_cons, Nat.mul_succ]
    omega

theorem sat_subMulChunkLoop (W : Nat) (a : List Nat) : ∀ (b c : List Nat) (i : Nat) (carry : Bool),
    Sat (subMulChunkLoop W a c i b carry) fun _ k => a.length * b.length ≤ k
  | [], _, _, _ => sat_pure (by simp)
  | m :: b, c, i, carry => by
    rw [subMulChunkLoop]
    refine (sat_onSlice fun s _ => sat_subMulWordSameLen W s m a).bind fun p k hk => ?_
    obtain ⟨c, w⟩ := p
    refine (sat_any _).bind fun x k1 _ => ?_
    dsimp only
    refine (sat_any _).bind fun c k2 _ => ?_
    refine (sat_subMulChunkLoop W a b c _ _).mono fun _ l hl => ?_
    rw [List.length_cons, Nat.mul_succ]
    omega

theorem sat_simpleMulChunk (W : Nat) (c : List Nat) (s : Sign) (a b : List Nat) (mem : Nat) :
    Sat (simpleMulChunk W c s a b mem) fun _ k => a.length * b.length ≤ k := by
  refine sat_assert.bind fun _ k hk => sat_assert.bind fun _ k hk => ?_
  cases s
  · refine Sat.bind (sat_assert.bind fun _ k hk => sat_assert.bind fun _ k hk =>
      (sat_addMulChunkLoop W a b c 0 false).mono (fun _ l hl => ?_)) (Q := fun _ k => a.length * b.length ≤ k)
      fun p l hl => ?_
    · omega
    · obtain ⟨_, _⟩ := p
      exact sat_pure (by omega)
  · refine Sat.bind (sat_assert.bind fun _ k hk => sat_assert.bind fun _ k hk =>
      (sat_subMulChunkLoop W a b c 0 false).mono (fun _ l hl => ?_)) (Q := fun _ k => a.length * b.length ≤ k)
      fun p l hl => ?_
    · omega
    · obtain ⟨_, _⟩ := p
      exact sat_pure (by omega)

theorem sat_simpleDivLoop (W : Nat) (fd : FastDivideNormalized) (rhs : List Nat) (r0 r1 : Nat) : ∀ (n : Nat) (lhs : List Nat),
    Sat (simpleDivLoop W fd rhs r0 r1 n lhs) fun _ k => n * rhs.length ≤ k
  | 0, _ => sat_pure (by simp)
  | n + 1, lhs => by
    rw [simpleDivLoop]
    refine (sat_any _).bind fun _ k1 _ => ?_
    refine (sat_any _).bind fun _ k2 _ => ?_
    refine (sat_any _).bind fun _ k3 _ => ?_
    refine (sat_any _).bind fun q k4 _ => ?_
    refine (sat_onSlice fun s _ => sat_subMulWordSameLen W s q rhs).bind fun p k5 hk => ?_
    obtain ⟨lhs, borrow⟩ := p
    refine (sat_any _).bind fun p k6 _ => ?_
    obtain ⟨lhs, q⟩ := p
    refine (sat_any _).bind fun lhs k7 _ => ?_
    refine (sat_simpleDivLoop W fd rhs r0 r1 n lhs).mono fun _ l hl => ?_
    rw [Nat.succ_mul]
    omega

/-! ### Multiplication -/

/-- A multiplication of operands of lengths `n` and `m` takes at least `n m` steps while one of them is at most `24`
words long, and at least `n + m` steps otherwise. -/
def mulLeast (n m : Nat) : Nat := if min n m ≤ mulMaxLenSimple then n * m else n + m

theorem mulLeast_comm (n m : Nat) : mulLeast n m = mulLeast m n := by
  unfold mulLeast
  rw [Nat.min_comm, Nat.mul_comm, Nat.add_comm]

theorem sat_karatsuba (W : Nat) (rec : MulFn) (c : List Nat) (s : Sign) (a b : List Nat) (mem : Nat) :
    Sat (karatsubaSameLen W rec c s a b mem) fun _ k => 2 * a.length ≤ k := by
  unfold karatsubaSameLen
  dsimp only
  refine sat_assert.bind fun _ k0 h0 => sat_assert.bind fun _ k1 h1 => ?_
  refine (sat_any _).bind fun p k2 _ => ?_
  obtain ⟨a_lo, a_hi⟩ := p
  refine (sat_any _).bind fun p k3 _ => ?_
  obtain ⟨b_lo, b_hi⟩ := p
  refine (sat_pass (Q := fun _ k => k = 2 * ((a.length + 1) / 2) + 1) fun _ _ => rfl).bind fun p k4 h4 => ?_
  obtain ⟨c_lo, mem1⟩ := p
  refine (sat_any _).bind fun p k5 _ => ?_
  obtain ⟨c_lo, overflow⟩ := p
  refine (sat_any _).bind fun _ k6 _ => ?_
  refine (sat_any _).bind fun p k7 _ => ?_
  obtain ⟨c, carry_c0⟩ := p
  refine (sat_any _).bind fun p k8 _ => ?_
  obtain ⟨c, carry_c1⟩ := p
  refine (sat_pass (Q := fun _ k => k = 2 * (a.length - (a.length + 1) / 2) + 1) fun _ _ => rfl).bind fun p k9 h9 => ?_
  exact (sat_any _).mono fun _ l _ => by omega

theorem sat_toom3Zero (W : Nat) (rec : MulFn) (c : List Nat) (s : Sign) (n3 : Nat) (t1 a0 b0 : List Nat) (mem : Nat) :
    Sat (toom3SameLen.toom3Zero W rec c s n3 t1 a0 b0 mem) fun _ k => 2 * n3 ≤ k := by
  unfold toom3SameLen.toom3Zero
  refine (sat_any _).bind fun t k1 _ => (sat_any _).bind fun p k2 _ => ?_
  obtain ⟨t, o⟩ := p
  refine (sat_any _).bind fun _ k3 _ => ?_
  refine (sat_onSlice (n := 2 * n3) fun q hq => (sat_addSignedSameLen W q s t).mono fun _ k hk => by omega).bind
    fun p k4 h4 => ?_
  exact (sat_any _).mono fun _ l _ => by omega

theorem sat_toom3Finish (W : Nat) (c : List Nat) (s : Sign) (n3 : Nat) (t1 t2 : List Nat) (x y z w : Int) :
    Sat (toom3SameLen.toom3Finish W c s n3 t1 t2 x y z w) fun _ k => 2 * n3 ≤ k := by
  unfold toom3SameLen.toom3Finish
  refine (sat_onSlice (n := 2 * n3) fun q hq => (sat_addSignedSameLen W q _ t1).mono fun _ k hk => by omega).bind
    fun p k4 h4 => ?_
  exact (sat_any _).mono fun _ l _ => by omega

theorem sat_toom3 (W : Nat) (rec : MulFn) (c : List Nat) (s : Sign) (a b : List Nat) (mem : Nat) :
    Sat (toom3SameLen W rec c s a b mem) fun _ k => 2 * a.length ≤ k := by
  unfold toom3SameLen
  dsimp only
  refine sat_assert.bind fun _ k0 h0 => sat_assert.bind fun _ k1 h1 => ?_
  refine (sat_any _).bind fun _ k2 _ => ?_
  refine (sat_any _).bind fun p k3 _ => ?_
  obtain ⟨_, _⟩ := p
  refine (sat_any _).bind fun p k4 _ => ?_
  obtain ⟨_, _⟩ := p
  refine (sat_any _).bind fun p k5 _ => ?_
  obtain ⟨_, _⟩ := p
  refine (sat_any _).bind fun p k6 _ => ?_
  obtain ⟨_, _⟩ := p
  refine (sat_pass (Q := fun _ k => k = 2 * ((a.length + 2) / 3) + 2 + 1) fun _ _ => rfl).bind fun p k7 h7 => ?_
  obtain ⟨_, _⟩ := p
  refine (sat_toom3Zero W rec _ _ _ _ _ _ _).bind fun p k8 h8 => ?_
  obtain ⟨_, _, _, _⟩ := p
  refine (sat_any _).bind fun p k9 _ => ?_
  obtain ⟨_, _⟩ := p
  refine (sat_any _).bind fun p k10 _ => ?_
  obtain ⟨_, _⟩ := p
  refine (sat_any _).bind fun _ k11 _ => ?_
  refine (sat_any _).bind fun p k12 _ => ?_
  obtain ⟨_, _, _, _⟩ := p
  refine (sat_any _).bind fun _ k13 _ => ?_
  refine (sat_any _).bind fun p k14 _ => ?_
  obtain ⟨_, _⟩ := p
  refine (sat_any _).bind fun p k15 _ => ?_
  obtain ⟨_, _, _, _, _⟩ := p
  refine (sat_any _).bind fun p k16 _ => ?_
  obtain ⟨_, _⟩ := p
  exact (sat_toom3Finish W _ _ _ _ _ _ _ _ _).mono fun _ l hl => by omega

theorem sat_mulSameLen (W fuel : Nat) (c : List Nat) (s : Sign) (a b : List Nat) (mem : Nat) :
    Sat (mulSameLen W fuel c s a b mem) fun _ k => mulLeast a.length a.length ≤ k := by
  cases fuel with
  | zero => exact sat_throw
  | succ fuel =>
    unfold mulSameLen
    dsimp only
    refine sat_assert.bind fun _ k0 h0 => ?_
    unfold mulLeast
    rw [Nat.min_self]
    refine sat_ite (fun h => ?_) fun h => ?_
    · rw [if_pos h]
      refine sat_assert.bind fun _ k1 h1 => sat_assert.bind fun _ k2 h2 => ?_
      exact (sat_simpleMulChunk W c s a b mem).mono fun _ l hl => by rw [h1.1.1] at *; omega
    · rw [if_neg h]
      refine sat_ite (fun _ => ?_) fun _ => ?_
      · exact (sat_karatsuba W _ c s a b mem).mono fun _ l hl => by omega
      · exact (sat_toom3 W _ c s a b mem).mono fun _ l hl => by omega

theorem sat_splitChunksLoop (W chunkLen : Nat) (f : MulFn) (s : Sign) (b : List Nat) (mem g : Nat)
    (hf : ∀ c a, a.length = chunkLen → Sat (f c s a b mem) fun _ k => g ≤ k) :
    ∀ (fuel : Nat) (c : List Nat) (off : Nat) (a : List Nat) (carry : Int),
    Sat (splitChunksLoop W chunkLen f s b mem fuel c off a carry) fun r k =>
      ∃ q, a.length = q * chunkLen + r.2.2.1.length ∧ r.2.2.1.length < chunkLen ∧ q * g ≤ k
  | 0, _, _, _, _ => sat_throw
  | fuel + 1, c, off, a, carry => by
    rw [splitChunksLoop]
    refine sat_ite (fun h => ?_) fun h => sat_pure ⟨0, by simp, by dsimp only; omega, by simp⟩
    dsimp only
    refine sat_split.bind fun p k0 h0 => ?_
    obtain ⟨aLo, aHi⟩ := p
    refine (sat_any _).bind fun p k1 _ => ?_
    obtain ⟨c, c1⟩ := p
    refine (sat_onSlice fun q _ => hf q aLo h0.1).bind fun p k2 h2 => ?_
    obtain ⟨c, c2⟩ := p
    refine (sat_any _).bind fun carry k3 _ => ?_
    refine (sat_splitChunksLoop W chunkLen f s b mem g hf fuel c _ aHi carry).mono fun r l hl => ?_
    obtain ⟨q, h3, h4, h5⟩ := hl
    refine ⟨q + 1, ?_, h4, ?_⟩
    · have := h0.2.1
      dsimp only at this
      rw [Nat.succ_mul]
      omega
    · rw [Nat.succ_mul]
      omega

theorem sat_splitIntoChunks (W : Nat) (mulRec : MulFn) (chunkLen : Nat) (f : MulFn) (c : List Nat) (s : Sign)
    (a b : List Nat) (mem g : Nat) (hf : ∀ c a, a.length = chunkLen → Sat (f c s a b mem) fun _ k => g ≤ k)
    (hr : ∀ c a b, Sat (mulRec c s a b mem) fun _ k => mulLeast a.length b.length ≤ k) :
    Sat (splitIntoChunks W mulRec chunkLen f c s a b mem) fun _ k =>
      ∃ q r, a.length = q * chunkLen + r ∧ r < chunkLen ∧ q * g + mulLeast r b.length ≤ k ∧ b.length ≤ a.length := by
  unfold splitIntoChunks
  dsimp only
  refine sat_assert.bind fun _ k0 h0 => sat_assert.bind fun _ k1 h1 => ?_
  refine (sat_splitChunksLoop W chunkLen f s b mem g hf _ _ _ _ _).bind fun p k2 h2 => ?_
  obtain ⟨c, off, a', carryN⟩ := p
  obtain ⟨q, e1, e2, e3⟩ := h2
  refine (sat_any _).bind fun p k3 _ => ?_
  obtain ⟨c, carry⟩ := p
  dsimp only at e1 e2 e3 ⊢
  refine sat_ite (fun _ => ?_) fun _ => sat_ite (fun _ => ?_) fun hn => ?_
  · refine (sat_onSlice fun t _ => hr t a' b).bind fun p k4 h4 => ?_
    obtain ⟨c, k⟩ := p
    exact (sat_any _).bind fun _ k5 _ => sat_pure ⟨q, a'.length, e1, e2, by omega, h0.1.1⟩
  · refine (sat_onSlice fun t _ => hr t b a').bind fun p k4 h4 => ?_
    obtain ⟨c, k⟩ := p
    rw [mulLeast_comm] at h4
    exact (sat_any _).bind fun _ k5 _ => sat_pure ⟨q, a'.length, e1, e2, by omega, h0.1.1⟩
  · have : a' = [] := not_not.mp hn
    refine sat_pure ⟨q, a'.length, e1, e2, ?_, h0.1.1⟩
    have h0 : mulLeast a'.length b.length = 0 := by rw [this]; simp [mulLeast]
    omega

theorem le_mulLeast {r m : Nat} (hm : 1 ≤ m) : r ≤ mulLeast r m := by
  unfold mulLeast
  split
  · exact Nat.le_mul_of_pos_right r hm
  · omega

theorem mulLeast_chunks {n m q r g k : Nat} (hm : mulMaxLenSimple < m) (e : n = q * m + r) (hr : r < m)
    (hg : 2 * m ≤ g) (hk : q * g + mulLeast r m ≤ k) (hle : m ≤ n) : n + m ≤ k := by
  have h1 : r ≤ mulLeast r m := le_mulLeast (by omega)
  have h2 : 1 ≤ q := by
    rcases Nat.eq_zero_or_pos q with h | h
    · subst h; omega
    · exact h
  have h3 : q * (2 * m) ≤ q * g := Nat.mul_le_mul_left q hg
  have h4 : 1 * m ≤ q * m := Nat.mul_le_mul_right m h2
  have h5 : q * (2 * m) = 2 * (q * m) := by ring
  omega

theorem sat_addSignedMulFuel (W : Nat) : ∀ (fuel : Nat) (c : List Nat) (s : Sign) (a b : List Nat) (mem : Nat),
    Sat (addSignedMulFuel W fuel c s a b mem) fun _ k => mulLeast a.length b.length ≤ k
  | 0, _, _, _, _, _ => sat_throw
  | fuel + 1, c, s, a, b, mem => by
    unfold addSignedMulFuel
    refine sat_assert.bind fun _ k0 h0 => ?_
    have key : ∀ a b : List Nat, b.length ≤ a.length →
        Sat (if b.length ≤ mulMaxLenSimple then simpleMul W (addSignedMulFuel W fuel) c s a b mem
          else if b.length ≤ mulMaxLenKaratsuba then
            karatsubaMul W (mulSameLen W fuel) (addSignedMulFuel W fuel) c s a b mem
          else toom3Mul W (mulSameLen W fuel) (addSignedMulFuel W fuel) c s a b mem)
        fun _ k => mulLeast a.length b.length ≤ k0 + k := by
      intro a b hab
      refine sat_ite (fun h => ?_) fun h => ?_
      · unfold simpleMul
        have e : mulLeast a.length b.length = a.length * b.length := by
          unfold mulLeast; rw [if_pos]; omega
        rw [e]
        refine sat_assert.bind fun _ k1 _ => sat_assert.bind fun _ k2 _ => ?_
        refine sat_ite (fun _ => ?_) fun _ => ?_
        · exact (sat_simpleMulChunk W c s a b mem).mono fun _ l hl => by omega
        · refine (sat_splitIntoChunks W _ mulChunkLen _ c s a b mem (mulChunkLen * b.length) ?_ ?_).mono
            fun _ l hl => ?_
          · intro c a ha
            rw [← ha]
            exact sat_simpleMulChunk W c s a b mem
          · intro c a b
            exact sat_addSignedMulFuel W fuel c s a b mem
          · obtain ⟨q, r, e1, e2, e3, e4⟩ := hl
            have e5 : mulLeast r b.length = r * b.length := by
              unfold mulLeast; rw [if_pos]; omega
            rw [e5] at e3
            rw [e1, Nat.add_mul, Nat.mul_assoc]
            omega
      · have e : mulLeast a.length b.length = a.length + b.length := by
          unfold mulLeast; rw [if_neg]; omega
        rw [e]
        have hrec : ∀ c a b, Sat (addSignedMulFuel W fuel c s a b mem) fun _ k => mulLeast a.length b.length ≤ k :=
          fun c a b => sat_addSignedMulFuel W fuel c s a b mem
        refine sat_ite (fun _ => ?_) fun _ => ?_
        · refine sat_assert.bind fun _ k1 _ => ?_
          refine (sat_splitIntoChunks W _ b.length _ c s a b mem (2 * b.length) ?_ hrec).mono fun _ l hl => ?_
          · intro c a ha
            rw [← ha]
            exact sat_karatsuba W _ c s a b mem
          · obtain ⟨q, r, e1, e2, e3, e4⟩ := hl
            have := mulLeast_chunks (by omega) e1 e2 (le_refl _) e3 e4
            omega
        · refine sat_assert.bind fun _ k1 _ => ?_
          refine (sat_splitIntoChunks W _ b.length _ c s a b mem (2 * b.length) ?_ hrec).mono fun _ l hl => ?_
          · intro c a ha
            rw [← ha]
            exact sat_toom3 W _ c s a b mem
          · obtain ⟨q, r, e1, e2, e3, e4⟩ := hl
            have := mulLeast_chunks (by omega) e1 e2 (le_refl _) e3 e4
            omega
    by_cases h : a.length < b.length
    · rw [if_pos h, mulLeast_comm]
      exact key b a h.le
    · rw [if_neg h]
      exact key a b (by omega)

theorem sat_mulLarge (cfg : Cfg) (a b : List Nat) :
    Sat (UBig.mulLarge cfg a b) fun _ k => mulLeast a.length b.length + (a.length + b.length) ≤ k := by
  unfold UBig.mulLarge
  dsimp only
  refine sat_assert.bind fun _ k0 h0 => (sat_any _).bind fun buf k1 _ => ?_
  refine (sat_pass (Q := fun _ k => k = a.length + b.length + 1) fun _ _ => rfl).bind fun buf k2 h2 => ?_
  refine (sat_any _).bind fun mem k3 _ => ?_
  refine (sat_addSignedMulFuel cfg.W _ _ _ a b mem).bind fun p k4 h4 => ?_
  obtain ⟨ws, o⟩ := p
  exact (sat_any _).mono fun _ l _ => by omega

end Ibig.Timed
