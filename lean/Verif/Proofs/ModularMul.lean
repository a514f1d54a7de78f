import Verif.Proofs.ModularAdd
import Verif.Proofs.MulOps
/-! Modular rings: multiplication. -/
namespace Ibig

theorem RingSmall.mul_spec {W : Nat} {r : RingSmall} {n j k : Nat} (h : r.OK W n) (hj : j < n)
    (hk : k < n) :
    r.mul W (j * 2 ^ r.shift) (k * 2 ^ r.shift) = .ok (j * k % n * 2 ^ r.shift) := by
  unfold RingSmall.mul
  rw [assertR_true ⟨RingSmall.isValid_mul h hj, RingSmall.isValid_mul h hk⟩]
  simp only [bind, Except.bind]
  have hp := Nat.two_pow_pos r.shift
  rw [shrW_ok h.shift, Nat.mul_div_cancel _ hp]
  simp only
  have hj' : j < base W := by
    have h1 := RingSmall.raw_lt h hj
    have h2 := Nat.le_mul_of_pos_right j hp
    have := h.lt
    omega
  obtain ⟨q, e⟩ := RingSmall.divRem_shift (a := j * k) h (by
    rw [Nat.mul_assoc, Nat.mul_comm r.modulus]
    exact Nat.mul_lt_mul'' hj' (RingSmall.raw_lt h hk))
  rw [← Nat.mul_assoc, e]

theorem RingLarge.mulMemory_spec {cfg : Cfg} (hv : cfg.Valid) {r : RingLarge} {n : Nat} (h : r.OK cfg n) :
    ∃ d, divMemoryRequirement (2 * r.modulus.length) r.modulus.length = .ok d ∧
      d ≤ 2 * r.modulus.length + 13 * cfg.U ∧
      r.mulMemory cfg = .ok (2 * r.modulus.length + max (mulMemoryRequirement r.modulus.length) d) := by
  have h2 := h.two
  have hl := h.len
  have hM := hv.maxLen_lt
  unfold RingLarge.mulMemory
  simp only
  rw [ckMul_ok (by omega)]
  simp only [bind, Except.bind]
  obtain ⟨d, e1, e2⟩ : ∃ d, divMemoryRequirement (2 * r.modulus.length) r.modulus.length = .ok d ∧
      d ≤ 2 * r.modulus.length + 13 * cfg.U := by
    unfold divMemoryRequirement
    rw [assertR_true ⟨by omega, h2⟩]
    simp only [bind, Except.bind]
    split
    · exact ⟨0, rfl, by omega⟩
    · refine ⟨_, rfl, ?_⟩
      have h3 : min (r.modulus.length / 2) (2 * r.modulus.length - r.modulus.length) =
        r.modulus.length / 2 := by omega
      rw [h3]
      refine le_trans (mulMemoryRequirement_le _) ?_
      have h4 : bitLen (r.modulus.length / 2 - 1) ≤ cfg.U := bitLen_le_iff.mpr (by omega)
      omega
  exact ⟨d, e1, e2, by rw [e1]⟩

/-- Memory enough to multiply two elements of the ring. -/
structure RingLarge.Mem (r : RingLarge) (mem : Nat) : Prop where
  two : 2 * r.modulus.length ≤ mem
  mul : mulMemoryRequirement r.modulus.length ≤ mem - 2 * r.modulus.length
  div : ∀ d, divMemoryRequirement (2 * r.modulus.length) r.modulus.length = .ok d →
    d ≤ mem - 2 * r.modulus.length

theorem RingLarge.mem_of {cfg : Cfg} (hv : cfg.Valid) {r : RingLarge} {n : Nat} (h : r.OK cfg n) :
    ∃ req, r.mulMemory cfg = .ok req ∧ req ≤ 6 * r.modulus.length + 13 * cfg.U ∧
      ∀ mem, req ≤ mem → r.Mem mem := by
  have hl := h.len
  have hM := hv.maxLen_lt
  obtain ⟨d, h1, h2, h3⟩ := RingLarge.mulMemory_spec hv h
  refine ⟨_, h3, ?_, ?_⟩
  · have h4 := mulMemoryRequirement_le r.modulus.length
    have h5 : bitLen (r.modulus.length - 1) ≤ cfg.U := bitLen_le_iff.mpr (by omega)
    omega
  · intro mem hm
    refine ⟨by omega, by omega, ?_⟩
    intro d' hd'
    rw [h1] at hd'
    cases hd'
    omega

theorem RingLarge.mulNormalized_spec {cfg : Cfg} (hv : cfg.Valid) {r : RingLarge} {n j k mem : Nat}
    (h : r.OK cfg n) (hm : r.Mem mem) {a b : List Nat} (ha : r.Has cfg a j)
    (hb : r.Has cfg b k) :
    Returns (r.mulNormalized cfg.W a b mem) fun w => r.Has cfg w (j * k % n) := by
  have h2 := h.two
  obtain ⟨rl, v1, v0, hN⟩ := h.norm
  obtain ⟨m1, m2, m3⟩ := hm
  have hp := Nat.two_pow_pos r.shift
  unfold RingLarge.mulNormalized
  refine Returns.bind (returns_assertR ⟨ha.len, hb.len⟩) ?_
  rintro _ -
  unfold allocFill
  rw [if_pos ⟨m1, by omega⟩]
  simp only [bind, Except.bind]
  have hmul := (mulSameLen_ok hv.W4 (bitLen r.modulus.length) r.modulus.length
    (mem - 2 * r.modulus.length) (by have := lt_two_pow_bitLen r.modulus.length; omega) (mulMem_of_requirement m2)).zeros
    (isWords_replicate_zero cfg.W (2 * r.modulus.length)) (val_replicate_zero _ _) ha.words hb.words
    ha.len hb.len (by simp; omega)
  obtain ⟨⟨p, o⟩, e, g1, g2, g3, g4⟩ := hmul
  rw [e]
  simp only [List.length_replicate] at g1 g2 g3 g4 ⊢
  rw [assertR_true g3]
  simp only
  obtain ⟨⟨p', low⟩, e, f1, f2, f3, f4⟩ := shrInPlace_spec h.shift g2
  rw [e]
  simp only at f1 f2 f3 f4 ⊢
  have hval : val cfg.W p' = (j * k) * 2 ^ r.shift := by
    rw [g4, ha.eq, hb.eq] at f4
    have h5 : j * 2 ^ r.shift * (k * 2 ^ r.shift) = (j * k * 2 ^ r.shift) * 2 ^ r.shift := by ring
    rw [h5] at f4
    have : low = 0 := by
      have h6 := congrArg (· % 2 ^ r.shift) f4
      simp only [Nat.mul_mod_left] at h6
      rwa [Nat.add_comm, Nat.add_mul_mod_self_right, Nat.mod_eq_of_lt f3] at h6
    rw [this, Nat.add_zero] at f4
    exact Nat.eq_of_mul_eq_mul_right hp f4
  have hlp : p'.length = 2 * r.modulus.length := f1.trans g1
  obtain ⟨⟨ws, o'⟩, e, rem, q, t1, t2, t3, t4, t5, t6, t7⟩ :=
    divRemInPlace_spec (mem := mem - 2 * r.modulus.length) hv.W4 f2 hN (by omega) (by rw [hlp]; exact m3)
  rw [e]
  simp only at t1 t2 t3 t7 ⊢
  have hlen : ws.length = rem.length + q.length := by rw [t1]; simp
  rw [sliceR_ok (by omega) (by omega)]
  have hslice : (ws.take r.modulus.length).drop 0 = rem := by
    rw [List.drop_zero, t1, ← t2, List.take_left]
  refine returns_ok.mpr ?_
  rw [hslice]
  refine ⟨t4, t2, ?_⟩
  rw [h.eq, hval] at t7
  exact (quotient_unique hp h.pos t7 (by rw [← h.eq]; exact t6)).2

theorem ModLarge.mulBy_spec {cfg : Cfg} (hv : cfg.Valid) {addr : Nat} {r : RingLarge} {n j k mem : Nat}
    (h : r.OK cfg n) (hm : r.Mem mem) {a b : List Nat} (ha : r.Has cfg a j) (hb : r.Has cfg b k) :
    Returns (ModLarge.mulBy cfg.W ⟨addr, r, a⟩ b mem) fun x =>
      x.addr = addr ∧ x.ring = r ∧ r.Has cfg x.words (j * k % n) := by
  unfold ModLarge.mulBy
  refine Returns.bind (RingLarge.mulNormalized_spec hv h hm ha hb) ?_
  intro w hw
  simp only
  rw [ModLarge.new_ok h hw.words hw.len hw.eq (Nat.mod_lt _ h.pos)]
  exact returns_ok.mpr ⟨rfl, rfl, hw⟩

/-- `x` returns a value satisfying `P`, or fails by exhausting memory, which happens only if `Q`. -/
def RM {α : Type} (Q : Prop) (x : R α) (P : α → Prop) : Prop := Returns x P ∨ (x = .error .outOfMemory ∧ Q)

theorem Returns.rm {α : Type} {Q : Prop} {x : R α} {P : α → Prop} (h : Returns x P) : RM Q x P := Or.inl h

theorem RM.bind {α β : Type} {Q : Prop} {x : R α} {f : α → R β} {P : α → Prop} {P' : β → Prop}
    (hx : RM Q x P) (hf : ∀ a, P a → RM Q (f a) P') : RM Q (x >>= f) P' := by
  rcases hx with ⟨a, rfl, ha⟩ | ⟨rfl, hq⟩
  · exact hf a ha
  · exact Or.inr ⟨rfl, hq⟩

theorem RM.mono {α : Type} {Q : Prop} {x : R α} {P P' : α → Prop} (h : RM Q x P) (hp : ∀ a, P a → P' a) :
    RM Q x P' := by
  rcases h with h | h
  · exact Or.inl (h.mono hp)
  · exact Or.inr h

theorem RM.weaken {α : Type} {Q Q' : Prop} {x : R α} {P : α → Prop} (h : RM Q x P) (hq : Q → Q') :
    RM Q' x P := by
  rcases h with h | ⟨h, h'⟩
  · exact Or.inl h
  · exact Or.inr ⟨h, hq h'⟩

/-- The scratch memory for multiplication exceeds the address space only when the square of the modulus
does not fit in a number. -/
theorem allocMemory_modMul {cfg : Cfg} (hv : cfg.Valid) {r : RingLarge} {n : Nat} (h : r.OK cfg n)
    {req : Nat} (hreq : req ≤ 6 * r.modulus.length + 13 * cfg.U) :
    RM (¬ Fits cfg (n * n)) (allocMemory cfg req) fun m => m = req := by
  unfold allocMemory
  split
  · exact Or.inl (returns_ok.mpr rfl)
  · rename_i hbig
    refine Or.inr ⟨rfl, fun hf => hbig ?_⟩
    have h2 : 2 * r.modulus.length ≤ cfg.maxLen := by
      by_contra hc
      rw [fits_iff] at hf
      refine absurd hf (not_lt.mpr (le_trans ?_ (Nat.mul_le_mul h.ge h.ge)))
      rw [← pow_add]
      have := hv.even
      exact Nat.pow_le_pow_right (base_pos _) (by omega)
    have hlg := hv.large
    have hbits := hv.bits
    generalize r.modulus.length = l at *
    rcases hv.word with hw | hw | hw <;> rcases hv.usize with hu | hu | hu <;>
      rw [hw, hu] at hbits <;> rw [hu] at hreq <;> rw [hw, hu] <;> norm_num at hbits ⊢ <;> omega

theorem Modulo.mulAssign_spec {cfg : Cfg} (hv : cfg.Valid) {r : Ring} {n : Nat} (hr : r.OK cfg n)
    {x y : Modulo} {j k : Nat} (hx : Elem cfg r x j) (hy : Elem cfg r y k) :
    RM (¬ Fits cfg (n * n)) (Modulo.mulAssign cfg x y) fun m => Elem cfg r m (j * k % n) := by
  obtain ⟨hj, ⟨s, e1, e2, rfl⟩ | ⟨l, v, e1, e2, rfl, e3⟩⟩ := elem_cases hr hx <;>
    obtain ⟨hk, ⟨s', f1, f2, rfl⟩ | ⟨l', u, f1, f2, rfl, f3⟩⟩ := elem_cases hr hy
  · rw [e1] at f1; cases f1
    refine Returns.rm ?_
    simp only [Modulo.mulAssign, checkSameRing_self, RingSmall.mul_spec e2 hj hk, bind, Except.bind]
    exact ModSmall.elem_of e1 e2 (Nat.mod_lt _ e2.pos)
  · rw [e1] at f1; cases f1
  · rw [e1] at f1; cases f1
  · rw [e1] at f1; cases f1
    obtain ⟨req, g1, g2, g3⟩ := RingLarge.mem_of hv e2
    simp only [Modulo.mulAssign, checkSameRing_self, g1]
    refine RM.bind (P := fun _ => True) (Returns.rm (returns_ok.mpr trivial)) ?_
    rintro _ -
    refine RM.bind (P := fun q => q = req) (Returns.rm (returns_ok.mpr rfl)) ?_
    rintro _ rfl
    refine RM.bind (allocMemory_modMul hv e2 g2) ?_
    rintro _ rfl
    refine RM.bind (ModLarge.mulBy_spec hv (addr := r.addr) e2 (g3 _ le_rfl) e3 f3).rm ?_
    rintro ⟨a, l', ws⟩ ⟨h3, h4, h5⟩
    simp only at h3 h4 h5
    subst h3 h4
    exact Returns.rm (returns_ok.mpr (elem_large e1 e2 h5 (Nat.mod_lt _ e2.pos)))

theorem Modulo.mul_spec {cfg : Cfg} (hv : cfg.Valid) {r : Ring} {n : Nat} (hr : r.OK cfg n) (o1 o2 : Own)
    {x y : Modulo} {j k : Nat} (hx : Elem cfg r x j) (hy : Elem cfg r y k) :
    RM (¬ Fits cfg (n * n)) (Modulo.mul cfg o1 o2 x y) fun m => Elem cfg r m (j * k % n) := by
  unfold Modulo.mul
  split
  · rw [Nat.mul_comm j k]; exact Modulo.mulAssign_spec hv hr hy hx
  · exact Modulo.mulAssign_spec hv hr hx hy

end Ibig
