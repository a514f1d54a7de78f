import Verif.Proofs.ModularMul
import Verif.Proofs.GcdLimit
import Verif.Proofs.Cfg
/-! When the scratch memory of a multiplication in a ring exceeds the address space. -/
namespace Ibig

theorem allocMemory_small {cfg : Cfg} {l req : Nat} (hl : l ≤ cfg.maxLen) (hreq : req ≤ 6 * l + 13 * cfg.U) :
    RM (2 ^ (cfg.U - 1) ≤ (6 * cfg.maxLen + 13 * cfg.U) * (cfg.W / 8)) (allocMemory cfg req) fun m => m = req := by
  unfold allocMemory
  split
  · exact Or.inl (returns_ok.mpr rfl)
  · rename_i hbig
    refine Or.inr ⟨rfl, ?_⟩
    have h1 : req * (cfg.W / 8) ≤ (6 * cfg.maxLen + 13 * cfg.U) * (cfg.W / 8) :=
      Nat.mul_le_mul_right _ (by omega)
    omega

theorem Modulo.mulAssign_small {cfg : Cfg} (hv : cfg.Valid) {r : Ring} {n : Nat} (hr : r.OK cfg n)
    {x y : Modulo} {j k : Nat} (hx : Elem cfg r x j) (hy : Elem cfg r y k) :
    RM (2 ^ (cfg.U - 1) ≤ (6 * cfg.maxLen + 13 * cfg.U) * (cfg.W / 8)) (Modulo.mulAssign cfg x y)
      fun _ => True := by
  obtain ⟨hj, ⟨s, e1, e2, rfl⟩ | ⟨l, v, e1, e2, rfl, e3⟩⟩ := elem_cases hr hx <;>
    obtain ⟨hk, ⟨s', f1, f2, rfl⟩ | ⟨l', u, f1, f2, rfl, f3⟩⟩ := elem_cases hr hy
  · rcases Modulo.mulAssign_spec hv hr hx hy with ⟨m, h, -⟩ | ⟨h, -⟩
    · exact Or.inl ⟨m, h, trivial⟩
    · rw [e1] at f1; cases f1
      obtain ⟨m, h', -⟩ := ModSmall.elem_of e1 e2 (Nat.mod_lt (j * k) e2.pos)
      exfalso
      simp only [Modulo.mulAssign, checkSameRing_self, RingSmall.mul_spec e2 hj hk, bind, Except.bind] at h
      simp only [bind, Except.bind] at h'
      rw [h'] at h
      cases h
  · rw [e1] at f1; cases f1
  · rw [e1] at f1; cases f1
  · rw [e1] at f1; cases f1
    obtain ⟨req, g1, g2, g3⟩ := RingLarge.mem_of hv e2
    simp only [Modulo.mulAssign, checkSameRing_self, g1]
    refine RM.bind (P := fun _ => True) (Returns.rm (returns_ok.mpr trivial)) ?_
    rintro _ -
    refine RM.bind (P := fun q => q = req) (Returns.rm (returns_ok.mpr rfl)) ?_
    rintro _ rfl
    refine RM.bind (allocMemory_small e2.len g2) ?_
    rintro _ rfl
    refine RM.bind (ModLarge.mulBy_spec hv (addr := r.addr) e2 (g3 _ le_rfl) e3 f3).rm ?_
    rintro ⟨a, l', ws⟩ -
    exact Returns.rm (returns_ok.mpr trivial)

/-- Multiplication in a ring whose modulus has the greatest length. -/
theorem Modulo.mulAssign_big {cfg : Cfg} (hv : cfg.Valid) (hbig : 2 ^ (cfg.U - 1) ≤ 6 * cfg.maxLen * (cfg.W / 8))
    {r : Ring} {n : Nat} (hr : r.OK cfg n) (hn : n + 1 = 2 ^ (cfg.maxLen * cfg.W))
    {x y : Modulo} {j k : Nat} (hx : Elem cfg r x j) (hy : Elem cfg r y k) :
    Modulo.mulAssign cfg x y = .error .outOfMemory := by
  have hL := hv.large
  have hW := hv.W16
  have h3 : cfg.W + 1 ≤ cfg.maxLen * cfg.W := by nlinarith
  have h4 : 2 ^ (cfg.W + 1) ≤ 2 ^ (cfg.maxLen * cfg.W) := Nat.pow_le_pow_right (by norm_num) h3
  have h5 : 2 ≤ 2 ^ cfg.W := by
    calc 2 = 2 ^ 1 := rfl
      _ ≤ _ := Nat.pow_le_pow_right (by norm_num) hv.W1
  rw [pow_succ] at h4
  have hsmall : ∀ s : RingSmall, s.OK cfg.W n → False := by
    intro s e2
    have h6 := e2.lt
    have h7 := Nat.le_mul_of_pos_right n (Nat.two_pow_pos s.shift)
    rw [← e2.eq] at h7
    rw [base_eq] at h6
    omega
  obtain ⟨hj, ⟨s, e1, e2, rfl⟩ | ⟨l, v, e1, e2, rfl, e3⟩⟩ := elem_cases hr hx
  · exact (hsmall s e2).elim
  obtain ⟨hk, ⟨s', f1, f2, rfl⟩ | ⟨l', u, f1, f2, rfl, f3⟩⟩ := elem_cases hr hy
  · exact (hsmall s' f2).elim
  rw [e1] at f1; cases f1
  have hlen : l.modulus.length = cfg.maxLen := by
    refine le_antisymm e2.len ?_
    have h6 := e2.lt
    rw [base_eq, ← pow_mul] at h6
    by_contra hc
    have h7 : cfg.W * l.modulus.length + 1 ≤ cfg.maxLen * cfg.W := by nlinarith
    have h8 : 2 ^ (cfg.W * l.modulus.length + 1) ≤ 2 ^ (cfg.maxLen * cfg.W) := Nat.pow_le_pow_right (by norm_num) h7
    rw [pow_succ] at h8
    omega
  obtain ⟨d, -, -, g⟩ := RingLarge.mulMemory_spec hv e2
  simp only [Modulo.mulAssign, checkSameRing_self, g, bind, Except.bind]
  have h6 : 4 * cfg.maxLen ≤ mulMemoryRequirement l.modulus.length := by
    rw [hlen]
    unfold mulMemoryRequirement mulMaxLenSimple mulMaxLenKaratsuba
    rw [if_neg (by omega), if_neg (by omega)]
    omega
  have h7 : 6 * cfg.maxLen * (cfg.W / 8) ≤
      (2 * l.modulus.length + max (mulMemoryRequirement l.modulus.length) d) * (cfg.W / 8) :=
    Nat.mul_le_mul_right _ (by omega)
  have hp := Nat.two_pow_pos (cfg.U - 1)
  unfold allocMemory
  rw [if_neg (by omega)]

/-- The builds on which no multiplication in a ring runs out of addresses, and the others. -/
theorem buildSizes_room : ∀ p ∈ buildSizes,
    ((p.2.1 = 64 ∨ p.1 = 16 ∧ p.2.1 = 32) → (6 * p.2.2 + 13 * p.2.1) * (p.1 / 8) < 2 ^ (p.2.1 - 1)) ∧
    (¬(p.2.1 = 64 ∨ p.1 = 16 ∧ p.2.1 = 32) → 2 ^ (p.2.1 - 1) ≤ 6 * p.2.2 * (p.1 / 8)) := by
  decide +kernel

end Ibig
