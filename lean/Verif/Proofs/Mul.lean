import Verif.Proofs.Toom3
import Verif.Proofs.FastDivide
namespace Ibig

/-- Memory that suffices for multiplying two sequences of length `n`: the invariant that makes the
induction of the comments in karatsuba.rs:24-33 and toom_3.rs:32-52 work. -/
def MulMem (n mem : Nat) : Prop :=
  if n ≤ mulMaxLenSimple then True
  else if n ≤ mulMaxLenKaratsuba then 2 * n + 2 * bitLen (n - 1) ≤ mem
  else ∃ x, 4 * n + x ≤ mem ∧ (2 * n - 5) ^ 20 ≤ 2 ^ 20 * 3 ^ x

theorem MulMem.mono {n mem m mem' : Nat} (h : MulMem n mem) (hn : m ≤ n) (hm : mem ≤ mem') :
    MulMem m mem' := by
  unfold MulMem mulMaxLenSimple mulMaxLenKaratsuba at *
  split
  · trivial
  rw [if_neg (by omega)] at h
  split
  · split at h
    · have := bitLen_mono (show m - 1 ≤ n - 1 by omega)
      omega
    · obtain ⟨x, h1, _⟩ := h
      have : bitLen (m - 1) ≤ 8 := bitLen_le_iff.mpr (by norm_num; omega)
      omega
  · rw [if_neg (by omega)] at h
    obtain ⟨x, h1, h2⟩ := h
    exact ⟨x, by omega, le_trans (Nat.pow_le_pow_left (by omega) 20) h2⟩

theorem bitLen_half {x : Nat} (h : x ≠ 0) : bitLen (x / 2) + 1 = bitLen x := by
  apply le_antisymm
  · have h1 := bitLen_pos h
    have h2 := lt_two_pow_bitLen x
    have : bitLen (x / 2) ≤ bitLen x - 1 := bitLen_le_iff.mpr (by
      have : 2 ^ bitLen x = 2 * 2 ^ (bitLen x - 1) := by rw [← pow_succ']; congr 1; omega
      omega)
    omega
  · apply bitLen_le_iff.mpr
    have := lt_two_pow_bitLen (x / 2)
    rw [pow_succ]; omega

theorem mulMem_of_requirement {n mem : Nat} (h : mulMemoryRequirement n ≤ mem) : MulMem n mem := by
  unfold MulMem mulMemoryRequirement mulMaxLenSimple mulMaxLenKaratsuba at *
  split
  · trivial
  rw [if_neg (by omega)] at h
  split
  · rw [if_pos (by omega)] at h
    exact h
  · rw [if_neg (by omega)] at h
    refine ⟨13 * bitLen (n - 1), h, ?_⟩
    have h1 : n ≤ 2 ^ bitLen (n - 1) := by have := lt_two_pow_bitLen (n - 1); omega
    generalize bitLen (n - 1) = L at *
    calc (2 * n - 5) ^ 20 ≤ (2 * 2 ^ L) ^ 20 := Nat.pow_le_pow_left (by omega) 20
      _ = 2 ^ 20 * (2 ^ 20) ^ L := by rw [mul_pow, ← pow_mul, ← pow_mul, Nat.mul_comm L 20]
      _ ≤ 2 ^ 20 * (3 ^ 13) ^ L := Nat.mul_le_mul_left _ (Nat.pow_le_pow_left (by norm_num) L)
      _ = 2 ^ 20 * 3 ^ (13 * L) := by rw [pow_mul]

theorem mulMem_toom {n mem : Nat} (hn : mulMaxLenKaratsuba < n) (h : MulMem n mem) :
    8 * ((n + 2) / 3 + 1) ≤ mem ∧ MulMem ((n + 2) / 3 + 1) (mem - 8 * ((n + 2) / 3 + 1)) := by
  unfold MulMem mulMaxLenSimple at h
  unfold mulMaxLenKaratsuba at *
  rw [if_neg (by omega), if_neg (by omega)] at h
  obtain ⟨x, h1, h2⟩ := h
  generalize hq : (n + 2) / 3 + 1 = m
  have hx : 20 ≤ x := by
    by_contra hc
    have h3 : (2 * n - 5) ^ 20 < (2 * 3) ^ 20 := by
      refine lt_of_le_of_lt h2 ?_
      rw [mul_pow]
      exact Nat.mul_lt_mul_of_pos_left (Nat.pow_lt_pow_right (by norm_num) (by omega)) (by positivity)
    have h4 : (2 * 3) ^ 20 ≤ (2 * n - 5) ^ 20 := Nat.pow_le_pow_left (by omega) 20
    omega
  refine ⟨by omega, ?_⟩
  unfold MulMem mulMaxLenSimple mulMaxLenKaratsuba
  rw [if_neg (by omega)]
  split
  · have : bitLen (m - 1) ≤ 8 := bitLen_le_iff.mpr (by norm_num; omega)
    omega
  · refine ⟨x - 20, by omega, ?_⟩
    have h5 : (3 * (2 * m - 5)) ^ 20 ≤ 2 ^ 20 * 3 ^ x :=
      le_trans (Nat.pow_le_pow_left (by omega) 20) h2
    have h6 : 3 ^ x = 3 ^ 20 * 3 ^ (x - 20) := by rw [← pow_add]; congr 1; omega
    rw [mul_pow, h6] at h5
    have h7 : 3 ^ 20 * (2 * m - 5) ^ 20 ≤ 3 ^ 20 * (2 ^ 20 * 3 ^ (x - 20)) := by
      calc _ ≤ _ := h5
        _ = _ := by ring
    exact Nat.le_of_mul_le_mul_left h7 (by norm_num)

theorem mulMem_karatsuba {n mem : Nat} (hn : mulMaxLenSimple < n) (hn2 : n ≤ mulMaxLenKaratsuba)
    (h : MulMem n mem) :
    2 * ((n + 1) / 2) ≤ mem ∧ MulMem ((n + 1) / 2) (mem - 2 * ((n + 1) / 2)) := by
  unfold MulMem at *
  unfold mulMaxLenSimple mulMaxLenKaratsuba at *
  rw [if_neg (by omega), if_pos (by omega)] at h
  have hb := bitLen_half (x := n - 1) (by omega)
  have e : (n + 1) / 2 - 1 = (n - 1) / 2 := by omega
  refine ⟨by omega, ?_⟩
  split
  · trivial
  · rw [if_pos (by omega), e]
    omega

theorem karatsubaSameLen_ok {W n mem fuel : Nat} (hW : 4 ≤ W)
    (ih : ∀ n mem, 2 * n ≤ 24 * 2 ^ fuel + 1 → MulMem n mem → MulOK W (mulSameLen W fuel) n n mem)
    (hn : n ≤ 24 * 2 ^ fuel) (h1 : mulMaxLenSimple < n) (h2 : n ≤ mulMaxLenKaratsuba) (hm : MulMem n mem) :
    MulOK W (karatsubaSameLen W (mulSameLen W fuel)) n n mem := by
  obtain ⟨m1, m2⟩ := mulMem_karatsuba h1 h2 hm
  unfold mulMaxLenSimple at h1
  refine karatsubaSameLen_spec (by omega) (by unfold karatsubaMinLen; omega) m1 ?_ ?_
  · exact ih _ _ (by omega) m2
  · exact ih _ _ (by omega) (m2.mono (by omega) (by omega))

theorem toom3SameLen_ok {W n mem fuel : Nat} (hW : 4 ≤ W)
    (ih : ∀ n mem, 2 * n ≤ 24 * 2 ^ fuel + 1 → MulMem n mem → MulOK W (mulSameLen W fuel) n n mem)
    (hn : n ≤ 24 * 2 ^ fuel) (h2 : mulMaxLenKaratsuba < n) (hm : MulMem n mem) :
    MulOK W (toom3SameLen W (mulSameLen W fuel)) n n mem := by
  obtain ⟨m1, m2⟩ := mulMem_toom h2 hm
  unfold mulMaxLenKaratsuba at h2
  refine toom3SameLen_spec hW (by unfold toom3MinLen; omega) m1 ?_
  intro m' mem' hm' hmem'
  exact ih _ _ (by omega) (m2.mono hm' hmem')

/-- With `fuel + 1` nested calls allowed, factors of up to `24 * 2 ^ fuel` words can be multiplied. -/
theorem mulSameLen_ok {W : Nat} (hW : 4 ≤ W) : ∀ fuel n mem, n ≤ 24 * 2 ^ fuel → MulMem n mem →
    MulOK W (mulSameLen W (fuel + 1)) n n mem := by
  intro fuel
  induction fuel with
  | zero =>
    intro n mem hn hm c s a b hc ha hb hla hlb hlc
    unfold mulSameLen
    simp only [hla]
    refine Returns.bind (returns_assertR ⟨hlb, by omega⟩) fun _ _ => ?_
    rw [if_pos (by unfold mulMaxLenSimple; omega)]
    exact simpleMulSameLen_spec (by unfold mulChunkLen; omega) c s a b hc ha hb hla hlb hlc
  | succ fuel ih' =>
    have ih : ∀ n mem, 2 * n ≤ 24 * 2 ^ (fuel + 1) + 1 → MulMem n mem →
        MulOK W (mulSameLen W (fuel + 1)) n n mem := fun n mem h => ih' n mem (by
      rw [pow_succ] at h; omega)
    intro n mem hn hm c s a b hc ha hb hla hlb hlc
    unfold mulSameLen
    simp only [hla]
    refine Returns.bind (returns_assertR ⟨hlb, by omega⟩) fun _ _ => ?_
    split
    · rename_i h
      exact simpleMulSameLen_spec (by unfold mulMaxLenSimple at h; unfold mulChunkLen; omega)
        c s a b hc ha hb hla hlb hlc
    · split
      · exact karatsubaSameLen_ok hW ih (by omega) (by omega) (by omega) hm c s a b hc ha hb hla hlb hlc
      · exact toom3SameLen_ok hW ih (by omega) (by omega) hm c s a b hc ha hb hla hlb hlc

/-- `fuel` nested calls suffice to multiply `la` by `lb` words (`lb ≤ la`): short factors need two calls,
and otherwise every call at least halves the product of the lengths, as in Euclid's algorithm. -/
def MulDeep (fuel la lb : Nat) : Prop :=
  (lb ≤ mulMaxLenSimple ∧ (2 ≤ fuel ∨ 1 ≤ fuel ∧ la ≤ mulChunkLen)) ∨
  (∃ k, k + 3 = fuel ∧ (la * lb < 2 ^ k ∨ ∃ j, k = j + 1 ∧ lb * lb ≤ 2 ^ j))

theorem MulDeep.swap_le {fuel la lb : Nat} (h : MulDeep fuel la lb) (h2 : lb ≤ la) : lb ≤ 24 * 2 ^ (fuel - 1) := by
  rcases h with ⟨h, _⟩ | ⟨k, rfl, h | ⟨j, rfl, h⟩⟩
  · have := Nat.one_le_two_pow (n := fuel - 1)
    unfold mulMaxLenSimple at h
    omega
  · rcases Nat.eq_zero_or_pos lb with h0 | h0
    · omega
    have : lb * 1 ≤ la * lb := by rw [Nat.mul_comm la]; exact Nat.mul_le_mul_left _ (by omega)
    have e : 2 ^ (k + 3 - 1) = 4 * 2 ^ k := by
      rw [show k + 3 - 1 = k + 2 by omega, pow_add]; ring
    omega
  · have : lb ≤ lb * lb := Nat.le_mul_self lb
    have e : 2 ^ (j + 1 + 3 - 1) = 8 * 2 ^ j := by
      rw [show j + 1 + 3 - 1 = j + 3 by omega, pow_add]; ring
    omega

/-- One step of Euclid's algorithm. -/
theorem MulDeep.step {fuel la lb m : Nat} (h : MulDeep (fuel + 1) la lb) (h1 : mulMaxLenSimple < lb)
    (hm : m < lb) (hm2 : m + lb ≤ la) : MulDeep fuel lb m := by
  unfold mulMaxLenSimple at h1
  rcases h with ⟨h, _⟩ | ⟨k, hk, h | ⟨j, rfl, h⟩⟩
  · unfold mulMaxLenSimple at h; omega
  · right
    have hm3 : 2 * (lb * m) ≤ la * lb := by
      calc 2 * (lb * m) = (2 * m) * lb := by ring
        _ ≤ la * lb := Nat.mul_le_mul_right _ (by omega)
    obtain ⟨k', rfl⟩ : ∃ k', k = k' + 1 := by
      rcases k with _ | k
      · have : 1 * 1 ≤ la * lb := Nat.mul_le_mul (by omega) (by omega)
        simp at h; omega
      · exact ⟨k, rfl⟩
    exact ⟨k', by omega, Or.inl (by rw [pow_succ] at h; omega)⟩
  · right
    refine ⟨j, by omega, Or.inl (lt_of_lt_of_le ?_ h)⟩
    exact Nat.mul_lt_mul_of_pos_left hm (by omega)

theorem addSignedMulFuel_ok {W : Nat} (hW : 4 ≤ W) : ∀ fuel la lb mem, MulDeep fuel (max la lb) (min la lb) →
    MulMem (min la lb) mem → MulOK W (addSignedMulFuel W fuel) la lb mem := by
  intro fuel
  induction fuel with
  | zero =>
    intro la lb mem h
    rcases h with ⟨_, h⟩ | ⟨k, h, _⟩ <;> omega
  | succ fuel ih =>
    -- the case `lb ≤ la`
    have main : ∀ la lb mem, MulDeep (fuel + 1) la lb → lb ≤ la → MulMem lb mem →
        ∀ c s a b, IsWords W c → IsWords W a → IsWords W b → a.length = la → b.length = lb →
        c.length = la + lb →
        Returns (if b.length ≤ mulMaxLenSimple then simpleMul W (addSignedMulFuel W fuel) c s a b mem
          else if b.length ≤ mulMaxLenKaratsuba then
            karatsubaMul W (mulSameLen W fuel) (addSignedMulFuel W fuel) c s a b mem
          else toom3Mul W (mulSameLen W fuel) (addSignedMulFuel W fuel) c s a b mem)
        fun p => AddSpec W c p.1 p.2 (s.toInt * ((val W a : Int) * val W b)) := by
      intro la lb mem hf hle hm c s a b hc ha hb hla hlb hlc
      have hrec : mulMaxLenSimple < lb → ∀ m, m < lb → m ≤ la → (lb ≤ la → m + lb ≤ la) →
          (lb ≤ m → MulOK W (addSignedMulFuel W fuel) m lb mem) ∧
          (m < lb → MulOK W (addSignedMulFuel W fuel) lb m mem) := by
        intro h24 m hm1 _ hm2
        refine ⟨by omega, fun h => ih lb m mem ?_ (hm.mono (by omega) le_rfl)⟩
        rw [Nat.max_eq_left (by omega), Nat.min_eq_right (by omega)]
        exact hf.step h24 h (hm2 hle)
      split
      · rename_i h
        unfold mulMaxLenSimple at h
        unfold simpleMul
        refine Returns.bind (returns_assertR ⟨by omega, by omega⟩) fun _ _ => ?_
        refine Returns.bind (returns_assertR (by unfold mulChunkLen; omega)) fun _ _ => ?_
        split
        · exact simpleMulChunk_spec hle (by omega) c s a b hc ha hb hla hlb hlc
        · rename_i h2
          refine splitIntoChunks_spec (by omega) (by unfold mulChunkLen; omega) hle
            (by unfold mulChunkLen; omega)
            (simpleMulChunk_spec (by unfold mulChunkLen; omega) le_rfl)
            (fun m hm1 _ _ => ?_) c s a b hc ha hb hla hlb hlc
          have hfu : 2 ≤ fuel + 1 := by
            rcases hf with ⟨_, h' | h'⟩ | ⟨k, h', _⟩
            · exact h'
            · omega
            · omega
          have hd : ∀ x y, x ≤ mulChunkLen → y ≤ mulMaxLenSimple → MulDeep fuel x y :=
            fun x y hx hy => Or.inl ⟨hy, Or.inr ⟨by omega, hx⟩⟩
          constructor
          · intro h'
            refine ih m lb mem ?_ (hm.mono (by omega) le_rfl)
            rw [Nat.max_eq_left h', Nat.min_eq_right h']
            exact hd _ _ (by omega) (by unfold mulMaxLenSimple; omega)
          · intro h'
            refine ih lb m mem ?_ (hm.mono (by omega) le_rfl)
            rw [Nat.max_eq_left (by omega), Nat.min_eq_right (by omega)]
            exact hd _ _ (by unfold mulChunkLen; omega) (by unfold mulMaxLenSimple; omega)
      · rename_i h1
        have hdeep : lb ≤ 24 * 2 ^ fuel := hf.swap_le hle
        have ihs : ∀ n mem, 2 * n ≤ 24 * 2 ^ fuel + 1 → MulMem n mem →
            MulOK W (mulSameLen W fuel) n n mem := by
          rcases fuel with _ | fuel
          · unfold mulMaxLenSimple at h1; omega
          · intro n mem h
            exact mulSameLen_ok hW fuel n mem (by rw [pow_succ] at h; omega)
        split
        · rename_i h2
          unfold karatsubaMul
          refine Returns.bind (returns_assertR ⟨by omega, ?_, by omega⟩) fun _ _ => ?_
          · unfold mulMaxLenSimple at h1; unfold karatsubaMinLen; omega
          rw [hlb]
          refine splitIntoChunks_spec (by omega) (by unfold mulMaxLenSimple at h1; omega) hle le_rfl ?_
            (hrec (by omega)) c s a b hc ha hb hla hlb hlc
          exact karatsubaSameLen_ok hW ihs hdeep (by omega) (by omega) hm
        · rename_i h2
          unfold toom3Mul
          refine Returns.bind (returns_assertR ⟨by omega, ?_, by omega⟩) fun _ _ => ?_
          · unfold mulMaxLenKaratsuba at h2; unfold toom3MinLen; omega
          rw [hlb]
          refine splitIntoChunks_spec (by omega) (by unfold mulMaxLenKaratsuba at h2; omega) hle le_rfl ?_
            (hrec (by omega)) c s a b hc ha hb hla hlb hlc
          exact toom3SameLen_ok hW ihs hdeep (by omega) hm
    intro la lb mem hf hm c s a b hc ha hb hla hlb hlc
    unfold addSignedMulFuel
    refine Returns.bind (returns_assertR (by omega)) fun _ _ => ?_
    by_cases h : a.length < b.length
    · rw [if_pos h]
      simp only
      have e : (val W a : Int) * val W b = val W b * val W a := by ring
      rw [e]
      exact main lb la mem (by rwa [Nat.max_eq_right (by omega), Nat.min_eq_left (by omega)] at hf) (by omega) (by rwa [Nat.min_eq_left (by omega)] at hm)
        c s b a hc hb ha hlb hla (by omega)
    · rw [if_neg h]
      simp only
      exact main la lb mem (by rwa [Nat.max_eq_left (by omega), Nat.min_eq_right (by omega)] at hf) (by omega) (by rwa [Nat.min_eq_right (by omega)] at hm)
        c s a b hc ha hb hla hlb hlc

/-- `mulDepth` nested calls are enough. -/
theorem mulDeep_mulDepth {la lb d : Nat} (hd : mulDepth lb ≤ d) : MulDeep d la lb := by
  unfold mulDepth at hd
  by_cases h : lb ≤ mulMaxLenSimple
  · exact Or.inl ⟨h, Or.inl (by omega)⟩
  · unfold mulMaxLenSimple at h
    have h1 := lt_two_pow_bitLen lb
    have h2 := bitLen_pos (show lb ≠ 0 by omega)
    refine Or.inr ⟨d - 3, by omega, Or.inr ⟨d - 4, by omega, ?_⟩⟩
    calc lb * lb ≤ 2 ^ bitLen lb * 2 ^ bitLen lb := Nat.mul_le_mul h1.le h1.le
      _ = 2 ^ (2 * bitLen lb) := by rw [← pow_add]; congr 1; omega
      _ ≤ 2 ^ (d - 4) := Nat.pow_le_pow_right (by norm_num) (by omega)

/-- `mul::add_signed_mul` is correct, never panics and nests at most `mulDepth` calls deep, when given the
memory it asks for. -/
theorem addSignedMul_mem {W la lb mem : Nat} (hW : 4 ≤ W) (hm : MulMem (min la lb) mem) :
    MulOK W (addSignedMul W) la lb mem := by
  intro c s a b hc ha hb hla hlb hlc
  unfold addSignedMul
  exact addSignedMulFuel_ok hW _ la lb mem (mulDeep_mulDepth (by rw [hla, hlb])) hm c s a b hc ha hb
    hla hlb hlc

theorem addSignedMul_ok {W la lb mem : Nat} (hW : 4 ≤ W)
    (hm : mulMemoryRequirement (min la lb) ≤ mem) : MulOK W (addSignedMul W) la lb mem :=
  addSignedMul_mem hW (mulMem_of_requirement hm)

end Ibig
