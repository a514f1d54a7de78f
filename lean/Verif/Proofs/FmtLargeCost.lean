import Verif.Proofs.FmtNonPow2Cost
/-!
The number of steps of formatting large numbers in radixes that are not powers of two.
-/
namespace Ibig.Timed

/-- `n^1.47` -/
noncomputable def phi (n : ℕ) : ℝ := n * (n : ℝ) ^ (47 / 100 : ℝ)

theorem phi_nonneg (n : ℕ) : 0 ≤ phi n := mul_nonneg (Nat.cast_nonneg n) (rpow47_nonneg n)

theorem phi_mono {n m : ℕ} (h : n ≤ m) : phi n ≤ phi m :=
  mul_le_mul (by exact_mod_cast h) (rpow47_mono h) (rpow47_nonneg n) (Nat.cast_nonneg m)

theorem phi_two_ge (m : ℕ) : 69 / 25 * phi m ≤ phi (2 * m) := by
  have h := mul_le_mul_of_nonneg_left (two_rpow47_ge m) (Nat.cast_nonneg (α := ℝ) (2 * m))
  unfold phi
  rw [Nat.cast_mul] at h ⊢
  push_cast at h ⊢
  linarith

theorem phi_two_le (m : ℕ) : phi (2 * m) ≤ 139 / 50 * phi m := by
  have h := mul_le_mul_of_nonneg_left (two_rpow47_le m) (Nat.cast_nonneg (α := ℝ) (2 * m))
  unfold phi
  rw [Nat.cast_mul] at h ⊢
  push_cast at h ⊢
  linarith

theorem le_phi {n : ℕ} (h : 1 ≤ n) : (n : ℝ) ≤ phi n := by
  have := mul_le_mul_of_nonneg_left (one_le_rpow47 h) (Nat.cast_nonneg (α := ℝ) n)
  unfold phi
  linarith

theorem three_le_phi {n : ℕ} (h : 16 ≤ n) : 3 * (n : ℝ) ≤ phi n := by
  have h3 : (3 : ℝ) ≤ (n : ℝ) ^ (47 / 100 : ℝ) := by
    have := le_mul_rpow47 (x := 3) (C := 1) (n := n)
      (by rw [one_pow, one_mul]; exact le_trans (by norm_num) (Nat.pow_le_pow_left h 47))
    push_cast at this
    linarith
  have := mul_le_mul_of_nonneg_left h3 (Nat.cast_nonneg (α := ℝ) n)
  unfold phi
  linarith

theorem phi_sixteen : phi 16 ≤ 64 := by
  have h : ((16 : ℕ) : ℝ) ^ (47 / 100 : ℝ) ≤ 4 := by
    refine le_of_pow_100 (by norm_num) ?_
    have e := rpow_pow_100 (Nat.cast_nonneg 16 : (0 : ℝ) ≤ (16 : ℕ)) 47
    push_cast at e ⊢
    rw [e]
    norm_num
  unfold phi
  push_cast at h ⊢
  linarith

/-- a bound for the words of the power number `i` -/
def chunkWords (i : ℕ) : ℕ := 16 * 2 ^ i

theorem chunkWords_succ (i : ℕ) : chunkWords (i + 1) = 2 * chunkWords i := by
  unfold chunkWords
  rw [pow_succ]
  ring

theorem chunkWords_ge (i : ℕ) : 16 ≤ chunkWords i := Nat.le_mul_of_pos_right _ (Nat.two_pow_pos i)

theorem chunk_lt {W r : Nat} {info : RadixInfo} (h : NP W r info) (i : ℕ) :
    r ^ (16 * info.digitsPerWord * 2 ^ i) < 2 ^ (chunkWords i * W) := by
  have h1 := chunkWords_ge i
  calc r ^ (16 * info.digitsPerWord * 2 ^ i) = (r ^ info.digitsPerWord) ^ chunkWords i := by
        rw [← pow_mul]
        congr 1
        unfold chunkWords
        ring
    _ < base W ^ chunkWords i := Nat.pow_lt_pow_left h.tab.lt (by omega)
    _ = 2 ^ (chunkWords i * W) := by rw [base_eq, ← pow_mul, Nat.mul_comm]

theorem chunk_ge {W r : Nat} {info : RadixInfo} (h : NP W r info) (i : ℕ) :
    2 ^ (chunkWords i / 2 * W) ≤ r ^ (16 * info.digitsPerWord * 2 ^ i) := by
  have h1 : chunkWords i / 2 = 8 * 2 ^ i := by
    unfold chunkWords
    omega
  have h2 : base W ≤ (r ^ info.digitsPerWord) ^ 2 := by
    refine h.tab.ge.trans ?_
    rw [← pow_mul]
    exact Nat.pow_le_pow_right h.r_pos (by have := h.tab.one; omega)
  rw [h1, Nat.mul_comm, pow_mul, ← base_eq]
  calc base W ^ (8 * 2 ^ i) ≤ ((r ^ info.digitsPerWord) ^ 2) ^ (8 * 2 ^ i) := Nat.pow_le_pow_left h2 _
    _ = r ^ (16 * info.digitsPerWord * 2 ^ i) := by
      rw [← pow_mul, ← pow_mul]
      congr 1
      ring

section
variable {cfg : Cfg}

theorem costs_divRem (hv : cfg.Valid) (o0 o1 : Own) {a b : UBig} (ha : a.WF cfg) (hb : b.WF cfg)
    {n m : ℕ} (hn : 1 ≤ n) (hm : 1 ≤ m) (han : a.value cfg < 2 ^ (n * cfg.W)) (hbm : b.value cfg < 2 ^ (m * cfg.W)) :
    Costs (UBig.divRem cfg o0 o1 a b) (divBound n m)
      (fun p => p.1.WF cfg ∧ p.2.WF cfg ∧ p.1.value cfg = a.value cfg / b.value cfg ∧
        p.2.value cfg = a.value cfg % b.value cfg) := by
  refine Costs.of_post (fun _ _ hk => (UBig.divRem_steps hv o0 o1 ha hb hk).trans
    (divBound_mono (UBig.len_le hv ha hn han) (UBig.len_le hv hb hm hbm)))
    (UBig.divRem_result cfg o0 o1 a b) ?_
  by_cases h0 : b.value cfg = 0
  · rw [(UBig.divRem_spec hv o0 o1 ha hb).2 h0]
    exact Post.error
  · exact Post.of_returns ((UBig.divRem_spec hv o0 o1 ha hb).1 h0)

theorem divBound_double (K : ℕ) : divBound (2 * K) K = 420 * phi K := by
  unfold divBound phi
  rw [Nat.min_eq_right (by omega)]
  push_cast
  ring

theorem divBound_self (K : ℕ) : divBound K K = 210 * phi K := by
  unfold divBound phi
  rw [Nat.min_self]
  ring

theorem mulBound_self (K : ℕ) : mulBound K K = 54 * phi K := by
  unfold mulBound phi
  rw [Nat.min_self]
  ring

theorem takes_cmp {a b : UBig} (ha : a.WF cfg) (hb : b.WF cfg) :
    Takes (UBig.cmp a b) (min a.len b.len + 1) (fun _ => True) := by
  rcases a with a | a <;> rcases b with b | b
  · exact Takes.mono (x := pass 1 (.ok (compare a b))) (takes_word1 _) (Nat.le_add_left 1 _) fun _ h => h
  · exact Takes.mono (x := pass 1 (.ok Ordering.lt)) (takes_word1 _) (Nat.le_add_left 1 _) fun _ h => h
  · exact Takes.mono (x := pass 1 (.ok Ordering.gt)) (takes_word1 _) (Nat.le_add_left 1 _) fun _ h => h
  · show Takes (match compare a.len b.len with
      | .eq => cmpSameLen a.words b.words
      | o => pass 1 (.ok o) : Timed Ordering) (min a.words.length b.words.length + 1) _
    rcases h : compare a.len b.len
    · exact (takes_word1 _).mono (Nat.le_add_left 1 _) fun _ h => h
    · have he : a.words.length = b.words.length := Nat.compare_eq_eq.mp h
      exact (takes_cmpSameLen _ _).mono (by omega) fun _ h => h
    · exact (takes_word1 _).mono (Nat.le_add_left 1 _) fun _ h => h

theorem costs_lt (hv : cfg.Valid) {a b : UBig} (ha : a.WF cfg) (hb : b.WF cfg) {n : ℕ} (hn : min a.len b.len ≤ n) :
    Costs (UBig.lt a b) (n + 1) (fun c => c = decide (a.value cfg < b.value cfg)) := by
  refine Costs.post (P := fun _ => True) ?_ (UBig.lt_result a b)
    (by rw [UBig.lt_spec hv ha hb]; exact Post.ok rfl)
  have h := Takes.bind (takes_cmp ha hb) (N := n + 1) (f := fun o => Pure.pure (o == .lt)) (by omega)
    fun _ _ _ _ => Takes.pure (P := fun _ => True) trivial
  exact_mod_cast Takes.costs h

theorem costs_le (hv : cfg.Valid) {a b : UBig} (ha : a.WF cfg) (hb : b.WF cfg) {n : ℕ} (hn : min a.len b.len ≤ n) :
    Costs (UBig.le a b) (n + 1) (fun c => c = decide (a.value cfg ≤ b.value cfg)) := by
  refine Costs.post (P := fun _ => True) ?_ (UBig.le_result a b)
    (by rw [UBig.le_spec hv ha hb]; exact Post.ok rfl)
  have h := Takes.bind (takes_cmp ha hb) (N := n + 1) (f := fun o => Pure.pure (o != .gt)) (by omega)
    fun _ _ _ _ => Takes.pure (P := fun _ => True) trivial
  exact_mod_cast Takes.costs h

/-! ### The powers -/

theorem costs_fmtPowersLoop (hv : cfg.Valid) {r : Nat} {info : RadixInfo} (h : NP cfg.W r info) {x : UBig}
    (hx : x.WF cfg) (fuel : Nat) : ∀ (ps : List UBig) (prev : UBig), prev.WF cfg →
    prev.value cfg = r ^ (16 * info.digitsPerWord * 2 ^ ps.length) → chunkWords ps.length ≤ 2 * x.len →
    Costs (fmtPowersLoop cfg x fuel (ps ++ [prev]))
      (2 + 55 * phi (2 * x.len) - 55 * phi (chunkWords ps.length)) (fun _ => True) := by
  induction fuel with
  | zero => intro _ _ _ _ _; exact Costs.error
  | succ fuel ih =>
    intro ps prev hp hpv hK
    rw [fmtPowersLoop, List.getLast?_append]
    simp only [List.getLast?_singleton, Option.some_or]
    have hm := phi_mono hK
    refine Costs.step (Takes.costs (P := fun a => a = 2 * prev.len) (Takes.pass fun a ha => ?_)) fun a ha => ?_
    · unfold Ibig.ckMul at ha
      split at ha
      · cases ha; rfl
      · cases ha
    refine Costs.step (Takes.costs (P := fun b => b = a - 1) (Takes.pass fun b hb => ?_)) fun b hb => ?_
    · unfold Ibig.ckSub at hb
      split at hb
      · cases hb; rfl
      · cases hb
    have hlt : prev.value cfg < 2 ^ (chunkWords ps.length * cfg.W) := by rw [hpv]; exact chunk_lt h _
    refine Costs.ite (fun _ => (Costs.pure trivial).mono (by push_cast; linarith) fun _ h => h) fun hlen => ?_
    have hge : chunkWords ps.length / 2 < prev.len := by
      have h1 := chunk_ge h ps.length
      rw [← hpv] at h1
      have h2 := lt_of_le_of_lt h1 (UBig.value_lt_len hp)
      have h3 := (Nat.pow_lt_pow_iff_right (by norm_num : 1 < 2)).mp h2
      exact lt_of_mul_lt_mul_right h3 (Nat.zero_le _)
    have hev : chunkWords ps.length = 2 * (chunkWords ps.length / 2) := by unfold chunkWords; omega
    have hKx : chunkWords ps.length ≤ x.len := by omega
    have h16 := chunkWords_ge ps.length
    have hd := phi_two_ge (chunkWords ps.length)
    have h3 := three_le_phi h16
    have h16' : (16 : ℝ) ≤ chunkWords ps.length := by exact_mod_cast h16
    have hm2 : phi (2 * chunkWords ps.length) ≤ phi (2 * x.len) := phi_mono (by omega)
    refine Costs.step (costs_mul hv .ref .ref hp hp (n := chunkWords ps.length) (m := chunkWords ps.length) (by omega)
      (by omega) hlt hlt) ?_
    rintro new ⟨hn, hnv⟩
    rw [mulBound_self]
    have hnv' : new.value cfg = r ^ (16 * info.digitsPerWord * 2 ^ (ps.length + 1)) := by
      rw [hnv, hpv, ← pow_add, pow_succ]
      congr 1
      ring
    have hnlen : new.len ≤ 2 * chunkWords ps.length := by
      refine UBig.len_le hv hn (by omega) ?_
      rw [hnv', ← chunkWords_succ]
      exact chunk_lt h _
    refine Costs.step (costs_lt hv hx hn (n := 2 * chunkWords ps.length) (by omega)) fun gt _ => ?_
    refine Costs.ite (fun _ => (Costs.pure trivial).mono ?_ fun _ h => h) fun _ => ?_
    · push_cast
      linarith
    · have hl : (ps ++ [prev]).length = ps.length + 1 := by rw [List.length_append, List.length_singleton]
      refine (ih (ps ++ [prev]) new hn (by rw [hl]; exact hnv') (by rw [hl, chunkWords_succ]; omega)).mono ?_
        fun _ h => h
      rw [hl, chunkWords_succ]
      push_cast
      linarith

/-! ### The chunks -/

/-- the sum of the costs of the chunks -/
noncomputable def weight : List (Nat × UBig) → ℝ
  | [] => 0
  | (i, _) :: cs => phi (chunkWords i) + weight cs

theorem costs_fmtChunksLoop (hv : cfg.Valid) {r : Nat} {info : RadixInfo} (h : NP cfg.W r info) :
    ∀ (ps : List UBig) (x : UBig) (cs : List (Nat × UBig)),
      PowersOK cfg r (16 * info.digitsPerWord) ps → x.WF cfg →
      x.value cfg < r ^ (16 * info.digitsPerWord * 2 ^ ps.length) →
      Costs (fmtChunksLoop cfg ps x cs) (430 * phi (chunkWords ps.length))
        (fun q => weight q.2 ≤ weight cs + phi (chunkWords ps.length)) := by
  intro ps
  induction ps with
  | nil =>
    intro x cs _ _ _
    have := phi_nonneg (chunkWords ([] : List UBig).length)
    exact (Costs.pure (by dsimp only; linarith)).mono (by linarith) fun _ h => h
  | cons p ps ih =>
    intro x cs hp hx hxv
    obtain ⟨p1, p2, p3⟩ := hp
    rw [List.length_cons, chunkWords_succ] at *
    have h16 := chunkWords_ge ps.length
    have hd := phi_two_ge (chunkWords ps.length)
    have h0 := phi_nonneg (chunkWords ps.length)
    have h3 := three_le_phi h16
    have h16' : (16 : ℝ) ≤ chunkWords ps.length := by exact_mod_cast h16
    have hpos : 0 < p.value cfg := by rw [p2]; exact Nat.pow_pos h.r_pos
    have hplt : p.value cfg < 2 ^ (chunkWords ps.length * cfg.W) := by rw [p2]; exact chunk_lt h _
    have hplen := UBig.len_le hv p1 (by omega) hplt
    rw [fmtChunksLoop]
    refine Costs.step (costs_le hv p1 hx (n := chunkWords ps.length) (by omega)) fun ge hge => ?_
    refine Costs.ite (fun _ => ?_) fun hng => ?_
    · refine Costs.step (costs_divRem hv .val .ref hx p1 (n := 2 * chunkWords ps.length) (m := chunkWords ps.length)
        (by omega) (by omega) ?_ hplt) ?_
      · rw [← chunkWords_succ]
        exact hxv.trans (chunk_lt h _)
      rintro ⟨q, rem⟩ ⟨d1, d2, d3, d4⟩
      dsimp only at d1 d2 d3 d4 ⊢
      rw [divBound_double]
      refine (ih q ((ps.length, rem) :: cs) p3 d1 ?_).mono ?_ fun y hy => ?_
      · rw [d3, Nat.div_lt_iff_lt_mul hpos, p2, ← pow_add]
        refine lt_of_lt_of_eq hxv ?_
        congr 1
        rw [pow_succ]
        ring
      · linarith
      · rw [weight] at hy
        linarith
    · refine (ih x cs p3 hx ?_).mono ?_ fun y hy => ?_
      · rw [hge] at hng
        rw [← p2]
        simpa using hng
      · linarith
      · linarith

theorem spends_npWriteBigChunk (hv : cfg.Valid) {r : Nat} {info : RadixInfo} (h : NP cfg.W r info)
    {powers : List UBig} (hp : PowersOK cfg r (16 * info.digitsPerWord) powers.reverse) (i : Nat) :
    ∀ (dw : DigitWriter) (x : UBig), dw.buffer.length < 32 → x.WF cfg →
      x.value cfg < r ^ (16 * info.digitsPerWord * 2 ^ i) →
      Spends (npWriteBigChunk cfg r powers i dw x) (pot 9 dw + 560 * phi (chunkWords i)) (pot 9)
        (fun d => d.buffer.length < 32) := by
  induction i with
  | zero =>
    intro dw x hb _ _
    rw [npWriteBigChunk]
    refine (spends_npWriteChunk hv.word r dw x hb).le ?_
    have := three_le_phi (le_refl 16)
    push_cast at this
    show _ ≤ pot 9 dw + 560 * phi 16
    linarith
  | succ i ih =>
    intro dw x hb hx hxv
    rw [npWriteBigChunk]
    rcases hg : powers[i]? with _ | p
    · exact Spends.throwT
    · obtain ⟨p1, p2⟩ := powersOK_get hp hg
      have hpos : 0 < p.value cfg := by rw [p2]; exact Nat.pow_pos h.r_pos
      have h16 := chunkWords_ge i
      have hd := phi_two_ge (chunkWords i)
      have h0 := phi_nonneg (chunkWords i)
      dsimp only
      refine Costs.spend (costs_divRem hv .val .ref hx p1 (n := 2 * chunkWords i) (m := chunkWords i)
        (by omega) (by omega) ?_ ?_) ?_
      · rw [← chunkWords_succ]
        exact hxv.trans (chunk_lt h _)
      · rw [p2]
        exact chunk_lt h _
      rintro ⟨q, rem⟩ ⟨d1, d2, d3, d4⟩
      dsimp only at d1 d2 d3 d4 ⊢
      rw [divBound_double]
      refine (ih dw q hb d1 ?_).step fun d hd' => ?_
      · rw [d3, Nat.div_lt_iff_lt_mul hpos, p2, ← pow_add]
        refine lt_of_lt_of_eq hxv ?_
        congr 1
        rw [pow_succ]
        ring
      refine (ih d rem hd' d2 (by rw [d4, ← p2]; exact Nat.mod_lt _ hpos)).le ?_
      rw [chunkWords_succ]
      linarith

theorem spends_npWriteChunks (hv : cfg.Valid) {r : Nat} {info : RadixInfo} (h : NP cfg.W r info)
    {powers : List UBig} (hp : PowersOK cfg r (16 * info.digitsPerWord) powers.reverse) {len : Nat}
    (cs : List (Nat × UBig)) : ChunksOK cfg r (16 * info.digitsPerWord) len cs →
    ∀ dw : DigitWriter, dw.buffer.length < 32 →
      Spends (npWriteChunks cfg r powers cs dw) (pot 9 dw + 561 * weight cs) (pot 9)
        (fun d => d.buffer.length < 32) := by
  induction cs with
  | nil => intro _ dw hb; exact Spends.pure hb (by simp [weight])
  | cons c cs ih =>
    obtain ⟨i, x⟩ := c
    intro hcs dw hb
    obtain ⟨_, c2, c3⟩ := hcs (i, x) (by simp)
    dsimp only at c2 c3
    have h1 := three_le_phi (chunkWords_ge i)
    have h16 : (16 : ℝ) ≤ chunkWords i := by exact_mod_cast chunkWords_ge i
    refine Costs.spend (Takes.costs takes_tick) fun _ _ => ?_
    refine (spends_npWriteBigChunk hv h hp i dw x hb c2 c3).step fun d hd => ?_
    refine (ih (fun p hp => hcs p (by simp [hp])) d hd).le ?_
    rw [weight]
    push_cast
    linarith

theorem costs_npChunksWidth (D : Nat) (cs : List (Nat × UBig)) (n : Nat) :
    Costs (npChunksWidth cfg D cs n) (weight cs) (fun _ => True) := by
  induction cs with
  | nil => exact Costs.pure trivial
  | cons c cs ih =>
    obtain ⟨i, x⟩ := c
    have h1 := three_le_phi (chunkWords_ge i)
    have h16 : (16 : ℝ) ≤ chunkWords i := by exact_mod_cast chunkWords_ge i
    rw [npChunksWidth]
    refine Costs.step ih fun _ _ => ?_
    refine Costs.step (Takes.costs (takes_word1 _)) fun _ _ => ?_
    refine Costs.step (Takes.costs (takes_word1 _)) fun _ _ => ?_
    refine (Takes.costs (takes_ckAdd _ _ _)).mono ?_ fun _ h => h
    rw [weight]
    push_cast
    linarith

/-! ### Large numbers -/

/-- What is prepared for a large number of `n` words -/
structure LargeCost (cfg : Cfg) (r : Nat) (info : RadixInfo) (n : Nat) (q : PreparedLarge) : Prop where
  low : q.top.low.length ≤ 16
  powers : PowersOK cfg r (16 * info.digitsPerWord) q.powers.reverse
  chunks : ∃ len, ChunksOK cfg r (16 * info.digitsPerWord) len q.chunks
  weight : weight q.chunks ≤ 139 / 25 * phi n

theorem spends_npLargeNewBig (hv : cfg.Valid) {r : Nat} {info : RadixInfo} (h : NP cfg.W r info) {x p : UBig}
    (hx : x.WF cfg) (hp : p.WF cfg) (hpv : p.value cfg = r ^ (16 * info.digitsPerWord))
    (hle : p.value cfg ≤ x.value cfg) :
    Spends (npLargeNewBig cfg x r p) (941 + 1559 * phi x.len) (fun q => - (2 * (q.top.top.length : ℝ)))
      (LargeCost cfg r info x.len) := by
  have hone := h.tab.one
  have hr3 := h.three
  have hx1 := UBig.len_pos hx
  have hdbl := phi_two_le x.len
  have h0 := phi_nonneg x.len
  have hKle : ∀ i, r ^ (16 * info.digitsPerWord * 2 ^ i) ≤ x.value cfg → chunkWords i ≤ 2 * x.len := by
    intro i hi
    have h2 := lt_of_le_of_lt ((chunk_ge h i).trans hi) (UBig.value_lt_len hx)
    have h3 := (Nat.pow_lt_pow_iff_right (by norm_num : 1 < 2)).mp h2
    have h4 := lt_of_mul_lt_mul_right h3 (Nat.zero_le _)
    have hev : chunkWords i = 2 * (chunkWords i / 2) := by unfold chunkWords; omega
    omega
  unfold npLargeNewBig
  have hpw := Costs.post (costs_fmtPowersLoop hv h hx (bitLen (x.len * cfg.W)) [] p hp (by simpa using hpv)
    (hKle 0 (by simpa using hpv ▸ hle))) (fmtPowersLoop_result _ _ _ _)
    (Post.of_returns (fmtPowersLoop_spec hv (r := r) (D := 16 * info.digitsPerWord) (by omega) (by omega) hx
    (bitLen (x.len * cfg.W)) [] p (by simp) ⟨hp, by simpa using hpv, trivial⟩ hle))
  rw [List.nil_append] at hpw
  refine Costs.spend hpw ?_
  rintro powers ⟨h1, h2, h3, h4⟩
  obtain ⟨l, p', rfl⟩ : ∃ l q, powers = l ++ [q] := ⟨_, _, (List.dropLast_append_getLast h2).symm⟩
  have h1' := h1
  rw [List.reverse_append, List.reverse_singleton, List.singleton_append] at h1 ⊢
  obtain ⟨a1, a2, a3⟩ := h1
  rw [List.length_append, List.length_singleton] at h3 h4
  rw [Nat.add_sub_cancel] at h3
  dsimp only
  rw [List.length_reverse] at a2
  have hK := hKle _ h3
  have hKm := phi_mono hK
  have hpos : 0 < p'.value cfg := by rw [a2]; exact Nat.pow_pos h.r_pos
  refine Costs.spend (costs_divRem hv .ref .ref hx a1 hx1 hx1 (UBig.value_lt_len hx)
    (by rw [a2]; exact lt_of_le_of_lt h3 (UBig.value_lt_len hx))) ?_
  rintro ⟨q, rem⟩ ⟨d1, d2, d3, d4⟩
  dsimp only at d1 d2 d3 d4 ⊢
  rw [divBound_self]
  have hq1 : 1 ≤ q.value cfg := by rw [d3, Nat.one_le_div_iff hpos, a2]; exact h3
  have hq2 : q.value cfg < r ^ (16 * info.digitsPerWord * 2 ^ l.reverse.length) := by
    rw [d3, Nat.div_lt_iff_lt_mul hpos, a2, List.length_reverse, ← pow_add]
    refine lt_of_lt_of_eq h4 ?_
    congr 1
    rw [pow_succ]
    ring
  refine Costs.spend (Costs.and (costs_fmtChunksLoop hv h l.reverse q [(l.reverse.length, rem)] a3 d1 hq2)
    (fmtChunksLoop_result _ _ _ _) (Post.of_returns (fmtChunksLoop_spec hv (r := r)
      (D := 16 * info.digitsPerWord) (len := l.length + 1) (by omega) l.reverse q
      [(l.reverse.length, rem)] (by rw [List.length_reverse]; omega) a3 d1 hq1 hq2 ?_))) ?_
  · intro c hc
    rw [List.mem_singleton] at hc
    subst hc
    refine ⟨by simp only [List.length_reverse]; omega, d2, ?_⟩
    simp only [List.length_reverse]
    rw [← a2, d4]
    exact Nat.mod_lt _ hpos
  rintro ⟨y, cs⟩ ⟨hw, -, -, -, hcs, -⟩
  dsimp only at hw hcs ⊢
  simp only [weight, List.length_reverse, add_zero] at hw ⊢
  refine (spends_npMediumNew cfg.W y r).step fun top htop => ?_
  refine Spends.pure ⟨htop, h1', ⟨_, hcs⟩, ?_⟩ ?_
  · dsimp only
    linarith
  · have := phi_nonneg (chunkWords ([] : List UBig).length)
    dsimp only
    linarith

theorem spends_npLargeNew (hv : cfg.Valid) {r : Nat} {info : RadixInfo} (h : NP cfg.W r info) {x : UBig}
    (hx : x.WF cfg) :
    Spends (npLargeNew cfg x r) (6144 + 1559 * phi x.len) (fun q => - (2 * (q.top.top.length : ℝ)))
      (LargeCost cfg r info x.len) := by
  have hU := hv.two_pow_U
  have h0 := phi_nonneg x.len
  unfold npLargeNew
  refine Costs.spend (Takes.costs (takes_assertR _)) fun _ _ => ?_
  refine Costs.spend (Takes.costs (P := fun i => i = info)
    (Takes.pass fun i hi => by rw [h.lookup] at hi; cases hi; rfl)) ?_
  intro i hi
  rw [hi]
  clear hi i
  have hrange : (UBig.small info.rangePerWord).WF cfg := by
    show info.rangePerWord < base cfg.W
    rw [h.tab.range]; exact h.tab.lt
  have hval : (UBig.small info.rangePerWord).value cfg ^ fmtChunkLen = r ^ (16 * info.digitsPerWord) := by
    show info.rangePerWord ^ 16 = _
    rw [h.tab.range, ← pow_mul, Nat.mul_comm]
  refine Costs.spend (costs_pow hv hrange (n := 1) (le_refl 1)
    (by rw [Nat.one_mul, ← base_eq]; exact hrange) (exp := fmtChunkLen) (by unfold fmtChunkLen; omega)) ?_
  rintro p ⟨p1, p2⟩
  rw [hval] at p2
  have hpow : powBound 1 fmtChunkLen ≤ 5184 := by
    have := phi_sixteen
    unfold phi at this
    unfold powBound fmtChunkLen
    rw [Nat.one_mul, Nat.cast_one, Real.one_rpow]
    push_cast at this ⊢
    linarith
  have hplen : p.len ≤ 16 := by
    refine UBig.len_le hv p1 (by omega) ?_
    have := chunk_lt h 0
    rw [pow_zero, Nat.mul_one] at this
    rw [p2]
    exact this
  refine Costs.spend (costs_lt hv hx p1 (n := 16) (by omega)) fun gt hgt => ?_
  refine Spends.ite (fun _ => ?_) fun hng => ?_
  · refine (spends_npMediumNew cfg.W x r).step fun top htop => ?_
    refine Spends.pure ⟨htop, trivial, ⟨0, by simp [ChunksOK]⟩, ?_⟩ ?_
    · simp only [weight]
      linarith
    · dsimp only
      push_cast
      linarith
  · rw [hgt] at hng
    refine (spends_npLargeNewBig hv h hx p1 p2 (by simpa using hng)).le ?_
    push_cast
    linarith

theorem costs_npLargeWidth {r : Nat} {info : RadixInfo} {n : Nat} {p : PreparedLarge}
    (hp : LargeCost cfg r info n p) :
    Costs (npLargeWidth cfg p r) (4 + 139 / 25 * phi n) (fun _ => True) := by
  unfold npLargeWidth
  refine Costs.step (Takes.costs (takes_npMediumWidth _ _ _)) fun _ _ => ?_
  refine Costs.step (Takes.costs (takes_word1 _)) fun i _ => ?_
  refine (costs_npChunksWidth _ _ _).mono ?_ fun _ h => h
  have := hp.weight
  push_cast
  linarith

theorem spends_npLargeWrite (hv : cfg.Valid) {r : Nat} {info : RadixInfo} (h : NP cfg.W r info) {n : Nat}
    {p : PreparedLarge} (hp : LargeCost cfg r info n p) (dw : DigitWriter) (hb : dw.buffer.length < 32) :
    Spends (npLargeWrite cfg p r dw) (pot 9 dw + (99 + 3120 * phi n - 6 * p.top.top.length)) (pot 9)
      (fun d => d.buffer.length < 32) := by
  unfold npLargeWrite
  refine (spends_npMediumWrite hv.word hp.low r dw hb).step fun d hd => ?_
  obtain ⟨len, hc⟩ := hp.chunks
  refine (spends_npWriteChunks hv h hp.powers p.chunks hc d hd).le ?_
  have := hp.weight
  have := phi_nonneg n
  linarith

theorem spends_fmtNonPow2 (hv : cfg.Valid) (be : Bool) (sign : Sign) {mag : UBig} (hm : mag.WF cfg) {radix : Nat}
    (hr : isRadixValid radix = true) (h2 : isRadixPow2 radix = false)
    (pre : List Nat) (dc : DigitCase) (f : FmtFlags) :
    Spends (fmtNonPow2 cfg be sign mag radix pre dc f) (6300 + 4700 * phi mag.len)
      (fun text => - (9 * text.length)) (fun _ => True) := by
  have h0 := phi_nonneg mag.len
  obtain ⟨info, h⟩ := exists_np hv hr h2
  unfold fmtNonPow2
  refine Costs.spend (Takes.costs (takes_assertR _)) fun _ _ => ?_
  rcases mag with w | b
  · refine (spends_npWordNew cfg.W w radix 1).step fun l _ => ?_
    have hl : (0 : ℝ) ≤ l.length := Nat.cast_nonneg _
    refine (costs_formatPrepared hv be sign pre dc f _ (c := 9) (A := 1) (B := 2 - 6 * l.length) (by norm_num)
      (by simpa using Takes.costs (takes_word1 (.ok _)))
      fun dw hb => (spends_write 9 hv.word dw l hb).le (by linarith)).le ?_
    push_cast
    linarith
  · refine Costs.spend (Takes.costs (takes_word1 _)) fun i _ => ?_
    refine Costs.spend (Takes.costs (takes_word1 _)) fun md _ => ?_
    refine Spends.ite (fun _ => ?_) fun _ => ?_
    · refine (spends_npMediumNew cfg.W _ radix).step fun p hp => ?_
      have hl : (0 : ℝ) ≤ p.top.length := Nat.cast_nonneg _
      refine (costs_formatPrepared hv be sign pre dc f _ (c := 9) (A := (3 : ℕ)) (B := 99 - 6 * p.top.length)
        (by norm_num) (Takes.costs (takes_npMediumWidth _ _ _))
        fun dw hb => spends_npMediumWrite hv.word hp radix dw hb).le ?_
      push_cast
      linarith
    · refine (spends_npLargeNew hv h hm).step fun p hp => ?_
      have hl : (0 : ℝ) ≤ p.top.top.length := Nat.cast_nonneg _
      refine (costs_formatPrepared hv be sign pre dc f _ (c := 9) (by norm_num) (costs_npLargeWidth hp)
        fun dw hb => spends_npLargeWrite hv h hp dw hb).le ?_
      push_cast
      linarith

theorem spends_fmtFull (hv : cfg.Valid) (be : Bool) (sign : Sign) {mag : UBig} (hm : mag.WF cfg) {radix : Nat}
    (hr : isRadixValid radix = true) (pre : List Nat) (dc : DigitCase) (f : FmtFlags) :
    Spends (fmtFull cfg be sign mag radix pre dc f) (6300 + 4700 * phi mag.len)
      (fun text => - (9 * text.length)) (fun _ => True) := by
  unfold fmtFull
  refine Spends.ite (fun _ => ?_) fun h => spends_fmtNonPow2 hv be sign hm hr (by simpa using h) pre dc f
  refine (spends_fmtPow2 hv be sign mag radix pre dc f).le ?_
  have := phi_nonneg mag.len
  linarith

end
end Ibig.Timed
