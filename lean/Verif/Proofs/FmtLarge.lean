import Verif.Proofs.FmtNonPow2
/-! Formatting large numbers in the radixes that are not powers of two. -/
namespace Ibig

theorem UBig.len_le {cfg : Cfg} (hv : cfg.Valid) {a : UBig} (ha : a.WF cfg) : a.len ≤ cfg.maxLen := by
  cases a with
  | small w => have := hv.large; simp only [UBig.len]; omega
  | large b => exact ha.len

theorem UBig.len_pos {cfg : Cfg} {a : UBig} (ha : a.WF cfg) : 1 ≤ a.len := by
  cases a with
  | small w => simp [UBig.len]
  | large b => have := ha.two; simp only [UBig.len, Buffer.len]; omega

theorem UBig.pow_len_le {cfg : Cfg} {a : UBig} (ha : a.WF cfg) (h1 : 1 ≤ a.value cfg) :
    base cfg.W ^ (a.len - 1) ≤ a.value cfg := by
  cases a with
  | small w => simpa [UBig.len] using h1
  | large b => exact Buffer.WF.ge ha

theorem UBig.lt_pow_len {cfg : Cfg} {a : UBig} (ha : a.WF cfg) : a.value cfg < base cfg.W ^ a.len := by
  have := UBig.value_lt_len ha
  rwa [base_eq, ← pow_mul, Nat.mul_comm]

/-! ### The powers -/

theorem fmtPowersLoop_spec {cfg : Cfg} (hv : cfg.Valid) {r D : Nat} (hr : 2 ≤ r) (hD : 1 ≤ D) {n : UBig} (hn : n.WF cfg) :
    ∀ (fuel : Nat) (ps : List UBig) (prev : UBig), bitLen (n.len * cfg.W) ≤ ps.length + fuel →
      PowersOK cfg r D (ps ++ [prev]).reverse → prev.value cfg ≤ n.value cfg →
      Returns (fmtPowersLoop cfg n fuel (ps ++ [prev])) fun q => PowersOK cfg r D q.reverse ∧ q ≠ [] ∧
        r ^ (D * 2 ^ (q.length - 1)) ≤ n.value cfg ∧ n.value cfg < r ^ (D * 2 ^ q.length) := by
  have hW := hv.W1
  intro fuel
  induction fuel with
  | zero =>
    intro ps prev hf hp hle
    exfalso
    rw [List.reverse_append, List.reverse_singleton, List.singleton_append] at hp
    obtain ⟨p1, p2, p3⟩ := hp
    rw [List.length_reverse] at p2
    have h1 := UBig.value_lt_len hn
    have h2 : 2 ^ 2 ^ ps.length ≤ r ^ (D * 2 ^ ps.length) := by
      calc 2 ^ 2 ^ ps.length ≤ r ^ 2 ^ ps.length := Nat.pow_le_pow_left hr _
        _ ≤ _ := Nat.pow_le_pow_right (by omega) (Nat.le_mul_of_pos_left _ hD)
    rw [p2] at hle
    have := (Nat.pow_lt_pow_iff_right (by norm_num : 1 < 2)).mp (lt_of_le_of_lt (h2.trans hle) h1)
    have h3 := bitLen_le_iff.mp (show bitLen (n.len * cfg.W) ≤ ps.length by simpa using hf)
    omega
  | succ fuel ih =>
    intro ps prev hf hp hle
    have hp' := hp
    rw [List.reverse_append, List.reverse_singleton, List.singleton_append] at hp
    obtain ⟨p1, p2, p3⟩ := hp
    rw [List.length_reverse] at p2
    have hl1 := UBig.len_le hv p1
    have hl2 := UBig.len_le hv hn
    have hl3 := UBig.len_pos p1
    have hbits := hv.maxBits_le
    have hml : 2 * cfg.maxLen ≤ cfg.maxLen * cfg.W := by
      rw [Nat.mul_comm]; exact Nat.mul_le_mul_left _ (by have := hv.W16; omega)
    have hp1 : 1 ≤ prev.value cfg := by rw [p2]; exact Nat.one_le_pow _ _ (by omega)
    have hdouble : r ^ (D * 2 ^ (ps ++ [prev]).length) = prev.value cfg * prev.value cfg := by
      rw [p2, ← pow_add, List.length_append, List.length_singleton, pow_succ]; congr 1; ring
    have hdone : n.value cfg < prev.value cfg * prev.value cfg →
        PowersOK cfg r D (ps ++ [prev]).reverse ∧ ps ++ [prev] ≠ [] ∧
        r ^ (D * 2 ^ ((ps ++ [prev]).length - 1)) ≤ n.value cfg ∧
          n.value cfg < r ^ (D * 2 ^ (ps ++ [prev]).length) := by
      intro hlt
      refine ⟨hp', by simp, ?_, by rw [hdouble]; exact hlt⟩
      rw [List.length_append, List.length_singleton, Nat.add_sub_cancel, ← p2]; exact hle
    unfold fmtPowersLoop
    rw [List.getLast?_append]
    simp only [List.getLast?_singleton, Option.some_or]
    rw [ckMul_ok (by omega)]
    simp only [bind, Except.bind]
    rw [ckSub_ok (by omega)]
    simp only
    by_cases hshort : n.len < 2 * prev.len - 1
    · rw [if_pos hshort, returns_ok]
      apply hdone
      have h1 := UBig.pow_len_le p1 hp1
      calc n.value cfg < base cfg.W ^ n.len := UBig.lt_pow_len hn
        _ ≤ base cfg.W ^ ((prev.len - 1) + (prev.len - 1)) := Nat.pow_le_pow_right (base_pos _) (by omega)
        _ = base cfg.W ^ (prev.len - 1) * base cfg.W ^ (prev.len - 1) := pow_add _ _ _
        _ ≤ _ := Nat.mul_le_mul h1 h1
    · rw [if_neg hshort]
      have hfit : Fits cfg (prev.value cfg * prev.value cfg) := by
        rw [fits_iff]
        have h1 := UBig.lt_pow_len p1
        have he := hv.even
        calc prev.value cfg * prev.value cfg < base cfg.W ^ prev.len * base cfg.W ^ prev.len :=
              Nat.mul_lt_mul'' h1 h1
          _ = base cfg.W ^ (prev.len + prev.len) := (pow_add _ _ _).symm
          _ ≤ _ := Nat.pow_le_pow_right (base_pos _) (by omega)
      obtain ⟨new, e, n1, n2⟩ := (UBig.mul_spec hv .ref .ref p1 p1).1 hfit
      rw [e]
      simp only
      rw [UBig.lt_spec hv hn n1, n2]
      simp only [decide_eq_true_eq]
      by_cases hgt : n.value cfg < prev.value cfg * prev.value cfg
      · rw [if_pos hgt, returns_ok]
        exact hdone hgt
      · rw [if_neg hgt]
        refine ih (ps ++ [prev]) new (by rw [List.length_append, List.length_singleton]; omega) ?_ (by rw [n2]; omega)
        rw [List.reverse_append, List.reverse_singleton, List.singleton_append]
        refine ⟨n1, ?_, hp'⟩
        rw [List.length_reverse, hdouble, n2]

/-! ### The chunks -/

/-- the number made of `x` followed by the chunks -/
def chunksVal (cfg : Cfg) (r D : Nat) : Nat → List (Nat × UBig) → Nat
  | x, [] => x
  | x, (i, c) :: cs => chunksVal cfg r D (x * r ^ (D * 2 ^ i) + c.value cfg) cs

/-- the number of digits of the chunks -/
def chunksWidth (D : Nat) : List (Nat × UBig) → Nat
  | [] => 0
  | (i, _) :: cs => D * 2 ^ i + chunksWidth D cs

/-- chunks that can be written -/
def ChunksOK (cfg : Cfg) (r D len : Nat) (cs : List (Nat × UBig)) : Prop :=
  ∀ p ∈ cs, p.1 ≤ len ∧ p.2.WF cfg ∧ p.2.value cfg < r ^ (D * 2 ^ p.1)

theorem fmtChunksLoop_spec {cfg : Cfg} (hv : cfg.Valid) {r D len : Nat} (hr : 1 ≤ r) :
    ∀ (ps : List UBig) (x : UBig) (cs : List (Nat × UBig)), ps.length ≤ len → PowersOK cfg r D ps → x.WF cfg →
      1 ≤ x.value cfg → x.value cfg < r ^ (D * 2 ^ ps.length) → ChunksOK cfg r D len cs →
      Returns (fmtChunksLoop cfg ps x cs) fun q => q.1.WF cfg ∧ 1 ≤ q.1.value cfg ∧ q.1.value cfg < r ^ D ∧
        ChunksOK cfg r D len q.2 ∧ chunksVal cfg r D (q.1.value cfg) q.2 = chunksVal cfg r D (x.value cfg) cs := by
  intro ps
  induction ps with
  | nil =>
    intro x cs _ _ hx h1 hlt hcs
    unfold fmtChunksLoop
    rw [returns_ok]
    simp only [List.length_nil, pow_zero, Nat.mul_one] at hlt
    exact ⟨hx, h1, hlt, hcs, rfl⟩
  | cons p ps ih =>
    intro x cs hl hp hx h1 hlt hcs
    obtain ⟨p1, p2, p3⟩ := hp
    rw [List.length_cons] at hl hlt
    unfold fmtChunksLoop
    rw [UBig.le_spec hv p1 hx]
    simp only [bind, Except.bind, decide_eq_true_eq]
    have hpos : 0 < p.value cfg := by rw [p2]; exact Nat.pow_pos (by omega)
    by_cases hge : p.value cfg ≤ x.value cfg
    · rw [if_pos hge]
      obtain ⟨⟨q, rem⟩, e, d1, d2, d3, d4⟩ := (UBig.divRem_spec hv .val .ref hx p1).1 (by omega)
      rw [e]
      simp only at d1 d2 d3 d4 ⊢
      have hrem : rem.value cfg < p.value cfg := by rw [d4]; exact Nat.mod_lt _ hpos
      have hx' : q.value cfg * p.value cfg + rem.value cfg = x.value cfg := by
        rw [d3, d4, Nat.mul_comm]; exact Nat.div_add_mod _ _
      refine (ih q ((ps.length, rem) :: cs) (by omega) p3 d1 ?_ ?_ ?_).mono ?_
      · rw [d3]; exact (Nat.one_le_div_iff hpos).mpr hge
      · rw [d3, Nat.div_lt_iff_lt_mul hpos, p2, ← pow_add]
        refine lt_of_lt_of_eq hlt ?_
        congr 1; rw [pow_succ]; ring
      · intro c hc
        rw [List.mem_cons] at hc
        rcases hc with rfl | hc
        · exact ⟨by simp only; omega, d2, by simp only; rw [← p2]; exact hrem⟩
        · exact hcs c hc
      · rintro ⟨y, ds⟩ ⟨k1, k2, k3, k4, k5⟩
        refine ⟨k1, k2, k3, k4, ?_⟩
        rw [k5]
        simp only [chunksVal]
        rw [← p2, hx']
    · rw [if_neg hge]
      exact ih x cs (by omega) p3 hx h1 (by rw [← p2]; omega) hcs

theorem DigitCount.append {r x k m c : Nat} (hr : 1 ≤ r) (h : DigitCount r x k) (hx : 1 ≤ x) (hc : c < r ^ m) :
    DigitCount r (x * r ^ m + c) (k + m) := by
  have hk := h.pos
  refine ⟨by omega, ?_, Or.inr ?_⟩
  · rw [pow_add]
    calc x * r ^ m + c < x * r ^ m + r ^ m := by omega
      _ = (x + 1) * r ^ m := by ring
      _ ≤ _ := Nat.mul_le_mul_right _ h.lt
  · have hge : r ^ (k - 1) ≤ x := by
      rcases h.ge with h1 | h1
      · rw [h1]; simpa using hx
      · exact h1
    rw [show k + m - 1 = (k - 1) + m by omega, pow_add]
    exact le_trans (Nat.mul_le_mul_right _ hge) (Nat.le_add_right _ _)

theorem npWriteChunks_spec {cfg : Cfg} (hv : cfg.Valid) {r : Nat} {info : RadixInfo} (h : NP cfg.W r info)
    {powers : List UBig} (hp : PowersOK cfg r (16 * info.digitsPerWord) powers.reverse) :
    ∀ (cs : List (Nat × UBig)) (x k : Nat) (f : DigitWriter → R DigitWriter),
      ChunksOK cfg r (16 * info.digitsPerWord) powers.length cs → 1 ≤ x → DigitCount r x k →
      Writes cfg.W f (digitsPad r k x) →
      DigitCount r (chunksVal cfg r (16 * info.digitsPerWord) x cs) (k + chunksWidth (16 * info.digitsPerWord) cs) ∧
      Writes cfg.W (fun dw => do let dw ← f dw; npWriteChunks cfg r powers cs dw)
        (digitsPad r (k + chunksWidth (16 * info.digitsPerWord) cs) (chunksVal cfg r (16 * info.digitsPerWord) x cs)) := by
  intro cs
  induction cs with
  | nil =>
    intro x k f _ _ hk hf
    refine ⟨hk, ?_⟩
    have := Writes.bind hf (Writes.nil cfg.W)
    rw [List.append_nil] at this
    exact this
  | cons p cs ih =>
    obtain ⟨i, c⟩ := p
    intro x k f hcs hx hk hf
    obtain ⟨c1, c2, c3⟩ := hcs (i, c) (by simp)
    simp only at c1 c2 c3
    have h1 := Writes.bind hf (npWriteBigChunk_spec hv h hp i c c1 c2 c3)
    rw [digitsPad_join h.r_pos c3] at h1
    have hx' : 1 ≤ x * r ^ (16 * info.digitsPerWord * 2 ^ i) + c.value cfg := by
      have : 0 < x * r ^ (16 * info.digitsPerWord * 2 ^ i) := Nat.mul_pos hx (Nat.pow_pos h.r_pos)
      omega
    have := ih _ _ _ (fun p hp => hcs p (by simp [hp])) hx' (hk.append h.r_pos hx c3) h1
    simp only [chunksVal, chunksWidth]
    rw [← Nat.add_assoc]
    refine ⟨this.1, ?_⟩
    intro dw hdw
    have := this.2 dw hdw
    simp only [npWriteChunks]
    simpa only [bind_assoc] using this

theorem npChunksWidth_spec {cfg : Cfg} {dpw : Nat} (hd : 1 ≤ dpw) :
    ∀ (cs : List (Nat × UBig)) (n : Nat), n + chunksWidth (16 * dpw) cs < 2 ^ cfg.U →
      npChunksWidth cfg dpw cs n = .ok (n + chunksWidth (16 * dpw) cs) := by
  intro cs
  induction cs with
  | nil => intro n _; rfl
  | cons p cs ih =>
    obtain ⟨i, c⟩ := p
    intro n hlt
    simp only [chunksWidth] at hlt ⊢
    have hle : 16 * dpw ≤ 16 * dpw * 2 ^ i := Nat.le_mul_of_pos_right _ (Nat.two_pow_pos i)
    simp only [npChunksWidth]
    rw [ih n (by omega)]
    simp only [bind, Except.bind]
    rw [ckMul_ok (by unfold fmtChunkLen; omega)]
    simp only
    rw [show dpw * fmtChunkLen = 16 * dpw by unfold fmtChunkLen; ring, shlW_ok (by omega) (by omega)]
    simp only
    rw [ckAdd_ok (by omega)]
    congr 1; ring

theorem npLargeNewBig_spec {cfg : Cfg} (hv : cfg.Valid) {r : Nat} {info : RadixInfo} (h : NP cfg.W r info) {x p : UBig}
    (hx : x.WF cfg) (hp : p.WF cfg) (hpv : p.value cfg = r ^ (16 * info.digitsPerWord)) (hle : p.value cfg ≤ x.value cfg) :
    Returns (npLargeNewBig cfg x r p) fun q => ∃ y k, MediumOK cfg.W r y info q.top k ∧
      PowersOK cfg r (16 * info.digitsPerWord) q.powers.reverse ∧
      ChunksOK cfg r (16 * info.digitsPerWord) q.powers.length q.chunks ∧
      chunksVal cfg r (16 * info.digitsPerWord) y q.chunks = x.value cfg := by
  have hr3 := h.three
  have hone := h.tab.one
  unfold npLargeNewBig
  refine Returns.bind (fmtPowersLoop_spec hv (r := r) (D := 16 * info.digitsPerWord) (by omega) (by omega) hx
    (bitLen (x.len * cfg.W)) [] p (by simp) ⟨hp, by simpa using hpv, trivial⟩ hle) ?_
  rintro powers ⟨h1, h2, h3, h4⟩
  simp only
  obtain ⟨l, p', rfl⟩ : ∃ l q, powers = l ++ [q] := ⟨_, _, (List.dropLast_append_getLast h2).symm⟩
  have h1' := h1
  rw [List.reverse_append, List.reverse_singleton, List.singleton_append] at h1 ⊢
  obtain ⟨a1, a2, a3⟩ := h1
  rw [List.length_append, List.length_singleton] at h3 h4
  rw [Nat.add_sub_cancel] at h3
  simp only
  rw [List.length_reverse] at a2
  have hpos : 0 < p'.value cfg := by rw [a2]; exact Nat.pow_pos h.r_pos
  refine Returns.bind ((UBig.divRem_spec hv .ref .ref hx a1).1 (by omega)) ?_
  rintro ⟨q, rem⟩ ⟨d1, d2, d3, d4⟩
  simp only at d1 d2 d3 d4 ⊢
  refine Returns.bind (fmtChunksLoop_spec hv (r := r) (D := 16 * info.digitsPerWord) (len := l.length + 1) (by omega) l.reverse q
    [(l.reverse.length, rem)] (by rw [List.length_reverse]; omega) a3 d1 ?_ ?_ ?_) ?_
  · rw [d3, Nat.one_le_div_iff hpos, a2]; exact h3
  · rw [d3, Nat.div_lt_iff_lt_mul hpos, a2, List.length_reverse, ← pow_add]
    refine lt_of_lt_of_eq h4 ?_
    congr 1; rw [pow_succ]; ring
  · intro c hc
    rw [List.mem_singleton] at hc
    subst hc
    refine ⟨by simp only [List.length_reverse]; omega, d2, ?_⟩
    simp only [List.length_reverse]
    rw [← a2, d4]; exact Nat.mod_lt _ hpos
  · rintro ⟨y, cs⟩ ⟨k1, k2, k3, k4, k5⟩
    simp only at k1 k2 k3 k4 k5 ⊢
    have hy : y.value cfg < (r ^ info.digitsPerWord) ^ 16 := by rw [← pow_mul, Nat.mul_comm]; exact k3
    refine Returns.bind (npMediumNew_spec hv h k1 k2 hy) ?_
    rintro top ⟨k, hk⟩
    rw [returns_ok]
    refine ⟨y.value cfg, k, hk, h1', by simpa using k4, ?_⟩
    simp only
    rw [k5]
    simp only [chunksVal, List.length_reverse]
    rw [← a2, d3, d4, Nat.mul_comm]
    exact Nat.div_add_mod _ _

theorem npLargeNew_spec {cfg : Cfg} (hv : cfg.Valid) {r : Nat} {info : RadixInfo} (h : NP cfg.W r info) {x : UBig}
    (hx : x.WF cfg) (hx1 : 1 ≤ x.value cfg) :
    Returns (npLargeNew cfg x r) fun q => ∃ y k, MediumOK cfg.W r y info q.top k ∧
      PowersOK cfg r (16 * info.digitsPerWord) q.powers.reverse ∧
      ChunksOK cfg r (16 * info.digitsPerWord) q.powers.length q.chunks ∧
      chunksVal cfg r (16 * info.digitsPerWord) y q.chunks = x.value cfg := by
  have hU := hv.two_pow_U
  unfold npLargeNew
  refine Returns.bind (returns_assertR h.asserted) ?_
  intro _ _
  rw [h.lookup]
  simp only [bind, Except.bind]
  have hrange : (UBig.small info.rangePerWord).WF cfg := by
    show info.rangePerWord < base cfg.W
    rw [h.tab.range]; exact h.tab.lt
  have hval : (UBig.small info.rangePerWord).value cfg ^ fmtChunkLen = r ^ (16 * info.digitsPerWord) := by
    show info.rangePerWord ^ 16 = _
    rw [h.tab.range, ← pow_mul, Nat.mul_comm]
  have hfit : Fits cfg ((UBig.small info.rangePerWord).value cfg ^ fmtChunkLen) := by
    rw [fits_iff]
    have hl := hv.large
    show info.rangePerWord ^ 16 < _
    rw [h.tab.range]
    calc (r ^ info.digitsPerWord) ^ 16 < base cfg.W ^ 16 := Nat.pow_lt_pow_left h.tab.lt (by norm_num)
      _ ≤ _ := Nat.pow_le_pow_right (base_pos _) (by omega)
  obtain ⟨p, e, p1, p2⟩ := (UBig.pow_spec hv hrange (exp := fmtChunkLen) (by unfold fmtChunkLen; omega)).1 hfit
  rw [e]
  simp only
  rw [hval] at p2
  rw [UBig.lt_spec hv hx p1]
  simp only [decide_eq_true_eq]
  by_cases hlt : x.value cfg < p.value cfg
  · rw [if_pos hlt]
    have hy : x.value cfg < (r ^ info.digitsPerWord) ^ 16 := by rw [← pow_mul, Nat.mul_comm, ← p2]; exact hlt
    obtain ⟨top, e', k, hk⟩ := npMediumNew_spec hv h hx hx1 hy
    rw [e']
    simp only
    rw [returns_ok]
    exact ⟨_, k, hk, trivial, by simp [ChunksOK], rfl⟩
  · rw [if_neg hlt]
    exact npLargeNewBig_spec hv h hx p1 p2 (by omega)

end Ibig
