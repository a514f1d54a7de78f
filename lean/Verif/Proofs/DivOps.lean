import Verif.Model.DivOps
import Verif.Proofs.Div
import Verif.Proofs.MulOps
/-! Division of `UBig` and `IBig` (/repo/src/div_ops.rs) is exact. -/
namespace Ibig

theorem exists_snoc' {l : List Nat} (h : l ≠ []) : ∃ l' x, l = l' ++ [x] := by
  rcases List.eq_nil_or_concat l with h' | ⟨l', x, h'⟩
  · exact absurd h' h
  · exact ⟨l', x, by simpa using h'⟩

/-- /repo/src/div/mod.rs `normalize_large` -/
theorem normalizeLarge_spec {W : Nat} (hW : 1 ≤ W) {l : List Nat} (hl : IsWords W l)
    (h2 : 2 ≤ l.length) (ht : l.getLast? ≠ some 0) :
    Returns (normalizeLarge W l) fun r => r.1.length = l.length ∧ IsWords W r.1 ∧ r.2.1 < W ∧
      val W r.1 = val W l * 2 ^ r.2.1 ∧ ∃ rl v1 v0, NormDiv W r.1 r.2.2 rl v1 v0 := by
  obtain ⟨l', x, rfl⟩ := exists_snoc' (ne_nil_of_two h2)
  have hx0 : x ≠ 0 := by rintro rfl; simp at ht
  have hw := isWords_append.mp hl
  have hx : x < base W := hw.2 x (by simp)
  have hl' := val_lt hw.1
  obtain ⟨n1, n2, n3⟩ := normalize_word hW hx0 hx
  unfold normalizeLarge
  refine Returns.bind (returns_assertR h2) ?_
  rintro _ -
  have e1 : (l' ++ [x]).length - 1 = l'.length := by simp
  rw [e1, getR_append rfl]
  refine Returns.bind (P := fun t => t = x) (returns_ok.mpr rfl) ?_
  intro t ht2
  subst ht2
  simp only
  generalize hs : leadingZeros W t = s at *
  refine Returns.bind (shlInPlace_spec n1 hl) ?_
  rintro ⟨ws, o⟩ ⟨g1, g2, g3, g4⟩
  simp only at g1 g2 g3 g4 ⊢
  have v : val W (l' ++ [t]) = val W l' + base W ^ l'.length * t := by rw [val_append]; simp
  have lenE : (l' ++ [t]).length = l'.length + 1 := by simp
  have hp : base W = 2 ^ s * 2 ^ (W - s) := by
    unfold base; rw [← pow_add]; congr 1; omega
  have n2' : (t + 1) * 2 ^ s ≤ base W := by
    rw [hp, Nat.mul_comm (2 ^ s)] at n2 ⊢
    have : t < 2 ^ (W - s) := Nat.lt_of_mul_lt_mul_right n2
    exact Nat.mul_le_mul_right _ this
  -- no overflow
  have ho : o = 0 := by
    by_contra h
    have h1 : 1 * base W ^ (l' ++ [t]).length ≤ o * base W ^ (l' ++ [t]).length :=
      Nat.mul_le_mul_right _ (by omega)
    have h2 : val W (l' ++ [t]) * 2 ^ s < base W ^ (l' ++ [t]).length := by
      rw [lenE, v, pow_succ]
      calc (val W l' + base W ^ l'.length * t) * 2 ^ s
          < (base W ^ l'.length + base W ^ l'.length * t) * 2 ^ s :=
            Nat.mul_lt_mul_of_pos_right (by omega) (by positivity)
        _ = base W ^ l'.length * ((t + 1) * 2 ^ s) := by ring
        _ ≤ _ := Nat.mul_le_mul_left _ n2'
    omega
  refine Returns.bind (returns_assertR ho) ?_
  rintro _ -
  subst ho
  simp only [Nat.zero_mul, Nat.add_zero] at g4
  obtain ⟨ws', y, rfl⟩ := exists_snoc' (l := ws) (by rintro rfl; simp at g1)
  have wl : ws'.length = l'.length := by simpa using g1
  have gw := isWords_append.mp g2
  have hy : y < base W := gw.2 y (by simp)
  have hws' := val_lt gw.1
  have hyn : base W ≤ 2 * y := by
    have v2 : val W (ws' ++ [y]) = val W ws' + base W ^ l'.length * y := by
      rw [val_append, wl]; simp
    rw [v2, v] at g4
    rw [wl] at hws'
    have : base W ^ l'.length * (t * 2 ^ s) < base W ^ l'.length * (y + 1) := by
      calc base W ^ l'.length * (t * 2 ^ s) ≤ (val W l' + base W ^ l'.length * t) * 2 ^ s := by
            rw [Nat.add_mul]
            have : base W ^ l'.length * (t * 2 ^ s) = base W ^ l'.length * t * 2 ^ s := by ring
            omega
        _ = val W ws' + base W ^ l'.length * y := g4.symm
        _ < base W ^ l'.length + base W ^ l'.length * y := by omega
        _ = _ := by ring
    have := Nat.lt_of_mul_lt_mul_left this
    omega
  have e2 : (ws' ++ [y]).length - 1 = ws'.length := by simp
  rw [e2, getR_append rfl]
  refine Returns.bind (P := fun t => t = y) (returns_ok.mpr rfl) ?_
  intro t' ht'
  rw [ht']
  refine Returns.bind (FastDivideNormalized.new_spec hW hy hyn) ?_
  intro fd hfd
  refine returns_ok.mpr ⟨g1, g2, n1, g4, ?_⟩
  obtain ⟨ws'', z, rfl⟩ := exists_snoc' (l := ws') (by
    rintro rfl; simp at wl; rw [lenE] at h2; simp at h2; omega)
  exact ⟨ws'', z, y, by simp, g2, hyn, hfd⟩

theorem Buffer.pushCarry_spec {cfg : Cfg} {b : Buffer} {w : Nat} (h : b.OK cfg)
    (hw : w < base cfg.W) (hc : b.words.length < cfg.maxLen + 4) :
    Returns (b.pushCarry cfg w) fun c => c.OK cfg ∧ ∃ t, c.words = b.words ++ t ∧ t.length ≤ 1 ∧
      val cfg.W t = w := by
  unfold Buffer.pushCarry
  split
  · refine (Buffer.pushMayReallocate_spec h hw hc).mono ?_
    rintro c ⟨h1, h2⟩
    exact ⟨h1, [w], h2, by simp, by simp⟩
  · rename_i h0
    exact returns_ok.mpr ⟨h, [], by simp, by simp, by simp at h0; simp [h0]⟩

theorem Buffer.own_spec' {cfg : Cfg} (o : Own) {b : Buffer} (h : b.WF cfg) :
    Returns (b.own cfg o) fun c => c.WF cfg ∧ c.words = b.words := Buffer.own_spec o h

theorem allocMemory_zero (cfg : Cfg) : allocMemory cfg 0 = .ok 0 := by
  simp [allocMemory]

theorem divMem_spec {cfg : Cfg} (hv : cfg.Valid) {n m : Nat} (h1 : m ≤ n) (h2 : 2 ≤ m)
    (h3 : m ≤ cfg.maxLen) : ∃ k, divMemoryRequirement n m = .ok k ∧ allocMemory cfg k = .ok k := by
  unfold divMemoryRequirement
  rw [assertR_true ⟨h1, h2⟩]
  simp only [bind, Except.bind]
  split
  · exact ⟨_, rfl, allocMemory_zero cfg⟩
  · exact ⟨_, rfl, allocMemory_mul hv (by omega)⟩

theorem quotient_unique {q r d n s : Nat} (hs : 0 < s) (hd : 0 < d) (h : q * (d * s) + r = n * s)
    (hr : r < d * s) : q = n / d ∧ r = n % d * s := by
  have h1 : q = n / d := by
    have : n * s / (d * s) = q := by
      rw [← h, Nat.add_comm, Nat.add_mul_div_right _ _ (by positivity), Nat.div_eq_of_lt hr]; simp
    rw [← this, Nat.mul_div_mul_right _ _ hs]
  refine ⟨h1, ?_⟩
  have := Nat.div_add_mod n d
  have e : n * s = n / d * (d * s) + n % d * s := by
    conv_lhs => rw [← this]
    ring
  rw [h1] at h
  omega

theorem UBig.divRemInLhs_spec {cfg : Cfg} (hv : cfg.Valid) {a b : Buffer} (ha : a.WF cfg)
    (hb : b.WF cfg) (hl : b.words.length ≤ a.words.length) :
    Returns (UBig.divRemInLhs cfg a b) fun r => r.1.OK cfg ∧ r.2.1.OK cfg ∧ r.2.2 < cfg.W ∧
      ∃ rem q, r.1.words = rem ++ q ∧ rem.length = r.2.1.words.length ∧
        val cfg.W rem = (val cfg.W a.words % val cfg.W b.words) * 2 ^ r.2.2 ∧
        val cfg.W q = val cfg.W a.words / val cfg.W b.words := by
  have hal := ha.len
  have hb2 := hb.two
  have hbl := hb.len
  have hB := two_le_base hv.W1
  have hb0 : 0 < val cfg.W b.words := by have := hb.ge_base; omega
  unfold UBig.divRemInLhs
  refine Returns.bind (normalizeLarge_spec hv.W1 hb.words hb.two hb.top) ?_
  rintro ⟨rw_, shift, fd⟩ ⟨n1, n2, n3, n4, rl, v1, v0, hnd⟩
  simp only at n1 n2 n3 n4 hnd ⊢
  refine Returns.bind (shlInPlace_spec n3 ha.words) ?_
  rintro ⟨lw, carry⟩ ⟨s1, s2, s3, s4⟩
  simp only at s1 s2 s3 s4 ⊢
  have hcb : carry < base cfg.W := lt_of_lt_of_le s3 (base_ge n3.le)
  refine Returns.bind (Buffer.pushCarry_spec (ha.ok.setWords s2 s1.le) hcb (by simp only; omega)) ?_
  rintro c ⟨c1, t, c2, c3, c4⟩
  simp only at c2
  have cl : c.words.length ≤ a.words.length + 1 ∧ a.words.length ≤ c.words.length := by
    rw [c2]; simp only [List.length_append]; omega
  have cv : val cfg.W c.words = val cfg.W a.words * 2 ^ shift := by
    rw [c2, val_append, c4, s1, ← s4]; ring
  obtain ⟨k, k1, k2⟩ := divMem_spec hv (n := c.words.length) (m := rw_.length) (by omega) (by omega)
    (by omega)
  have k1' : divMemoryRequirement c.len rw_.length = .ok k := k1
  rw [k1']
  refine Returns.bind (P := fun s => s = k) (returns_ok.mpr rfl) ?_
  intro k' hk'
  rw [hk', k2]
  refine Returns.bind (P := fun s => s = k) (returns_ok.mpr rfl) ?_
  intro m hm
  refine Returns.bind (divRemInPlace_spec hv.W4 c1.words hnd (by omega)
    (fun j hj => by rw [k1] at hj; cases hj; omega)) ?_
  rintro ⟨lw2, o⟩ ⟨rem, q, d1, d2, d3, d4, d5, d6, d7⟩
  simp only at d1 d3 ⊢
  have hob : o.toNat < base cfg.W := by have := Bool.toNat_le o; omega
  refine Returns.bind (Buffer.pushCarry_spec (w := o.toNat)
    (c1.setWords (by rw [d1]; exact isWords_append.mpr ⟨d4, d5⟩) d3.le) hob (by simp only; omega)) ?_
  rintro e ⟨e1, t2, e2, e3, e4⟩
  simp only at e2
  obtain ⟨u1, u2⟩ := quotient_unique (s := 2 ^ shift) (by positivity) hb0
    (by rw [← cv, ← n4]; exact d7) (by rw [← n4]; exact d6)
  refine returns_ok.mpr ⟨e1, hb.ok.setWords n2 n1.le, n3, rem, q ++ t2, ?_, d2, u2, ?_⟩
  · simp only; rw [e2, d1, List.append_assoc]
  · rw [val_append, e4, ← u1]; ring

theorem takeRemainder_spec {cfg : Cfg} {l r : Buffer} {shift R : Nat} {rem q : List Nat}
    (hl : l.OK cfg) (hr : r.OK cfg) (hs : shift < cfg.W) (h1 : l.words = rem ++ q)
    (h2 : rem.length = r.words.length) (h3 : val cfg.W rem = R * 2 ^ shift) :
    Returns (takeRemainder cfg.W l r shift) fun c => c.OK cfg ∧ val cfg.W c.words = R := by
  have hlw := hl.words
  unfold takeRemainder Buffer.len
  rw [h1] at hlw ⊢
  have e : ((rem ++ q).take r.words.length).drop 0 = rem := by rw [← h2]; simp
  rw [sliceR_ok (Nat.zero_le _) (by simp; omega), e]
  refine Returns.bind (P := fun s => s = rem) (returns_ok.mpr rfl) ?_
  intro _ hrem
  rw [hrem]
  refine Returns.bind (shrInPlace_spec hs (isWords_append.mp hlw).1) ?_
  rintro ⟨ws, low⟩ ⟨g1, g2, g3, g4⟩
  simp only at g1 g2 g3 g4 ⊢
  rw [h3] at g4
  have hlow : low = 0 := by
    have : (val cfg.W ws * 2 ^ shift + low) % 2 ^ shift = (R * 2 ^ shift) % 2 ^ shift := by rw [g4]
    rw [Nat.mul_add_mod_self_right, Nat.mul_mod_left, Nat.mod_eq_of_lt g3] at this
    exact this
  refine Returns.bind (returns_assertR hlow) ?_
  rintro _ -
  refine returns_ok.mpr ⟨hr.setWords g2 (by omega), ?_⟩
  rw [hlow, Nat.add_zero] at g4
  exact Nat.eq_of_mul_eq_mul_right (by positivity) g4

theorem Buffer.eraseFront_spec {cfg : Cfg} {b : Buffer} {x y : List Nat} {n : Nat} (h : b.OK cfg)
    (hx : b.words = x ++ y) (hn : x.length = n) :
    Returns (b.eraseFront n) fun c => c.OK cfg ∧ c.words = y := by
  have hw := h.words
  have hf := h.fits
  unfold Buffer.eraseFront Buffer.len
  rw [hx] at hw hf ⊢
  refine Returns.bind (returns_assertR (by simp; omega)) ?_
  rintro _ -
  have e : (x ++ y).drop n = y := by rw [← hn]; simp
  rw [e]
  simp only [List.length_append] at hf
  exact returns_ok.mpr ⟨⟨(isWords_append.mp hw).2, by simp only; omega⟩, rfl⟩

/-- A division result: quotient and remainder, or the documented panic. -/
def DivYields (cfg : Cfg) (x : R (UBig × UBig)) (a b : Nat) : Prop :=
  (b ≠ 0 → Returns x fun p => p.1.WF cfg ∧ p.2.WF cfg ∧ p.1.value cfg = a / b ∧ p.2.value cfg = a % b)
  ∧ (b = 0 → x = .error .divideByZero)

/-- The same for a single number `n`. -/
def DivYields1 (cfg : Cfg) (x : R UBig) (b n : Nat) : Prop :=
  (b ≠ 0 → Returns x fun p => p.WF cfg ∧ p.value cfg = n) ∧ (b = 0 → x = .error .divideByZero)

theorem DivYields.ok {cfg : Cfg} {x : R (UBig × UBig)} {a b : Nat} (hb : b ≠ 0)
    (h : Returns x fun p => p.1.WF cfg ∧ p.2.WF cfg ∧ p.1.value cfg = a / b ∧ p.2.value cfg = a % b) :
    DivYields cfg x a b := ⟨fun _ => h, fun h0 => absurd h0 hb⟩

theorem DivYields1.ok {cfg : Cfg} {x : R UBig} {b n : Nat} (hb : b ≠ 0)
    (h : Returns x fun p => p.WF cfg ∧ p.value cfg = n) :
    DivYields1 cfg x b n := ⟨fun _ => h, fun h0 => absurd h0 hb⟩

theorem DivYields.of_bind {α : Type} {cfg : Cfg} {x : R α} {f : α → R (UBig × UBig)} {a b : Nat}
    {P : α → Prop} (hx : Returns x P) (hf : ∀ v, P v → DivYields cfg (f v) a b) :
    DivYields cfg (x >>= f) a b := by
  obtain ⟨v, rfl, hv⟩ := hx
  exact hf v hv

theorem DivYields1.of_bind {α : Type} {cfg : Cfg} {x : R α} {f : α → R UBig} {a b : Nat}
    {P : α → Prop} (hx : Returns x P) (hf : ∀ v, P v → DivYields1 cfg (f v) a b) :
    DivYields1 cfg (x >>= f) a b := by
  obtain ⟨v, rfl, hv⟩ := hx
  exact hf v hv

theorem UBig.divRemLargeWord_spec {cfg : Cfg} (hv : cfg.Valid) {b : Buffer} (h : b.WF cfg) {w : Nat}
    (hw : w < base cfg.W) :
    DivYields cfg (UBig.divRemLargeWord cfg b w) (val cfg.W b.words) w := by
  unfold UBig.divRemLargeWord
  refine ⟨fun h0 => ?_, fun h0 => by rw [if_pos h0]⟩
  rw [if_neg h0]
  refine Returns.bind (divByWord_spec hv.W1 h0 hw h.words) ?_
  rintro ⟨ws, r⟩ ⟨g1, g2, g3, g4⟩
  simp only at g1 g2 g3 g4 ⊢
  have hq : val cfg.W ws = val cfg.W b.words / w := by
    rw [← g4, Nat.add_comm, Nat.add_mul_div_right _ _ (by omega), Nat.div_eq_of_lt g3]; simp
  have hr : r = val cfg.W b.words % w := by
    rw [← g4, Nat.mul_add_mod_self_right, Nat.mod_eq_of_lt g3]
  have hf : Fits cfg (val cfg.W ws) := by
    refine Fits.mono (UBig.WF.fits hv (a := .large b) h) ?_
    rw [hq]; exact Nat.div_le_self _ _
  refine Returns.bind ((yields_ofBuffer hv (h.ok.setWords g2 g1.le) rfl).returns hf) ?_
  rintro q ⟨q1, q2⟩
  exact returns_ok.mpr ⟨q1, wf_small (by omega), by rw [q2]; exact hq, hr⟩

theorem UBig.divLargeWord_spec {cfg : Cfg} (hv : cfg.Valid) {b : Buffer} (h : b.WF cfg) {w : Nat}
    (hw : w < base cfg.W) :
    DivYields1 cfg (UBig.divLargeWord cfg b w) w (val cfg.W b.words / w) := by
  obtain ⟨h1, h2⟩ := UBig.divRemLargeWord_spec hv h hw
  unfold UBig.divLargeWord
  refine ⟨fun h0 => ?_, fun h0 => by rw [h2 h0]; rfl⟩
  refine Returns.bind (h1 h0) ?_
  rintro ⟨q, r⟩ ⟨g1, g2, g3, g4⟩
  exact returns_ok.mpr ⟨g1, g3⟩

theorem UBig.remLargeWord_spec {cfg : Cfg} (hv : cfg.Valid) {b : Buffer} (h : b.WF cfg) {w : Nat}
    (hw : w < base cfg.W) :
    DivYields1 cfg (UBig.remLargeWord cfg b.words w) w (val cfg.W b.words % w) := by
  unfold UBig.remLargeWord
  refine ⟨fun h0 => ?_, fun h0 => by rw [if_pos h0]⟩
  rw [if_neg h0]
  refine Returns.bind (remByWord_spec hv.W1 h0 hw h.words) ?_
  rintro r hr
  have := Nat.mod_lt (val cfg.W b.words) (Nat.pos_of_ne_zero h0)
  exact returns_ok.mpr ⟨wf_small (by omega), hr⟩

theorem Buffer.WF.fits_value {cfg : Cfg} (hv : cfg.Valid) {b : Buffer} (h : b.WF cfg) :
    Fits cfg (val cfg.W b.words) := UBig.WF.fits hv (a := .large b) h

theorem UBig.divLarge_spec {cfg : Cfg} (hv : cfg.Valid) {a b : Buffer} (ha : a.WF cfg)
    (hb : b.WF cfg) (hl : b.words.length ≤ a.words.length) :
    Returns (UBig.divLarge cfg a b) fun c => c.WF cfg ∧
      c.value cfg = val cfg.W a.words / val cfg.W b.words := by
  unfold UBig.divLarge
  refine Returns.bind (UBig.divRemInLhs_spec hv ha hb hl) ?_
  rintro ⟨l, r, shift⟩ ⟨h1, h2, h3, rem, q, h4, h5, h6, h7⟩
  simp only at h1 h2 h3 h4 h5 h6 h7 ⊢
  refine Returns.bind (Buffer.eraseFront_spec h1 h4 h5) ?_
  rintro c ⟨c1, c2⟩
  refine (yields_ofBuffer hv c1 rfl).returns ?_ |>.mono ?_
  · rw [c2, h7]; exact Fits.mono (ha.fits_value hv) (Nat.div_le_self _ _)
  · rintro d ⟨d1, d2⟩
    exact ⟨d1, by rw [d2, c2, h7]⟩

theorem UBig.remLarge_spec {cfg : Cfg} (hv : cfg.Valid) {a b : Buffer} (ha : a.WF cfg)
    (hb : b.WF cfg) (hl : b.words.length ≤ a.words.length) :
    Returns (UBig.remLarge cfg a b) fun c => c.WF cfg ∧
      c.value cfg = val cfg.W a.words % val cfg.W b.words := by
  unfold UBig.remLarge
  refine Returns.bind (UBig.divRemInLhs_spec hv ha hb hl) ?_
  rintro ⟨l, r, shift⟩ ⟨h1, h2, h3, rem, q, h4, h5, h6, h7⟩
  simp only at h1 h2 h3 h4 h5 h6 h7 ⊢
  refine Returns.bind (takeRemainder_spec h1 h2 h3 h4 h5 h6) ?_
  rintro c ⟨c1, c2⟩
  refine (yields_ofBuffer hv c1 rfl).returns ?_ |>.mono ?_
  · rw [c2]; exact Fits.mono (ha.fits_value hv) (Nat.mod_le _ _)
  · rintro d ⟨d1, d2⟩
    exact ⟨d1, by rw [d2, c2]⟩

theorem UBig.divRemLarge_spec {cfg : Cfg} (hv : cfg.Valid) {a b : Buffer} (ha : a.WF cfg)
    (hb : b.WF cfg) (hl : b.words.length ≤ a.words.length) :
    Returns (UBig.divRemLarge cfg a b) fun p => p.1.WF cfg ∧ p.2.WF cfg ∧
      p.1.value cfg = val cfg.W a.words / val cfg.W b.words ∧
      p.2.value cfg = val cfg.W a.words % val cfg.W b.words := by
  unfold UBig.divRemLarge
  refine Returns.bind (UBig.divRemInLhs_spec hv ha hb hl) ?_
  rintro ⟨l, r, shift⟩ ⟨h1, h2, h3, rem, q, h4, h5, h6, h7⟩
  simp only at h1 h2 h3 h4 h5 h6 h7 ⊢
  refine Returns.bind (takeRemainder_spec h1 h2 h3 h4 h5 h6) ?_
  rintro c ⟨c1, c2⟩
  refine Returns.bind (Buffer.eraseFront_spec h1 h4 h5) ?_
  rintro d ⟨d1, d2⟩
  refine Returns.bind ((yields_ofBuffer hv d1 rfl).returns ?_) ?_
  · rw [d2, h7]; exact Fits.mono (ha.fits_value hv) (Nat.div_le_self _ _)
  rintro Q ⟨q1, q2⟩
  refine Returns.bind ((yields_ofBuffer hv c1 rfl).returns ?_) ?_
  · rw [c2]; exact Fits.mono (ha.fits_value hv) (Nat.mod_le _ _)
  rintro Rm ⟨r1, r2⟩
  exact returns_ok.mpr ⟨q1, r1, by rw [q2, d2, h7], by rw [r2, c2]⟩

theorem UBig.shorterRem_spec {cfg : Cfg} (hv : cfg.Valid) (o0 o1 : Own) {a b : Buffer}
    (ha : a.WF cfg) : Returns (UBig.shorterRem cfg o0 o1 a b) fun c => c.WF cfg ∧
      c.value cfg = val cfg.W a.words := by
  have h1 : Returns (UBig.ofBuffer cfg a) fun c => c.WF cfg ∧ c.value cfg = val cfg.W a.words :=
    (yields_ofBuffer hv ha.ok rfl).returns (ha.fits_value hv)
  cases o0 <;> cases o1
  · exact h1
  · exact h1
  · refine Returns.bind (Buffer.resizingCloneFrom_spec ha) ?_
    rintro c ⟨c1, c2⟩
    rw [← c2]
    exact (yields_ofBuffer hv c1.ok rfl).returns (c1.fits_value hv)
  · exact UBig.clone_spec (a := .large a) ha

theorem WF.lt_of_shorter {cfg : Cfg} {a b : Buffer} (ha : a.WF cfg) (hb : b.WF cfg)
    (h : a.words.length < b.words.length) : val cfg.W a.words < val cfg.W b.words :=
  lt_of_lt_of_le ha.lt (le_trans (Nat.pow_le_pow_right (base_pos _) (by omega)) hb.ge)

theorem UBig.div_spec {cfg : Cfg} (hv : cfg.Valid) (o0 o1 : Own) {a b : UBig} (ha : a.WF cfg)
    (hb : b.WF cfg) :
    DivYields1 cfg (UBig.div cfg o0 o1 a b) (b.value cfg) (a.value cfg / b.value cfg) := by
  cases a with
  | small v => cases b with
    | small w =>
      have hvb : v < base cfg.W := ha
      simp only [UBig.div, UBig.divWord, UBig.value]
      refine ⟨fun h0 => ?_, fun h0 => by rw [if_pos h0]⟩
      rw [if_neg h0]
      have := Nat.div_le_self v w
      exact returns_ok.mpr ⟨wf_small (by omega), rfl⟩
    | large b =>
      have h1 := Buffer.WF.ge_base hb
      have h2 : v < base cfg.W := ha
      simp only [UBig.div, UBig.value]
      refine DivYields1.ok (by have := base_pos cfg.W; omega) (returns_ok.mpr ⟨wf_zero cfg, ?_⟩)
      rw [Nat.div_eq_of_lt (by omega)]; rfl
  | large a => cases b with
    | small w =>
      simp only [UBig.div, UBig.value]
      refine DivYields1.of_bind (Buffer.own_spec' o0 ha) ?_
      rintro c ⟨c1, c2⟩
      rw [← c2]
      exact UBig.divLargeWord_spec hv c1 hb
    | large b =>
      have hb0 : val cfg.W b.words ≠ 0 := by
        have := Buffer.WF.ge_base hb; have := base_pos cfg.W; omega
      simp only [UBig.div, UBig.value]
      refine DivYields1.ok hb0 ?_
      by_cases hl : b.len ≤ a.len
      · rw [if_pos hl]; unfold Buffer.len at hl
        refine Returns.bind (Buffer.own_spec' o0 ha) ?_
        rintro c ⟨c1, c2⟩
        refine Returns.bind (Buffer.own_spec' o1 hb) ?_
        rintro d ⟨d1, d2⟩
        rw [← c2, ← d2] at hl ⊢
        exact UBig.divLarge_spec hv c1 d1 hl
      · rw [if_neg hl]; unfold Buffer.len at hl
        refine returns_ok.mpr ⟨wf_zero cfg, ?_⟩
        rw [Nat.div_eq_of_lt (WF.lt_of_shorter ha hb (by omega))]; rfl

theorem UBig.rem_spec {cfg : Cfg} (hv : cfg.Valid) (o0 o1 : Own) {a b : UBig} (ha : a.WF cfg)
    (hb : b.WF cfg) :
    DivYields1 cfg (UBig.rem cfg o0 o1 a b) (b.value cfg) (a.value cfg % b.value cfg) := by
  cases a with
  | small v => cases b with
    | small w =>
      have hvb : v < base cfg.W := ha
      simp only [UBig.rem, UBig.remWord, UBig.value]
      refine ⟨fun h0 => ?_, fun h0 => by rw [if_pos h0]⟩
      rw [if_neg h0]
      have := Nat.mod_le v w
      exact returns_ok.mpr ⟨wf_small (by omega), rfl⟩
    | large b =>
      have h1 := Buffer.WF.ge_base hb
      have h2 : v < base cfg.W := ha
      simp only [UBig.rem, UBig.value]
      refine DivYields1.ok (by have := base_pos cfg.W; omega) (returns_ok.mpr ⟨ha, ?_⟩)
      rw [Nat.mod_eq_of_lt (by omega)]; rfl
  | large a => cases b with
    | small w => exact UBig.remLargeWord_spec hv ha hb
    | large b =>
      have hb0 : val cfg.W b.words ≠ 0 := by
        have := Buffer.WF.ge_base hb; have := base_pos cfg.W; omega
      simp only [UBig.rem, UBig.value]
      refine DivYields1.ok hb0 ?_
      by_cases hl : b.len ≤ a.len
      · rw [if_pos hl]; unfold Buffer.len at hl
        refine Returns.bind (Buffer.own_spec' o0 ha) ?_
        rintro c ⟨c1, c2⟩
        refine Returns.bind (Buffer.own_spec' o1 hb) ?_
        rintro d ⟨d1, d2⟩
        rw [← c2, ← d2] at hl ⊢
        exact UBig.remLarge_spec hv c1 d1 hl
      · rw [if_neg hl]; unfold Buffer.len at hl
        rw [Nat.mod_eq_of_lt (WF.lt_of_shorter ha hb (by omega))]
        exact UBig.shorterRem_spec hv o0 o1 ha

theorem UBig.divRem_spec {cfg : Cfg} (hv : cfg.Valid) (o0 o1 : Own) {a b : UBig} (ha : a.WF cfg)
    (hb : b.WF cfg) :
    DivYields cfg (UBig.divRem cfg o0 o1 a b) (a.value cfg) (b.value cfg) := by
  cases a with
  | small v => cases b with
    | small w =>
      have hvb : v < base cfg.W := ha
      simp only [UBig.divRem, UBig.divRemWord, UBig.value]
      refine ⟨fun h0 => ?_, fun h0 => by rw [if_pos h0]⟩
      rw [if_neg h0]
      have := Nat.mod_le v w
      have := Nat.div_le_self v w
      exact returns_ok.mpr ⟨wf_small (by omega), wf_small (by omega), rfl, rfl⟩
    | large b =>
      have h1 := Buffer.WF.ge_base hb
      have h2 : v < base cfg.W := ha
      simp only [UBig.divRem, UBig.value]
      refine DivYields.ok (by have := base_pos cfg.W; omega) (returns_ok.mpr ⟨wf_zero cfg, ha, ?_, ?_⟩)
      · rw [Nat.div_eq_of_lt (by omega)]; rfl
      · rw [Nat.mod_eq_of_lt (by omega)]; rfl
  | large a => cases b with
    | small w =>
      simp only [UBig.divRem, UBig.value]
      refine DivYields.of_bind (Buffer.own_spec' o0 ha) ?_
      rintro c ⟨c1, c2⟩
      rw [← c2]
      exact UBig.divRemLargeWord_spec hv c1 hb
    | large b =>
      have hb0 : val cfg.W b.words ≠ 0 := by
        have := Buffer.WF.ge_base hb; have := base_pos cfg.W; omega
      simp only [UBig.divRem, UBig.value]
      refine DivYields.ok hb0 ?_
      by_cases hl : b.len ≤ a.len
      · rw [if_pos hl]; unfold Buffer.len at hl
        refine Returns.bind (Buffer.own_spec' o0 ha) ?_
        rintro c ⟨c1, c2⟩
        refine Returns.bind (Buffer.own_spec' o1 hb) ?_
        rintro d ⟨d1, d2⟩
        rw [← c2, ← d2] at hl ⊢
        exact UBig.divRemLarge_spec hv c1 d1 hl
      · rw [if_neg hl]; unfold Buffer.len at hl
        refine Returns.bind (UBig.shorterRem_spec hv o0 o1 ha) ?_
        rintro c ⟨c1, c2⟩
        have hlt := WF.lt_of_shorter ha hb (by omega)
        refine returns_ok.mpr ⟨wf_zero cfg, c1, ?_, ?_⟩
        · rw [Nat.div_eq_of_lt hlt]; rfl
        · rw [Nat.mod_eq_of_lt hlt]; exact c2

end Ibig
