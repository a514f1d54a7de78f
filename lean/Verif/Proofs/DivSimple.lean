import Verif.Model.Div
import Verif.Proofs.Mul
/-! Correctness of comparison and of schoolbook division (Knuth's algorithm D). -/
namespace Ibig

theorem lexCmp_reverse {W : Nat} {a b : List Nat} (ha : IsWords W a) (hb : IsWords W b)
    (hl : a.length = b.length) :
    lexCmp a.reverse b.reverse = compare (val W a) (val W b) := by
  induction a using List.reverseRecOn generalizing b with
  | nil =>
    have : b = [] := by simpa using hl.symm
    subst this; simp [lexCmp]
  | append_singleton a x ih =>
    rcases List.eq_nil_or_concat b with rfl | ⟨b, y, rfl⟩
    · simp at hl
    simp only [List.concat_eq_append] at *
    simp only [List.length_append, List.length_cons, List.length_nil, Nat.add_right_cancel_iff] at hl
    simp only [isWords_append, isWords_cons, isWords_nil, and_true] at ha hb
    have h := ih ha.1 hb.1 hl
    have la := val_lt ha.1
    have lb := val_lt hb.1
    rw [← hl] at lb
    simp only [List.reverse_append, List.reverse_cons, List.reverse_nil, List.nil_append,
      List.cons_append, lexCmp, val_append, val_cons, val_nil, mul_zero, add_zero, ← hl]
    split
    · rename_i hxy
      refine (Nat.compare_eq_lt.mpr ?_).symm
      have : base W ^ a.length * (x + 1) ≤ base W ^ a.length * y := Nat.mul_le_mul_left _ hxy
      linarith
    split
    · rename_i hxy
      refine (Nat.compare_eq_gt.mpr ?_).symm
      have : base W ^ a.length * (y + 1) ≤ base W ^ a.length * x := Nat.mul_le_mul_left _ hxy
      linarith
    · have hxy : x = y := by omega
      subst hxy
      rw [h]
      rcases lt_trichotomy (val W a) (val W b) with h | h | h
      · rw [Nat.compare_eq_lt.mpr h, Nat.compare_eq_lt.mpr (by omega)]
      · rw [Nat.compare_eq_eq.mpr h, Nat.compare_eq_eq.mpr (by omega)]
      · rw [Nat.compare_eq_gt.mpr h, Nat.compare_eq_gt.mpr (by omega)]

theorem cmpSameLen_spec {W : Nat} {a b : List Nat} (ha : IsWords W a) (hb : IsWords W b)
    (hl : a.length = b.length) : cmpSameLen a b = .ok (compare (val W a) (val W b)) := by
  unfold cmpSameLen
  rw [assertR_true hl, lexCmp_reverse ha hb hl]
  rfl

/-- `onSlice` on a list given as a concatenation. -/
theorem onSlice_append {α : Type} {f : List Nat → R (List Nat × α)} {a s b : List Nat} {i j : Nat}
    {P : List Nat × α → Prop} (hi : a.length = i) (hj : i + s.length = j)
    (hf : Returns (f s) P) :
    Returns (onSlice (a ++ s ++ b) i j f) fun r => ∃ s', r.1 = a ++ s' ++ b ∧ P (s', r.2) := by
  unfold onSlice
  have l1 : (a ++ s).length = j := by simp; omega
  have e1 : (a ++ s ++ b).take j = a ++ s := by
    rw [List.take_append_of_le_length (by omega), List.take_of_length_le (by omega)]
  have e2 : (a ++ s ++ b).drop j = b := by
    rw [List.drop_append_of_le_length (by omega), List.drop_of_length_le (by omega)]; rfl
  have e3 : (a ++ s).drop i = s := by
    rw [List.drop_append_of_le_length (by omega), List.drop_of_length_le (by omega)]; rfl
  have e4 : (a ++ s ++ b).take i = a := by
    rw [List.append_assoc, List.take_append_of_le_length (by omega), List.take_of_length_le (by omega)]
  rw [sliceR_ok (by omega) (by simp; omega), e1, e2, e3, e4]
  refine Returns.bind (P := fun t => t = s) (by simp) ?_
  intro t ht
  rw [ht]
  refine Returns.bind hf ?_
  rintro ⟨s', k⟩ hP
  simp only [returns_ok]
  exact ⟨s', rfl, hP⟩

theorem getR_append {a b : List Nat} {x i : Nat} (h : a.length = i) :
    getR (a ++ x :: b) i = .ok x := by
  subst h; simp [getR]

theorem setR_append {a b : List Nat} {x y i : Nat} (h : a.length = i) :
    setR (a ++ x :: b) i y = .ok (a ++ y :: b) := by
  subst h; simp [setR]

/-- The refinement loop computes `⌊[u1,u0... ] / [v1, v0]⌋`. -/
theorem refineQ_spec {W v0 v1 u2 : Nat} (hB : base W ≤ 2 * v0) (hv1 : v1 < base W)
    (hu2 : u2 < base W) : ∀ {q r u01 : Nat}, q * v0 + r = u01 → r < base W → q < base W →
    u01 * base W + u2 < (q + 1) * (v0 * base W + v1) →
    (refineQ W v0 v1 u2 q r) * (v0 * base W + v1) ≤ u01 * base W + u2 ∧
    u01 * base W + u2 < (refineQ W v0 v1 u2 q r + 1) * (v0 * base W + v1) ∧
    refineQ W v0 v1 u2 q r < base W := by
  intro q
  induction q with
  | zero =>
    intro r u01 h hr hq hlt
    simp only [refineQ]
    exact ⟨by simp, by simpa using hlt, hq⟩
  | succ q ih =>
    intro r u01 h hr hq hlt
    rw [refineQ]
    have e : (q + 1) * (v0 * base W + v1) + base W * r = u01 * base W + (q + 1) * v1 := by
      rw [← h]; ring
    unfold doubleWord
    split_ifs with hc hr2
    · · refine ih (r := r + v0) (by rw [← h]; ring) hr2 (by omega) ?_
        linarith
    · · refine ⟨?_, by linarith, by omega⟩
        have e2 : q * (v0 * base W + v1) + base W * (r + v0) = u01 * base W + q * v1 := by
          rw [← h]; ring
        have : base W * base W ≤ base W * (r + v0) := Nat.mul_le_mul_left _ (by omega)
        have : q * v1 ≤ base W * base W := Nat.mul_le_mul (by omega) hv1.le
        linarith
    · refine ⟨?_, hlt, hq⟩
      linarith

/-- The estimate of the next quotient word is exact or one too large (Knuth D, step D3).
`P` is `B^(n-2)`. -/
theorem estimateQ_spec {W : Nat} {fd : FastDivideNormalized} {v0 v1 u0 u1 u2 P ul vl : Nat}
    (hfd : fd.Valid W v0) (hB : base W ≤ 2 * v0) (hv0 : v0 < base W) (hv1 : v1 < base W)
    (hu0 : u0 < base W) (hu1 : u1 < base W) (hu2 : u2 < base W) (hul : ul < P) (hvl : vl < P)
    (htop : ((u0 * base W + u1) * base W + u2) * P + ul < base W * ((v0 * base W + v1) * P + vl)) :
    Returns (estimateQ W fd v0 v1 u0 u1 u2) fun q => q < base W ∧
      q * ((v0 * base W + v1) * P + vl) ≤ ((u0 * base W + u1) * base W + u2) * P + ul +
        ((v0 * base W + v1) * P + vl) ∧
      ((u0 * base W + u1) * base W + u2) * P + ul < (q + 1) * ((v0 * base W + v1) * P + vl) := by
  have hPpos : 0 < P := by omega
  unfold estimateQ
  split
  · rename_i hlt
    have hd : doubleWord W u1 u0 < v0 * base W := by
      unfold doubleWord
      have : base W * (u0 + 1) ≤ base W * v0 := Nat.mul_le_mul_left _ hlt
      linarith
    rw [FastDivideNormalized.divRem_spec hfd hd]
    refine Returns.bind (P := fun s => s = (doubleWord W u1 u0 / v0, doubleWord W u1 u0 % v0)) (by simp) ?_
    rintro _ rfl
    simp only [returns_ok]
    have hv0pos : 0 < v0 := by have := base_pos W; omega
    set U := doubleWord W u1 u0 with hU
    have hU' : U = u0 * base W + u1 := by simp [hU, doubleWord]; ring
    have hdm := Nat.div_add_mod U v0
    have hm := Nat.mod_lt U hv0pos
    have hq : U / v0 < base W := Nat.div_lt_of_lt_mul hd
    have := refineQ_spec (W := W) hB hv1 hu2 (q := U / v0) (r := U % v0) (u01 := U)
      (by linarith [Nat.mul_comm v0 (U / v0)]) (by omega) hq (by
        have : U + 1 ≤ (U / v0 + 1) * v0 := by
          rw [Nat.add_mul, Nat.mul_comm (U / v0)]; omega
        have := Nat.mul_le_mul_right (base W) this
        have e : (U / v0 + 1) * (v0 * base W + v1) = (U / v0 + 1) * v0 * base W + (U / v0 + 1) * v1 := by
          ring
        rw [e]
        linarith [Nat.zero_le ((U / v0 + 1) * v1)])
    rw [← hU']
    generalize refineQ W v0 v1 u2 (U / v0) (U % v0) = q at this ⊢
    obtain ⟨h1, h2, h3⟩ := this
    refine ⟨h3, ?_, ?_⟩
    · have a1 := Nat.mul_le_mul_right P h1
      have a2 : q * vl ≤ base W * P := Nat.mul_le_mul h3.le hvl.le
      have a3 : base W * P ≤ v0 * base W * P := by
        calc base W * P = 1 * (base W * P) := by ring
          _ ≤ v0 * (base W * P) := Nat.mul_le_mul_right _ hv0pos
          _ = _ := by ring
      have e : q * ((v0 * base W + v1) * P + vl) = q * (v0 * base W + v1) * P + q * vl := by ring
      rw [e]
      have e2 : (v0 * base W + v1) * P = v0 * base W * P + v1 * P := by ring
      rw [e2]
      linarith [Nat.zero_le ul, Nat.zero_le (v1 * P), Nat.zero_le vl]
    · have a1 : (U * base W + u2 + 1) * P ≤ (q + 1) * (v0 * base W + v1) * P := Nat.mul_le_mul_right P h2
      have e : (q + 1) * ((v0 * base W + v1) * P + vl) = (q + 1) * (v0 * base W + v1) * P + (q + 1) * vl := by
        ring
      rw [e]
      have e1 : (U * base W + u2 + 1) * P = (U * base W + u2) * P + P := by ring
      rw [e1] at a1
      have := Nat.zero_le ((q + 1) * vl)
      omega
  · rename_i hge
    simp only [returns_ok]
    have hBpos := base_pos W
    obtain ⟨b, hb⟩ : ∃ b, base W = b + 1 := ⟨base W - 1, by omega⟩
    refine ⟨by omega, ?_, ?_⟩
    · have a1 : v0 * base W * base W * P ≤ u0 * base W * base W * P := by
        have : v0 ≤ u0 := by omega
        gcongr
      have a2 : ((v0 * base W + v1) * P + vl) ≤ (v0 + 1) * base W * P := by
        have : v1 * P + P ≤ base W * P := by
          rw [← Nat.succ_mul]; exact Nat.mul_le_mul_right P hv1
        have e : (v0 + 1) * base W * P = v0 * base W * P + base W * P := by ring
        have e2 : (v0 * base W + v1) * P = v0 * base W * P + v1 * P := by ring
        omega
      have e : (base W - 1) = b := by omega
      rw [e]
      -- (B-2)·v ≤ u
      rcases Nat.eq_zero_or_pos b with h0 | h0
      · rw [h0]; simp
      obtain ⟨c, hc⟩ : ∃ c, b = c + 1 := ⟨b - 1, by omega⟩
      have a3 : c * ((v0 * base W + v1) * P + vl) ≤ c * ((v0 + 1) * base W * P) :=
        Nat.mul_le_mul_left _ a2
      have a4 : c * (v0 + 1) ≤ v0 * base W := by
        have : base W = c + 2 := by omega
        rw [this]
        have : c ≤ 2 * v0 := by omega
        nlinarith
      have a5 : c * ((v0 + 1) * base W * P) ≤ v0 * base W * base W * P := by
        calc c * ((v0 + 1) * base W * P) = (c * (v0 + 1)) * (base W * P) := by ring
          _ ≤ (v0 * base W) * (base W * P) := Nat.mul_le_mul_right _ a4
          _ = _ := by ring
      have e3 : ((u0 * base W + u1) * base W + u2) * P
          = u0 * base W * base W * P + (u1 * base W + u2) * P := by ring
      rw [e3, hc, Nat.succ_mul]
      linarith [Nat.zero_le ul, Nat.zero_le ((u1 * base W + u2) * P)]
    · rw [show base W - 1 + 1 = base W by omega]
      exact htop

/-- Steps D5-D6: after subtracting, fix an estimate that was one too large. -/
theorem correctQ_spec {W : Nat} {lo w w' rhs hi : List Nat} {i j q borrow u0 : Nat}
    (hi1 : lo.length = i) (hj : i + w.length = j) (hw : IsWords W w')
    (hrhs : IsWords W rhs) (hl : w.length = rhs.length) (hq : q < base W)
    (h : AddSpec W w w' (-(borrow : Int)) (-((q : Int) * val W rhs)))
    (h1 : q * val W rhs ≤ val W w + u0 * base W ^ w.length + val W rhs)
    (h2 : val W w + u0 * base W ^ w.length < (q + 1) * val W rhs) :
    Returns (correctQ W (lo ++ w' ++ hi) rhs i j q borrow u0) fun r => ∃ w'',
      r.1 = lo ++ w'' ++ hi ∧ w''.length = w.length ∧ IsWords W w'' ∧ r.2 < base W ∧
      val W w'' < val W rhs ∧ r.2 * val W rhs + val W w'' = val W w + u0 * base W ^ w.length := by
  have hv := val_lt hrhs
  have hw' := val_lt hw
  have lw := h.len
  rw [lw] at hw'
  rw [← hl] at hv
  have e : val W w' + q * val W rhs = val W w + borrow * base W ^ w.length := by
    have e := h.eq
    zify
    linear_combination e
  have hPp := base_pow_pos W w.length
  unfold correctQ
  split
  · rename_i hlt
    -- borrow = u0 + 1
    have hb : borrow = u0 + 1 := by
      by_contra hne
      have : u0 + 2 ≤ borrow := by omega
      have := Nat.mul_le_mul_right (base W ^ w.length) this
      have e2 : (u0 + 2) * base W ^ w.length = u0 * base W ^ w.length + 2 * base W ^ w.length := by ring
      omega
    have hq1 : 1 ≤ q := by
      rcases Nat.eq_zero_or_pos q with h0 | h0
      · subst h0; subst hb
        have e2 : (u0 + 1) * base W ^ w.length = u0 * base W ^ w.length + base W ^ w.length := by ring
        simp only [zero_mul, add_zero] at e
        omega
      · exact h0
    refine Returns.bind (P := fun s => s = q - 1) (by simp [ckSub, hq1]) ?_
    rintro _ rfl
    refine Returns.bind (onSlice_append hi1 (by rw [lw]; exact hj)
      (addSameLen_spec hw hrhs (lw.trans hl))) ?_
    rintro ⟨l, c⟩ ⟨w'', rfl, hs⟩
    simp only at hs ⊢
    have e3 : val W w'' + c.toNat * base W ^ w.length = val W w' + val W rhs := by
      have e := hs.eq
      rw [lw] at e
      zify
      linear_combination e
    have l3 := val_lt hs.words
    rw [hs.len, lw] at l3
    subst hb
    obtain ⟨q', rfl⟩ : ∃ q', q = q' + 1 := ⟨q - 1, by omega⟩
    have e4 : (u0 + 1) * base W ^ w.length = u0 * base W ^ w.length + base W ^ w.length := by ring
    have e5 : (q' + 1) * val W rhs = q' * val W rhs + val W rhs := by ring
    have hc : c = true := by
      cases c with
      | true => rfl
      | false =>
        simp only [Bool.toNat_false, zero_mul, add_zero] at e3
        omega
    subst hc
    simp only [Bool.toNat_true, one_mul] at e3
    refine Returns.bind (returns_assertR rfl) ?_
    rintro _ -
    refine Returns.bind (P := fun s => s = u0) (by simp [ckSub]) ?_
    intro b hb
    rw [hb]
    refine Returns.bind (returns_assertR rfl) ?_
    rintro _ -
    simp only [returns_ok, Nat.add_sub_cancel]
    refine ⟨w'', rfl, by rw [hs.len, lw], hs.words, by omega, ?_, by omega⟩
    omega
  · rename_i hlt
    have hb : borrow = u0 := by
      by_contra hne
      have : borrow + 1 ≤ u0 := by omega
      have := Nat.mul_le_mul_right (base W ^ w.length) this
      have e2 : (borrow + 1) * base W ^ w.length = borrow * base W ^ w.length + base W ^ w.length := by ring
      have e5 : (q + 1) * val W rhs = q * val W rhs + val W rhs := by ring
      omega
    refine Returns.bind (returns_assertR hb) ?_
    rintro _ -
    simp only [returns_ok]
    subst hb
    have e5 : (q + 1) * val W rhs = q * val W rhs + val W rhs := by ring
    refine ⟨w', rfl, lw, hw, hq, by omega, by omega⟩

theorem exists_snoc {l : List Nat} {n : Nat} (h : l.length = n + 1) :
    ∃ t x, l = t ++ [x] ∧ t.length = n := by
  rcases List.eq_nil_or_concat l with rfl | ⟨t, x, rfl⟩
  · simp at h
  · exact ⟨t, x, by simp, by simpa using h⟩

theorem exists_snoc3 {l : List Nat} {n : Nat} (h : l.length = n + 3) :
    ∃ t x y z, l = t ++ [x, y, z] ∧ t.length = n := by
  obtain ⟨t, z, rfl, h1⟩ := exists_snoc h
  obtain ⟨t, y, rfl, h2⟩ := exists_snoc h1
  obtain ⟨t, x, rfl, h3⟩ := exists_snoc h2
  exact ⟨t, x, y, z, by simp, h3⟩

theorem simpleDivLoop_spec {W : Nat} {fd : FastDivideNormalized} {rl : List Nat} {v0 v1 : Nat}
    (hr : IsWords W (rl ++ [v1, v0])) (hB : base W ≤ 2 * v0) (hfd : fd.Valid W v0) :
    ∀ {k : Nat} {lo s hi : List Nat}, lo.length = k → s.length = rl.length + 2 → IsWords W lo →
    IsWords W s → val W s < val W (rl ++ [v1, v0]) →
    Returns (simpleDivLoop W fd (rl ++ [v1, v0]) v0 v1 k (lo ++ s ++ hi)) fun l => ∃ rem q,
      l = rem ++ q ++ hi ∧ rem.length = rl.length + 2 ∧ q.length = k ∧ IsWords W rem ∧
      IsWords W q ∧ val W rem < val W (rl ++ [v1, v0]) ∧
      val W q * val W (rl ++ [v1, v0]) + val W rem = val W (lo ++ s) := by
  intro k
  induction k with
  | zero =>
    intro lo s hi hlo hs wlo ws hlt
    have : lo = [] := List.length_eq_zero_iff.mp hlo
    subst this
    simp only [simpleDivLoop, returns_ok]
    exact ⟨s, [], by simp, hs, rfl, ws, by simp, hlt, by simp⟩
  | succ k ih =>
    intro lo s hi hlo0 hs wlo ws hlt
    obtain ⟨lo, x, rfl, hlo⟩ := exists_snoc hlo0
    obtain ⟨t, u2, u1, u0, ht, lt⟩ := exists_snoc3 (l := x :: s) (n := rl.length) (by simp [hs])
    have hl : lo ++ [x] ++ s ++ hi = (lo ++ (t ++ [u2, u1])) ++ u0 :: hi := by
      have : lo ++ [x] ++ s ++ hi = lo ++ (x :: s) ++ hi := by simp
      rw [this, ht]; simp
    simp only [isWords_append, isWords_cons, isWords_nil, and_true] at hr wlo
    have wt : IsWords W (t ++ [u2, u1, u0]) := by
      rw [← ht]; simp only [isWords_cons]; exact ⟨wlo.2, ws⟩
    simp only [isWords_append, isWords_cons, isWords_nil, and_true] at wt
    have hval : val W (t ++ [u2, u1, u0]) < base W * val W (rl ++ [v1, v0]) := by
      rw [← ht, val_cons]
      have := Nat.mul_le_mul_left (base W) hlt
      rw [Nat.mul_succ] at this
      omega
    have htot : val W (lo ++ [x] ++ s) = val W lo + base W ^ k * val W (t ++ [u2, u1, u0]) := by
      rw [← ht, List.append_assoc, val_append, hlo]; rfl
    rw [htot]
    have ev : val W (t ++ [u2, u1, u0])
        = ((u0 * base W + u1) * base W + u2) * base W ^ rl.length + val W t := by
      simp only [val_append, val_cons, val_nil, lt]; ring
    have evr : val W (rl ++ [v1, v0]) = (v0 * base W + v1) * base W ^ rl.length + val W rl := by
      simp only [val_append, val_cons, val_nil]; ring
    have ew : val W (t ++ [u2, u1, u0])
        = val W (t ++ [u2, u1]) + u0 * base W ^ (t ++ [u2, u1]).length := by
      simp only [val_append, val_cons, val_nil, List.length_append, List.length_cons,
        List.length_nil, lt]; ring
    simp only [simpleDivLoop]
    have ln : (rl ++ [v1, v0]).length = rl.length + 2 := by simp
    rw [ln]
    have i1 : k + 1 + (rl.length + 2) - 1 = k + (rl.length + 2) := by omega
    have i2 : k + 1 + (rl.length + 2) - 2 = k + (rl.length + 1) := by omega
    have i3 : k + 1 + (rl.length + 2) - 3 = k + rl.length := by omega
    have i4 : k + (rl.length + 2) - (rl.length + 2) = k := by omega
    rw [i1, i2, i3, i4, hl]
    have g0 : getR (lo ++ (t ++ [u2, u1]) ++ u0 :: hi) (k + (rl.length + 2)) = .ok u0 :=
      getR_append (by simp [hlo, lt])
    have g1 : getR (lo ++ (t ++ [u2, u1]) ++ u0 :: hi) (k + (rl.length + 1)) = .ok u1 := by
      have : lo ++ (t ++ [u2, u1]) ++ u0 :: hi = (lo ++ t ++ [u2]) ++ u1 :: u0 :: hi := by simp
      rw [this]; exact getR_append (by simp [hlo, lt, Nat.add_assoc])
    have g2 : getR (lo ++ (t ++ [u2, u1]) ++ u0 :: hi) (k + rl.length) = .ok u2 := by
      have : lo ++ (t ++ [u2, u1]) ++ u0 :: hi = (lo ++ t) ++ u2 :: u1 :: u0 :: hi := by simp
      rw [this]; exact getR_append (by simp [hlo, lt])
    rw [g0, g1, g2]
    refine Returns.bind (P := fun a => a = u0) (by simp) ?_
    intro a ha; rw [ha]
    refine Returns.bind (P := fun a => a = u1) (by simp) ?_
    intro a ha; rw [ha]
    refine Returns.bind (P := fun a => a = u2) (by simp) ?_
    intro a ha; rw [ha]
    have vt := val_lt wt.1
    rw [lt] at vt
    refine Returns.bind (estimateQ_spec (P := base W ^ rl.length) (ul := val W t) (vl := val W rl)
      hfd hB hr.2.2 hr.2.1 wt.2.2.2 wt.2.2.1 wt.2.1 vt (val_lt hr.1) (by rw [← ev, ← evr]; exact hval)) ?_
    rintro q ⟨q1, q2, q3⟩
    rw [← ev, ← evr] at q2 q3
    have wr : IsWords W (rl ++ [v1, v0]) := by
      simp only [isWords_append, isWords_cons, isWords_nil, and_true]; exact hr
    have ww : IsWords W (t ++ [u2, u1]) := by
      simp only [isWords_append, isWords_cons, isWords_nil, and_true]; exact ⟨wt.1, wt.2.1, wt.2.2.1⟩
    have lw : (t ++ [u2, u1]).length = rl.length + 2 := by simp [lt]
    refine Returns.bind (onSlice_append hlo (by rw [lw]) (subMulWordSameLen_spec q1 ww wr (by rw [lw, ln]))) ?_
    rintro ⟨l, borrow⟩ ⟨w', rfl, hs', hb⟩
    simp only at hs' hb ⊢
    refine Returns.bind (correctQ_spec hlo (by rw [lw]) hs'.words wr (by rw [lw, ln]) q1 hs'
      (by rw [← ew]; exact q2) (by rw [← ew]; exact q3)) ?_
    rintro ⟨l, q'⟩ ⟨w'', rfl, l'', ww'', hq', hlt', heq'⟩
    simp only at hq' heq' ⊢
    have : setR (lo ++ w'' ++ u0 :: hi) (k + (rl.length + 2)) q' = .ok (lo ++ w'' ++ q' :: hi) :=
      setR_append (by simp [hlo, l'', lt])
    rw [this]
    refine Returns.bind (P := fun a => a = lo ++ w'' ++ q' :: hi) (by simp) ?_
    intro a ha; rw [ha]
    refine (ih hlo (l''.trans lw) wlo.1 ww'' hlt').mono ?_
    rintro l ⟨rem, qq, rfl, h1, h2, h3, h4, h5, h6⟩
    refine ⟨rem, qq ++ [q'], by simp, h1, by simp [h2], h3, by simp [h4, hq'], h5, ?_⟩
    rw [ew, ← heq', val_append W qq, h2]
    rw [val_append W lo, hlo] at h6
    simp only [val_cons W q', val_nil, mul_zero, add_zero]
    linear_combination h6

/-- Quotient and remainder as left by the in-place division routines: `l = rem ++ q`. -/
def DivResult (W : Nat) (lhs rhs : List Nat) (l : List Nat) (o : Bool) : Prop :=
  ∃ rem q, l = rem ++ q ∧ rem.length = rhs.length ∧ l.length = lhs.length ∧ IsWords W rem ∧
    IsWords W q ∧ val W rem < val W rhs ∧
    (val W q + o.toNat * base W ^ q.length) * val W rhs + val W rem = val W lhs

/-- A divisor whose top word is normalised, together with its reciprocal. -/
structure NormDiv (W : Nat) (rhs : List Nat) (fd : FastDivideNormalized) (rl : List Nat) (v1 v0 : Nat) :
    Prop where
  eq : rhs = rl ++ [v1, v0]
  words : IsWords W rhs
  norm : base W ≤ 2 * v0
  valid : fd.Valid W v0

theorem NormDiv.val_ge {W : Nat} {rhs : List Nat} {fd : FastDivideNormalized} {rl : List Nat}
    {v1 v0 : Nat} (h : NormDiv W rhs fd rl v1 v0) : base W ^ rhs.length ≤ 2 * val W rhs := by
  obtain ⟨rfl, hw, hn, -⟩ := h
  simp only [val_append, val_cons, val_nil, List.length_append, List.length_cons, List.length_nil]
  have : base W ^ (rl.length + 2) = base W ^ rl.length * base W * base W := by ring
  simp only [Nat.zero_add, Nat.reduceAdd, this]
  have := Nat.mul_le_mul_left (base W ^ rl.length * base W) hn
  have e : base W ^ rl.length * base W * (2 * v0) = 2 * (base W ^ rl.length * (base W * v0)) := by ring
  have e2 : base W ^ rl.length * (v1 + base W * (v0 + base W * 0))
      = base W ^ rl.length * v1 + base W ^ rl.length * (base W * v0) := by ring
  rw [e2]
  have := Nat.zero_le (base W ^ rl.length * v1)
  have := Nat.zero_le (val W rl)
  omega

theorem simpleDivTop_spec {W : Nat} {lo s rhs : List Nat} (hs : IsWords W s)
    (hr : IsWords W rhs) (hl : s.length = rhs.length) (hn : base W ^ rhs.length ≤ 2 * val W rhs) :
    Returns (simpleDivTop W (lo ++ s) rhs) fun r => ∃ s', r.1 = lo ++ s' ∧ IsWords W s' ∧
      s'.length = s.length ∧ val W s' < val W rhs ∧
      val W s = val W s' + r.2.toNat * val W rhs := by
  unfold simpleDivTop
  have e1 : (lo ++ s).length - rhs.length = lo.length := by simp; omega
  rw [e1, sliceR_ok (by simp) (le_refl _)]
  have e2 : ((lo ++ s).take (lo ++ s).length).drop lo.length = s := by
    rw [List.take_length, List.drop_left]
  rw [e2]
  refine Returns.bind (P := fun t => t = s) (by simp) ?_
  intro t ht; rw [ht]
  rw [cmpSameLen_spec hs hr hl]
  refine Returns.bind (P := fun t => t = compare (val W s) (val W rhs)) (by simp) ?_
  rintro _ rfl
  split
  · rename_i h
    have h := Nat.compare_eq_lt.mp h
    simp only [returns_ok]
    exact ⟨s, rfl, hs, rfl, h, by simp⟩
  · rename_i h
    have hge : val W rhs ≤ val W s := by
      by_contra hc; exact h (Nat.compare_eq_lt.mpr (by omega))
    have h3 := onSlice_append (f := fun s => subSameLen W s rhs) (a := lo) (s := s) (b := []) (i := lo.length) (j := (lo ++ s).length)
      rfl (by simp) (subSameLen_spec hs hr hl)
    rw [List.append_nil] at h3
    refine Returns.bind h3 ?_
    rintro ⟨l, o⟩ ⟨s', rfl, hs'⟩
    simp only at hs' ⊢
    have h0 : (-(o.toNat : Int)) = 0 := hs'.carry_zero (by
        have : (val W rhs : Int) ≤ val W s := by exact_mod_cast hge
        linarith) (by
        have := val_lt hs
        zify at this
        have : (0 : Int) ≤ val W rhs := Int.natCast_nonneg _
        linarith)
    have e := hs'.eq_of_carry_zero h0
    have : o = false := by cases o <;> simp_all
    subst this
    refine Returns.bind (returns_assertR rfl) ?_
    rintro _ -
    simp only [returns_ok]
    refine ⟨s', by simp, hs'.words, hs'.len, ?_, ?_⟩
    · have := val_lt hs
      rw [hl] at this
      omega
    · simp only [Bool.toNat_true, one_mul]; omega

theorem simpleDivRem_spec {W : Nat} {lhs rhs rl : List Nat} {v1 v0 : Nat} {fd : FastDivideNormalized}
    (hl : IsWords W lhs) (hr : NormDiv W rhs fd rl v1 v0) (hle : rhs.length ≤ lhs.length) :
    Returns (simpleDivRem W lhs rhs fd) fun r => DivResult W lhs rhs r.1 r.2 := by
  have hge := hr.val_ge
  obtain ⟨he, hw, hn, hv⟩ := hr
  have ln : rhs.length = rl.length + 2 := by rw [he]; simp
  unfold simpleDivRem
  refine Returns.bind (returns_assertR (by omega)) ?_
  rintro _ -
  have g0 : getR rhs (rhs.length - 1) = .ok v0 := by
    have : rhs = (rl ++ [v1]) ++ v0 :: [] := by rw [he]; simp
    rw [ln, this]; exact getR_append (by simp)
  have g1 : getR rhs (rhs.length - 2) = .ok v1 := by
    rw [ln, he]; exact getR_append (by simp)
  rw [g0, g1]
  refine Returns.bind (P := fun a => a = v0) (by simp) ?_
  intro a ha; rw [ha]
  refine Returns.bind (P := fun a => a = v1) (by simp) ?_
  intro a ha; rw [ha]
  refine Returns.bind (returns_assertR hle) ?_
  rintro _ -
  obtain ⟨lo, s, rfl, hs⟩ : ∃ lo s, lhs = lo ++ s ∧ s.length = rhs.length :=
    ⟨lhs.take (lhs.length - rhs.length), lhs.drop (lhs.length - rhs.length), by simp, by
      rw [List.length_drop]; omega⟩
  simp only [isWords_append] at hl
  refine Returns.bind (simpleDivTop_spec hl.2 hw hs hge) ?_
  rintro ⟨l, o⟩ ⟨s', rfl, ws', ls', hlt, e⟩
  simp only at e ⊢
  have e1 : (lo ++ s').length - rhs.length = lo.length := by simp; omega
  rw [e1]
  have := simpleDivLoop_spec (W := W) (fd := fd) (rl := rl) (v0 := v0) (v1 := v1) (he ▸ hw) hn hv
    (k := lo.length) (lo := lo) (s := s') (hi := []) rfl (by omega) hl.1 ws' (he ▸ hlt)
  rw [List.append_nil, ← he] at this
  refine Returns.bind this ?_
  rintro l ⟨rem, q, rfl, h1, h2, h3, h4, h5, h6⟩
  simp only [returns_ok, List.append_nil]
  refine ⟨rem, q, rfl, by omega, by simp; omega, h3, h4, h5, ?_⟩
  rw [val_append, h2, e]
  rw [val_append] at h6
  linear_combination h6

end Ibig
