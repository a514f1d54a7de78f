import Verif.Proofs.DivSimple
/-! Correctness of divide-and-conquer division, with the declared scratch memory. -/
namespace Ibig

/-- `f` divides an `n + m`-word number by a normalised `n`-word number (top word inverse `fd`). -/
def DivFnOK (W : Nat) (fd : FastDivideNormalized) (f : List Nat → List Nat → R (List Nat × Bool))
    (n m : Nat) : Prop :=
  ∀ lhs rhs rl v1 v0, IsWords W lhs → NormDiv W rhs fd rl v1 v0 → rhs.length = n →
    lhs.length = n + m → Returns (f lhs rhs) fun r => DivResult W lhs rhs r.1 r.2

theorem dcSameLen_ok {W n : Nat} {fd : FastDivideNormalized}
    {small : List Nat → List Nat → R (List Nat × Bool)} (hn : divMaxLenSimple < n)
    (h1 : DivFnOK W fd small n (n - n / 2)) (h2 : DivFnOK W fd small n (n / 2)) :
    DivFnOK W fd (dcSameLen small) n n := by
  intro lhs rhs rl v1 v0 wl hr ln ll
  unfold dcSameLen
  refine Returns.bind (returns_assertR ⟨by omega, by omega⟩) ?_
  rintro _ -
  obtain ⟨lo, hi, rfl, hlo⟩ : ∃ lo hi, lhs = lo ++ hi ∧ lo.length = n / 2 :=
    ⟨lhs.take (n / 2), lhs.drop (n / 2), by simp, by rw [List.length_take]; omega⟩
  simp only [isWords_append] at wl
  rw [List.length_append] at ll
  have a := onSlice_append (f := fun s => small s rhs) (a := lo) (s := hi) (b := []) (i := n / 2)
    (j := (lo ++ hi).length) hlo (by rw [List.length_append]; omega)
    (h1 hi rhs rl v1 v0 wl.2 hr ln (by omega))
  rw [List.append_nil] at a
  rw [ln]
  refine Returns.bind a ?_
  rintro ⟨l, o⟩ ⟨s', rfl, rem, q, hs', lrem, ls', wrem, wq, hlt, e⟩
  simp only at hs' ls' e ⊢
  subst hs'
  rw [List.append_nil, ← List.append_assoc]
  rw [List.length_append] at ls'
  have b := onSlice_append (f := fun s => small s rhs) (a := []) (s := lo ++ rem) (b := q) (i := 0)
    (j := n + n / 2) rfl (by rw [List.length_append]; omega)
    (h2 (lo ++ rem) rhs rl v1 v0 (by simp [wl.1, wrem]) hr ln (by rw [List.length_append]; omega))
  rw [List.nil_append] at b
  refine Returns.bind b ?_
  rintro ⟨l2, o2⟩ ⟨s2, rfl, rem2, q2, hs2, lrem2, ls2, wrem2, wq2, hlt2, e2⟩
  simp only at hs2 ls2 e2 ⊢
  subst hs2
  simp only [List.length_append] at ls2
  have lq2 : q2.length = n / 2 := by omega
  rw [val_append, hlo] at e2
  have ho2 : o2 = false := by
    cases o2 with
    | false => rfl
    | true =>
      exfalso
      simp only [Bool.toNat_true, one_mul] at e2
      have := val_lt wl.1
      rw [hlo] at this
      have h3 := Nat.mul_le_mul_left (base W ^ (n / 2)) (Nat.succ_le_of_lt hlt)
      rw [lq2] at e2
      rw [Nat.mul_succ] at h3
      have e3 : (val W q2 + base W ^ (n / 2)) * val W rhs
        = val W q2 * val W rhs + base W ^ (n / 2) * val W rhs := by ring
      rw [e3] at e2
      have := Nat.zero_le (val W q2 * val W rhs)
      omega
  subst ho2
  refine Returns.bind (returns_assertR rfl) ?_
  rintro _ -
  simp only [returns_ok, List.nil_append]
  refine ⟨rem2, q2 ++ q, by simp, by omega, by simp only [List.length_append]; omega, wrem2,
    by simp [wq, wq2], hlt2, ?_⟩
  simp only [Bool.toNat_false, zero_mul, add_zero] at e2
  rw [val_append, val_append, hlo, ← e, List.length_append, lq2, pow_add]
  linear_combination e2

theorem dcFixLoop_spec {W : Nat} {rhs : List Nat} (hW : 4 ≤ W) (hr : IsWords W rhs) :
    ∀ {f : Nat} {rem q : List Nat} {ro qo : Int}, IsWords W rem → IsWords W q →
    rem.length = rhs.length → (val W rem : Int) + ro * (base W : Int) ^ rhs.length < val W rhs →
    -((f : Int) * val W rhs) ≤ (val W rem : Int) + ro * (base W : Int) ^ rhs.length →
    -2 ≤ ro → (f : Int) - 7 ≤ qo → qo ≤ 1 →
    Returns (dcFixLoop W rhs (f + 1) rem q ro qo) fun r => r.1.length = rhs.length ∧
      IsWords W r.1 ∧ r.2.1.length = q.length ∧ IsWords W r.2.1 ∧ r.2.2.1 = 0 ∧
      val W r.1 < val W rhs ∧
      ((val W r.2.1 : Int) + r.2.2.2 * (base W : Int) ^ q.length) * val W rhs + val W r.1
      = (val W q + qo * (base W : Int) ^ q.length) * val W rhs +
        (val W rem + ro * (base W : Int) ^ rhs.length) := by
  intro f
  induction f with
  | zero =>
    intro rem q ro qo wr wq hl h1 h2 hro0 hqo0 hqo1
    unfold dcFixLoop
    have hv := val_lt hr
    have hw := val_lt wr
    rw [hl] at hw
    zify at hv hw
    have hv0 : (0 : Int) ≤ val W rhs := Int.natCast_nonneg _
    have hw0 : (0 : Int) ≤ val W rem := Int.natCast_nonneg _
    simp only [Nat.cast_zero, zero_mul, neg_zero] at h2
    have hro : ro = 0 := by
      by_contra hne
      rcases lt_or_gt_of_ne hne with h | h <;> nlinarith
    subst hro
    simp only [lt_irrefl, if_false, returns_ok]
    simp only [zero_mul, add_zero] at h1 ⊢
    exact ⟨hl, wr, trivial, wq, trivial, by exact_mod_cast h1, trivial⟩
  | succ f ih =>
    intro rem q ro qo wr wq hl h1 h2 hro0 hqo0 hqo1
    unfold dcFixLoop
    have hv := val_lt hr
    have hw := val_lt wr
    rw [hl] at hw
    zify at hv hw
    have hv0 : (0 : Int) ≤ val W rhs := Int.natCast_nonneg _
    have hw0 : (0 : Int) ≤ val W rem := Int.natCast_nonneg _
    split
    · rename_i hneg
      refine Returns.bind (addSameLen_spec wr hr hl) ?_
      rintro ⟨rem', c⟩ hs
      have e := hs.eq
      have l := hs.len
      have w := hs.words
      simp only at e l w ⊢
      rw [hl] at e l
      have hq := subOne_spec wq
      have eq := hq.eq
      have lq := hq.len
      have wq' := hq.words
      generalize subOne W q = qq at *
      obtain ⟨q', b⟩ := qq
      simp only at eq lq wq' ⊢
      have key : (val W rem' : Int) + (ro + c.toNat) * (base W : Int) ^ rhs.length
          = val W rem + ro * (base W : Int) ^ rhs.length + val W rhs := by linear_combination e
      have hT : (val W rem : Int) + ro * (base W : Int) ^ rhs.length < 0 := by nlinarith
      have hbc := Bool.toNat_le c
      have hbb := Bool.toNat_le b
      push_cast at hqo0
      refine Returns.bind (returns_ckInt hW (by omega)) ?_
      rintro _ rfl
      refine Returns.bind (returns_ckInt hW (by omega)) ?_
      rintro _ rfl
      refine (ih (rem := rem') (q := q') (ro := ro + c.toNat) (qo := qo - b.toNat) w wq' l ?_ ?_ (by omega)
        (by omega) (by omega)).mono ?_
      · rw [key]; linarith
      · rw [key]; push_cast at h2; linarith
      · rintro ⟨r1, r2, r3, r4⟩ ⟨a1, a2, a3, a4, a5, a6, a7⟩
        simp only at a1 a2 a3 a4 a5 a6 a7 ⊢
        refine ⟨a1, a2, a3.trans lq, a4, a5, a6, ?_⟩
        rw [lq] at a7
        rw [a7]
        linear_combination key + (val W rhs : Int) * eq
    · rename_i hneg
      have hro : ro = 0 := by
        by_contra hne
        have : 1 ≤ ro := by omega
        nlinarith
      subst hro
      simp only [returns_ok]
      simp only [zero_mul, add_zero] at h1 ⊢
      exact ⟨hl, wr, trivial, wq, trivial, by exact_mod_cast h1, trivial⟩

theorem dcSubTop_spec {W : Nat} {rem rlo : List Nat} {m : Nat} {qo : Bool} {ro : Int}
    (hW : 4 ≤ W) (hro : ro.natAbs ≤ 1) (wr : IsWords W rem) (wl : IsWords W rlo) (hl : rem.length = m + rlo.length) :
    Returns (dcSubTop W rem rlo m qo.toNat ro) fun r => r.1.length = rem.length ∧ IsWords W r.1 ∧
      (val W r.1 : Int) + r.2 * (base W : Int) ^ rem.length
        = val W rem + ro * (base W : Int) ^ rem.length
          - qo.toNat * (base W : Int) ^ m * val W rlo ∧ ro - 1 ≤ r.2 := by
  unfold dcSubTop
  cases qo with
  | false => simp [wr]
  | true =>
    simp only [Bool.toNat_true, Nat.cast_one, ne_eq, one_ne_zero, not_false_eq_true, if_true]
    refine Returns.bind (onSlice_spec (W := W) (f := fun s => subSameLen W s rlo) (k := fun b => -(b.toNat : Int)) 
      (δ := fun _ => -(val W rlo : Int)) (Q := fun _ => True) (by omega) (le_refl _) wr ?_) ?_
    · intro s ls ws _
      exact (subSameLen_spec ws wl (by omega)).mono fun r h => ⟨h, trivial⟩
    · rintro ⟨r, b⟩ ⟨h, -⟩
      have e := h.eq
      have hbb := Bool.toNat_le b
      refine Returns.bind (returns_ckInt hW (by show (ro - (b.toNat : Int)).natAbs ≤ 7; omega)) ?_
      rintro _ rfl
      simp only [returns_ok] at e ⊢
      refine ⟨h.len, h.words, by linear_combination e, ?_⟩
      cases b <;> simp

theorem NormDiv.drop {W : Nat} {rhs rlo rhi rl : List Nat} {fd : FastDivideNormalized} {v1 v0 : Nat}
    (h : NormDiv W rhs fd rl v1 v0) (e : rhs = rlo ++ rhi) (hl : 2 ≤ rhi.length) :
    ∃ rl', NormDiv W rhi fd rl' v1 v0 := by
  obtain ⟨h1, h2, h3, h4⟩ := h
  subst e
  refine ⟨rhi.take (rhi.length - 2), ?_, ?_, h3, h4⟩
  · conv_lhs => rw [← List.take_append_drop (rhi.length - 2) rhi]
    congr 1
    have e1 : (rlo ++ rhi).drop (rlo.length + (rhi.length - 2)) = rhi.drop (rhi.length - 2) := by
      rw [List.drop_append, List.drop_of_length_le (by omega), List.nil_append]
      congr 1; omega
    have e2 : rlo.length + (rhi.length - 2) = rl.length := by
      have := congrArg List.length h1
      simp only [List.length_append, List.length_cons, List.length_nil] at this
      omega
    rw [← e1, h1, e2, List.drop_left]
  · simp only [isWords_append] at h2; exact h2.2

theorem quotient_carry_bound {Q q V U P M r qo : Int} (hV : 0 < V) (hP : P ≤ 2 * V) (hU : U < P * M)
    (hr0 : 0 ≤ r) (hr : r < V) (h : Q * V + r = U) (hU0 : 0 ≤ U) (hQ : Q = q + qo * M) (hq0 : 0 ≤ q)
    (hq : q < M) : 0 ≤ qo ∧ qo ≤ 1 := by
  have hM : 0 < M := by linarith
  have h1 : 0 ≤ Q := by
    by_contra hc
    have : Q ≤ -1 := by omega
    nlinarith
  have h2 : Q < 2 * M := by
    by_contra hc
    have : 2 * M ≤ Q := by omega
    nlinarith
  constructor
  · by_contra hc
    have : qo ≤ -1 := by omega
    nlinarith
  · by_contra hc
    have : 2 ≤ qo := by omega
    nlinarith

theorem dcSmallQuotient_ok {W n m mem : Nat} {fd : FastDivideNormalized} (hW : 4 ≤ W)
    {same : List Nat → List Nat → R (List Nat × Bool)} (hn : 2 ≤ n) (hmn : m < n)
    (hmem : MulMem (min m (n / 2)) mem)
    (hsame : divMaxLenSimple < m → DivFnOK W fd same m m) :
    DivFnOK W fd (fun l r => dcSmallQuotient W same l r fd mem) n m := by
  intro lhs rhs rl v1 v0 wl hr ln ll
  show Returns (dcSmallQuotient W same lhs rhs fd mem) _
  unfold dcSmallQuotient
  refine Returns.bind (returns_assertR ⟨by omega, by omega⟩) ?_
  rintro _ -
  have em : lhs.length - rhs.length = m := by omega
  rw [em, ln]
  refine Returns.bind (returns_assertR (by omega)) ?_
  rintro _ -
  split
  · exact simpleDivRem_spec wl hr (by omega)
  rename_i hms
  have hms : divMaxLenSimple < m := by omega
  have h32 : 32 < m := hms
  obtain ⟨lo, hi, rfl, hlo⟩ : ∃ lo hi, lhs = lo ++ hi ∧ lo.length = n - m :=
    ⟨lhs.take (n - m), lhs.drop (n - m), by simp, by rw [List.length_take]; omega⟩
  obtain ⟨rlo, rhi, hrhs, hrlo⟩ : ∃ lo hi, rhs = lo ++ hi ∧ lo.length = n - m :=
    ⟨rhs.take (n - m), rhs.drop (n - m), by simp, by rw [List.length_take]; omega⟩
  have hVge := hr.val_ge
  have wrhs := hr.words
  have wr : IsWords W (rlo ++ rhi) := by rw [← hrhs]; exact wrhs
  simp only [isWords_append] at wl wr
  rw [List.length_append] at ll
  have lrhi : rhi.length = m := by
    have := congrArg List.length hrhs
    rw [List.length_append] at this; omega
  obtain ⟨rl', hr'⟩ := hr.drop hrhs (by omega)
  have s1 : sliceR rhs (n - m) n = .ok rhi := by
    rw [sliceR_ok (by omega) (by omega), List.take_of_length_le (by omega), hrhs, ← hrlo, List.drop_left]
  have s2 : sliceR rhs 0 (n - m) = .ok rlo := by
    rw [sliceR_ok (by omega) (by omega), hrhs, ← hrlo, List.take_left]; rfl
  rw [s1, s2]
  refine Returns.bind (P := fun a => a = rhi) (by simp) ?_
  intro a ha; rw [ha]
  have a := onSlice_append (f := fun s => same s rhi) (a := lo) (s := hi) (b := []) (i := n - m)
    (j := (lo ++ hi).length) hlo (by rw [List.length_append]; omega)
    (hsame hms hi rhi rl' v1 v0 wl.2 hr' lrhi (by omega))
  rw [List.append_nil] at a
  refine Returns.bind a ?_
  rintro ⟨l, o⟩ ⟨s', rfl, rem, q, hs', lrem, ls', wrem, wq, hlt, e⟩
  simp only at hs' ls' e ⊢
  subst hs'
  rw [List.append_nil, ← List.append_assoc]
  rw [List.length_append] at ls'
  have lq : q.length = m := by omega
  rw [splitR_append (by rw [List.length_append]; omega)]
  refine Returns.bind (P := fun a => a = (lo ++ rem, q)) (by simp) ?_
  intro a ha; rw [ha]
  simp only
  refine Returns.bind (P := fun a => a = rlo) (by simp) ?_
  intro a ha; rw [ha]
  have wc : IsWords W (lo ++ rem) := by simp [wl.1, wrem]
  have lc : (lo ++ rem).length = n := by rw [List.length_append]; omega
  refine Returns.bind ((addSignedMul_mem hW (la := m) (lb := n - m)
    (hmem.mono (by omega) (le_refl _))).carry (lo ++ rem) .neg q rlo wc wq wr.1 lq hrlo (by omega)) ?_
  rintro ⟨rem1, ro1⟩ ⟨hs1, hro1⟩
  simp only at hs1 hro1 ⊢
  have l1 := hs1.len
  have w1 := hs1.words
  have e1 := hs1.eq
  rw [lc] at l1 e1
  refine Returns.bind (dcSubTop_spec (qo := o) hW hro1 w1 wr.1 (by omega)) ?_
  rintro ⟨rem2, ro2⟩ ⟨l2, w2, e2, hro2⟩
  simp only at l2 w2 e2 hro2 ⊢
  rw [l1] at l2 e2
  -- T
  have hT : (val W rem2 : Int) + ro2 * (base W : Int) ^ n
      = val W (lo ++ rem) - (val W q + o.toNat * base W ^ m) * val W rlo := by
    rw [Sign.toInt_neg] at e1
    linear_combination e2 + e1
  have hV : val W rhs = val W rlo + base W ^ (n - m) * val W rhi := by rw [hrhs, val_append, hrlo]
  have hlo' := val_lt wl.1
  rw [hlo] at hlo'
  have hTV : (val W rem2 : Int) + ro2 * (base W : Int) ^ n < val W rhs := by
    rw [hT, hV, val_append, hlo]
    have h3 := Nat.mul_le_mul_left (base W ^ (n - m)) (Nat.succ_le_of_lt hlt)
    rw [Nat.mul_succ] at h3
    have h4 : (0 : Int) ≤ (val W q + o.toNat * base W ^ m) * val W rlo := by positivity
    have h5 : (0 : Int) ≤ val W rlo := by positivity
    have h6 : val W lo + base W ^ (n - m) * val W rem < base W ^ (n - m) * val W rhi := by omega
    zify at h6
    push_cast
    linarith
  have hge : (base W : Int) ^ n ≤ 2 * val W rhs := by rw [← ln]; exact_mod_cast hVge
  have hro3 : -2 ≤ ro2 := by omega
  have hBn : (0 : Int) < (base W : Int) ^ n := by exact_mod_cast base_pow_pos W n
  have hT0 : -(((7 : Nat) : Int) * val W rhs) ≤ (val W rem2 : Int) + ro2 * (base W : Int) ^ n := by
    have : (0 : Int) ≤ val W rem2 := by positivity
    have : -2 * (base W : Int) ^ n ≤ ro2 * (base W : Int) ^ n :=
      mul_le_mul_of_nonneg_right hro3 hBn.le
    push_cast
    linarith
  refine Returns.bind (dcFixLoop_spec (f := 7) (qo := o.toNat) hW wrhs w2 wq (by omega)
    (by rw [ln]; exact hTV) (by rw [ln]; exact hT0) hro3 (by omega) (by have := Bool.toNat_le o; omega)) ?_
  rintro ⟨rem3, q3, ro3, qo3⟩ ⟨a1, a2, a3, a4, a5, a6, a7⟩
  simp only at a1 a2 a3 a4 a5 a6 a7 ⊢
  rw [lq] at a3 a7
  rw [ln, hT] at a7
  have hU : ((val W q3 : Int) + qo3 * (base W : Int) ^ m) * val W rhs + val W rem3 = val W (lo ++ hi) := by
    rw [a7, hV, val_append, val_append, hlo, ← e, lq]
    push_cast
    ring
  have wlhs : IsWords W (lo ++ hi) := by simp [wl.1, wl.2]
  have hUlt := val_lt wlhs
  rw [List.length_append, ll, pow_add] at hUlt
  have hq3 := val_lt a4
  rw [a3] at hq3
  have hb := quotient_carry_bound (Q := (val W q3 : Int) + qo3 * (base W : Int) ^ m) (q := val W q3)
    (V := val W rhs) (U := val W (lo ++ hi)) (P := (base W : Int) ^ n) (M := (base W : Int) ^ m)
    (r := val W rem3) (qo := qo3) (by linarith) hge (by exact_mod_cast hUlt) (by positivity)
    (by exact_mod_cast a6) hU (by positivity) rfl (by positivity) (by exact_mod_cast hq3)
  refine Returns.bind (returns_assertR ⟨a5, hb.1, hb.2⟩) ?_
  rintro _ -
  simp only [returns_ok]
  refine ⟨rem3, q3, rfl, a1, by simp only [List.length_append]; omega, a2, a4, a6, ?_⟩
  have hqo : ((decide (qo3 ≠ 0)).toNat : Int) = qo3 := by
    rcases (show qo3 = 0 ∨ qo3 = 1 by omega) with h | h <;> simp [h]
  zify
  rw [hqo, a3]
  exact hU

/-- With `fuel + 1` nested calls allowed, quotients of up to `32 * 2 ^ fuel` words can be computed. -/
theorem dcSmall_ok {W mem : Nat} {fd : FastDivideNormalized} (hW : 4 ≤ W) :
    ∀ fuel n m, m ≤ 32 * 2 ^ fuel → 2 ≤ n → m < n → MulMem (min m (n / 2)) mem →
    DivFnOK W fd (dcSmall W fd mem (fuel + 1)) n m := by
  intro fuel
  induction fuel with
  | zero =>
    intro n m hf hn hm hmem
    have := dcSmallQuotient_ok (W := W) (fd := fd) (mem := mem)
      (same := fun l r => dcSameLen (dcSmall W fd mem 0) l r) hW hn hm hmem (fun h32 => by
        have h32' : 32 < m := h32
        omega)
    exact this
  | succ fuel ih =>
    intro n m hf hn hm hmem
    rw [pow_succ] at hf
    have := dcSmallQuotient_ok (W := W) (fd := fd) (mem := mem)
      (same := fun l r => dcSameLen (dcSmall W fd mem (fuel + 1)) l r) hW hn hm hmem (fun h32 => by
        have h32' : 32 < m := h32
        exact dcSameLen_ok h32
          (ih m (m - m / 2) (by omega) (by omega) (by omega) (hmem.mono (by omega) (le_refl _)))
          (ih m (m / 2) (by omega) (by omega) (by omega) (hmem.mono (by omega) (le_refl _))))
    exact this

/-- The loop over `n`-word blocks. -/
theorem dcLoop_spec {W mem n : Nat} {fd : FastDivideNormalized} {rhs rl : List Nat} {v1 v0 : Nat}
    (hr : NormDiv W rhs fd rl v1 v0) (hn : rhs.length = n) (hn2 : 0 < n)
    (hsame : DivFnOK W fd (dcSameLen (dcSmall W fd mem (bitLen n + 1))) n n) :
    ∀ {fuel m : Nat} {lo hi : List Nat} {ov : Bool}, m < fuel → lo.length = m → n ≤ m →
    IsWords W lo → IsWords W hi → (hi = [] ∨ val W (lo.drop (m - n)) < val W rhs) →
    Returns (dcLoop W fd mem rhs fuel (lo ++ hi) m ov) fun r => ∃ lo' q o,
      r.1 = lo' ++ q ++ hi ∧ lo'.length = r.2.1 ∧ n ≤ r.2.1 ∧ r.2.1 < 2 * n ∧
      lo'.length + q.length = m ∧ IsWords W lo' ∧ IsWords W q ∧ r.2.2 = (ov || o) ∧
      (o = true → hi = []) ∧ (q = [] ∨ val W (lo'.drop (r.2.1 - n)) < val W rhs) ∧
      (q = [] → o = false) ∧
      val W lo = val W lo' + (val W q + o.toNat * base W ^ q.length)
        * (base W ^ (r.2.1 - n) * val W rhs) := by
  intro fuel
  induction fuel with
  | zero => intro m _ _ _ h; omega
  | succ fuel ih =>
    intro m lo hi ov hf hlo hnm wlo whi hinv
    unfold dcLoop
    simp only [hn]
    split
    · rename_i h2n
      obtain ⟨a, s, rfl, ha⟩ : ∃ a s, lo = a ++ s ∧ a.length = m - 2 * n :=
        ⟨lo.take (m - 2 * n), lo.drop (m - 2 * n), by simp, by rw [List.length_take]; omega⟩
      rw [List.length_append] at hlo
      simp only [isWords_append] at wlo
      refine Returns.bind (onSlice_append ha (by omega) (hsame s rhs rl v1 v0 wlo.2 hr hn (by omega))) ?_
      rintro ⟨l, o⟩ ⟨s', rfl, rem, q, hs', lrem, ls', wrem, wq, hlt, e⟩
      simp only at hs' ls' e ⊢
      subst hs'
      rw [List.length_append] at ls'
      have lq : q.length = n := by omega
      have ho : o = true → hi = [] := by
        intro h
        subst h
        rcases hinv with h | h
        · exact h
        · exfalso
          -- the top n words of s are < rhs, so no overflow
          have hd : (a ++ s).drop (m - n) = s.drop n := by
            rw [List.drop_append, ha, List.drop_of_length_le (by omega), List.nil_append]
            congr 1; omega
          rw [hd] at h
          have h3 := val_take_add_drop W s n
          rw [show min n s.length = n by omega] at h3
          have h4 := val_lt (wlo.2.take n)
          rw [List.length_take, show min n s.length = n by omega] at h4
          have h5 := Nat.mul_le_mul_left (base W ^ n) (Nat.succ_le_of_lt h)
          rw [Nat.mul_succ] at h5
          rw [lq] at e
          simp only [Bool.toNat_true, one_mul, Nat.add_mul] at e
          have := Nat.zero_le (val W q * val W rhs)
          omega
      refine Returns.bind (returns_assertR ?_) ?_
      · intro h; rw [ho h]; simp; omega
      rintro _ -
      have e2 : a ++ (rem ++ q) ++ hi = (a ++ rem) ++ (q ++ hi) := by simp
      rw [e2]
      have hdrop : (a ++ rem).drop (m - n - n) = rem := by
        rw [show m - n - n = a.length by omega, List.drop_left]
      refine (ih (m := m - n) (lo := a ++ rem) (hi := q ++ hi) (ov := ov || o) (by omega)
        (by rw [List.length_append]; omega) (by omega) (by simp [wlo.1, wrem]) (by simp [wq, whi])
        (Or.inr (by rw [hdrop]; exact hlt))).mono ?_
      rintro ⟨l, m', ov'⟩ ⟨lo', q', o', h1, h2, h3, h4, h5, h6, h7, h8, h9, h10, h11, h12⟩
      simp only at h1 h2 h3 h4 h5 h6 h7 h8 h9 h10 h11 h12 ⊢
      have hqne : q ++ hi ≠ [] := by
        intro h
        have := congrArg List.length h
        simp only [List.length_append, List.length_nil] at this
        omega
      have ho' : o' = false := by
        cases o' with
        | false => rfl
        | true => exact absurd (h9 rfl) hqne
      subst ho'
      refine ⟨lo', q' ++ q, o, by rw [h1]; simp, h2, h3, h4, by simp only [List.length_append]; omega,
        h6, by simp [wq, h7], by rw [h8]; simp, ho, ?_, ?_, ?_⟩
      · right
        rcases h10 with h | h
        · subst h
          simp only [List.length_nil, add_zero] at h5
          simp only [val_nil, Bool.toNat_false, zero_mul, add_zero] at h12
          have : lo' = a ++ rem := val_inj h6 (by simp [wlo.1, wrem])
            (by rw [List.length_append]; omega) h12.symm
          rw [this, show m' - n = m - n - n by omega, hdrop]; exact hlt
        · exact h
      · intro h
        have := congrArg List.length h
        simp only [List.length_append, List.length_nil] at this
        omega
      · simp only [Bool.toNat_false, zero_mul, add_zero] at h12
        have e5 : m' - n + q'.length = m - 2 * n := by omega
        have e6 : base W ^ a.length = base W ^ (m' - n) * base W ^ q'.length := by
          rw [← pow_add, e5, ha]
        rw [val_append, e6] at h12
        rw [val_append, e6, ← e, val_append, List.length_append, pow_add]
        linear_combination h12
    · rename_i h2n
      simp only [returns_ok]
      refine ⟨lo, [], false, by simp, hlo, hnm, by omega, by simp [hlo], wlo, by simp, by simp,
        by simp, Or.inl rfl, by simp, by simp⟩

theorem dcDivRem_spec {W mem : Nat} {lhs rhs rl : List Nat} {v1 v0 : Nat} {fd : FastDivideNormalized}
    (hW : 4 ≤ W) (hl : IsWords W lhs) (hr : NormDiv W rhs fd rl v1 v0)
    (h1 : rhs.length + divMaxLenSimple < lhs.length) (h2 : divMaxLenSimple < rhs.length)
    (hmem : MulMem (min (rhs.length / 2) (lhs.length - rhs.length)) mem) :
    Returns (dcDivRem W lhs rhs fd mem) fun r => DivResult W lhs rhs r.1 r.2 := by
  have h32 : 32 < rhs.length := h2
  obtain ⟨n, hn⟩ : ∃ n, rhs.length = n := ⟨_, rfl⟩
  have hdeep := lt_two_pow_bitLen n
  rw [hn] at hmem h32
  unfold dcDivRem
  refine Returns.bind (returns_assertR ⟨h1, h2⟩) ?_
  rintro _ -
  refine Returns.bind (returns_assertR ⟨h2, by omega⟩) ?_
  rintro _ -
  -- the block loop runs at all only when `2n ≤ lhs.length`
  have hloop : Returns (dcLoop W fd mem rhs (lhs.length + 1) lhs lhs.length false) fun r => ∃ lo' q o,
      r.1 = lo' ++ q ∧ lo'.length = r.2.1 ∧ n ≤ r.2.1 ∧ r.2.1 < 2 * n ∧
      lo'.length + q.length = lhs.length ∧ IsWords W lo' ∧ IsWords W q ∧ r.2.2 = o ∧
      (q = [] ∨ val W (lo'.drop (r.2.1 - n)) < val W rhs) ∧ (q = [] → o = false) ∧
      val W lhs = val W lo' + (val W q + o.toNat * base W ^ q.length)
        * (base W ^ (r.2.1 - n) * val W rhs) := by
    by_cases h2n : 2 * n ≤ lhs.length
    · have hs := dcSameLen_ok (W := W) (fd := fd) (small := dcSmall W fd mem (bitLen n + 1)) (n := n) h32
        (dcSmall_ok hW (bitLen n) n (n - n / 2) (by omega) (by omega) (by omega)
          (hmem.mono (by omega) (le_refl _)))
        (dcSmall_ok hW (bitLen n) n (n / 2) (by omega) (by omega) (by omega)
          (hmem.mono (by omega) (le_refl _)))
      have := dcLoop_spec hr hn (by omega) hs (fuel := lhs.length + 1) (m := lhs.length) (lo := lhs)
        (hi := []) (ov := false) (by omega) rfl (by omega) hl (by simp) (Or.inl rfl)
      rw [List.append_nil] at this
      refine this.mono ?_
      rintro ⟨l, m', ov'⟩ ⟨lo', q', o', h1, h2, h3, h4, h5, h6, h7, h8, h9, h10, h11, h12⟩
      simp only [List.append_nil, Bool.false_or] at h1 h2 h3 h4 h5 h6 h7 h8 h9 h10 h11 h12 ⊢
      exact ⟨lo', q', o', h1, h2, h3, h4, h5, h6, h7, h8, h10, h11, h12⟩
    · unfold dcLoop
      simp only [hn, h2n, if_false, returns_ok]
      exact ⟨lhs, [], false, by simp, rfl, by omega, by omega, by simp, hl, by simp, rfl,
        Or.inl rfl, by simp, by simp⟩
  refine Returns.bind hloop ?_
  rintro ⟨l, m, ov⟩ ⟨lo', q, o, a1, a2, a3, a4, a5, a6, a7, a8, a9, a10, a11⟩
  simp only at a1 a2 a3 a4 a8 a9 a11 ⊢
  subst a1
  subst a8
  rw [hn]
  split
  · rename_i hnm
    have hm' : MulMem (min (m - n) (n / 2)) mem := hmem.mono (by omega) (le_refl _)
    have b := onSlice_append (f := fun s => dcSmall W fd mem (bitLen n + 1) s rhs) (a := []) (s := lo') (b := q)
      (i := 0) (j := m) rfl (by omega)
      (dcSmall_ok hW (bitLen n) n (m - n) (by omega) (by omega) (by omega) hm' lo' rhs rl v1 v0 a6 hr hn
        (by omega))
    rw [List.nil_append] at b
    refine Returns.bind b ?_
    rintro ⟨l2, o2⟩ ⟨s2, rfl, rem2, q2, hs2, lrem2, ls2, wrem2, wq2, hlt2, e2⟩
    simp only at hs2 ls2 e2 ⊢
    subst hs2
    rw [List.length_append] at ls2
    have ho2 : o2 = true → q = [] := by
      intro h; subst h
      rcases a9 with h | h
      · exact h
      · exfalso
        have h3 := val_take_add_drop W lo' (m - n)
        rw [show min (m - n) lo'.length = m - n by omega] at h3
        have h4 := val_lt (a6.take (m - n))
        rw [List.length_take, show min (m - n) lo'.length = m - n by omega] at h4
        have h5 := Nat.mul_le_mul_left (base W ^ (m - n)) (Nat.succ_le_of_lt h)
        rw [Nat.mul_succ] at h5
        rw [show q2.length = m - n by omega] at e2
        simp only [Bool.toNat_true, one_mul, Nat.add_mul] at e2
        have := Nat.zero_le (val W q2 * val W rhs)
        omega
    refine Returns.bind (returns_assertR ?_) ?_
    · intro h; rw [ho2 h] at a5 ⊢; simp; simp at a5; omega
    rintro _ -
    simp only [returns_ok, List.nil_append]
    refine ⟨rem2, q2 ++ q, by simp, lrem2, by simp only [List.length_append]; omega, wrem2,
      by simp [wq2, a7], hlt2, ?_⟩
    rw [a11, ← e2, val_append, List.length_append, pow_add, show m - n = q2.length by omega]
    cases o2 with
    | false => simp only [Bool.or_false, Bool.toNat_false]; ring
    | true =>
      have hq := ho2 rfl
      have := a10 hq
      subst hq
      subst this
      simp
  · rename_i hnm
    simp only [returns_ok]
    have hm : m = n := by omega
    subst hm
    refine ⟨lo', q, rfl, by omega, by simp only [List.length_append]; omega, a6, a7, ?_, ?_⟩
    · rcases a9 with h | h
      · subst h
        simp at a5
        have : 32 < m := h32
        have : rhs.length + 32 < lhs.length := h1
        omega
      · simpa using h
    · rw [a11]; simp; ring

theorem divRemInPlace_spec {W mem : Nat} {lhs rhs rl : List Nat} {v1 v0 : Nat}
    {fd : FastDivideNormalized} (hW : 4 ≤ W) (hl : IsWords W lhs) (hr : NormDiv W rhs fd rl v1 v0)
    (hle : rhs.length ≤ lhs.length)
    (hmem : ∀ k, divMemoryRequirement lhs.length rhs.length = .ok k → k ≤ mem) :
    Returns (divRemInPlace W lhs rhs fd mem) fun r => DivResult W lhs rhs r.1 r.2 := by
  have h2 : 2 ≤ rhs.length := by rw [hr.eq]; simp
  unfold divRemInPlace
  refine Returns.bind (returns_assertR ⟨hle, h2⟩) ?_
  rintro _ -
  split
  · exact simpleDivRem_spec hl hr hle
  · rename_i h
    refine dcDivRem_spec hW hl hr (by omega) (by omega) ?_
    apply mulMem_of_requirement
    apply hmem
    unfold divMemoryRequirement
    rw [assertR_true ⟨hle, h2⟩, if_neg h]
    rfl

end Ibig
