import Verif.Proofs.ParseCost
/-!
The number of steps of parsing in a radix that is not a power of two, as a power of the length.
-/
namespace Ibig.Timed

theorem groupsOf_add {d : Nat} (hd : 1 ≤ d) (n k : Nat) : groupsOf (n + d * k) d = groupsOf n d + k := by
  unfold groupsOf
  rw [show n + d * k + d - 1 = (n + d - 1) + d * k by omega, Nat.add_mul_div_left _ _ (by omega)]

theorem groupsOf_zero {d : Nat} (hd : 1 ≤ d) : groupsOf 0 d = 0 := by
  unfold groupsOf
  exact Nat.div_eq_of_lt (by omega)

theorem groupsOf_mul {d : Nat} (hd : 1 ≤ d) (k : Nat) : groupsOf (d * k) d = k := by
  have := groupsOf_add hd 0 k
  rwa [Nat.zero_add, groupsOf_zero hd, Nat.zero_add] at this

theorem groupsOf_mono {n m : Nat} (d : Nat) (h : n ≤ m) : groupsOf n d ≤ groupsOf m d :=
  Nat.div_le_div_right (by omega)

theorem one_le_groupsOf {n d : Nat} (hn : 1 ≤ n) (hd : 1 ≤ d) : 1 ≤ groupsOf n d := by
  unfold groupsOf
  rw [Nat.le_div_iff_mul_le (by omega)]
  omega

theorem le_groupsOf_mul {n d : Nat} (hd : 1 ≤ d) : n ≤ groupsOf n d * d := by
  unfold groupsOf
  have := Nat.div_add_mod (n + d - 1) d
  have h2 := Nat.mod_lt (n + d - 1) (show d > 0 by omega)
  rw [Nat.mul_comm] at this
  omega

theorem lt_groupsOf {n d k : Nat} (hd : 1 ≤ d) (h : d * k < n) : k < groupsOf n d := by
  by_contra hc
  have h1 := le_groupsOf_mul (n := n) hd
  have h2 : groupsOf n d * d ≤ k * d := Nat.mul_le_mul_right _ (by omega)
  rw [Nat.mul_comm] at h
  omega

theorem groupsOf_le {n d k : Nat} (hd : 1 ≤ d) (h : n ≤ d * k) : groupsOf n d ≤ k :=
  (groupsOf_mono d h).trans (groupsOf_mul hd k).le

/-- a bound on what is read -/
theorem PSpec.post {cfg : Cfg} {r : Nat} {t : List Nat} {x : R (PRes UBig)} (h : PSpec cfg r t x) :
    Post x (OkP fun c => c.WF cfg ∧ c.value cfg < r ^ t.length) := by
  intro p hp a ha
  subst ha
  unfold PSpec at h
  cases hd : digitsOf r t with
  | none =>
    rw [hd] at h
    rcases h with h | ⟨h, -⟩ <;> · rw [h] at hp; cases hp
  | some ds =>
    rw [hd] at h
    dsimp only at h
    have hlt := digitsValue_lt (digitsOf_lt hd)
    rw [digitsOf_length hd] at hlt
    by_cases hf : Fits cfg (digitsValue r ds)
    · obtain ⟨c, h1, h2, h3⟩ := h.1 hf
      rw [hp] at h1
      cases h1
      exact ⟨h2, h3 ▸ hlt⟩
    · rw [h.2 hf] at hp
      cases hp

theorem rt_post {α : Type} {Q : Prop} {x : R α} {P : α → Prop} (h : RT Q x P) : Post x P := by
  rcases h with h | ⟨h, -⟩
  · exact Post.of_returns h
  · rw [h]; exact Post.error

theorem pow_groups_lt {W r d n : Nat} (hr : 1 ≤ r) (hd : 1 ≤ d) (hlt : r ^ d < base W) {N : Nat} (h : n ≤ d * N) :
    r ^ n ≤ 2 ^ (N * W) := by
  calc r ^ n ≤ r ^ (d * N) := Nat.pow_le_pow_right hr h
    _ = (r ^ d) ^ N := pow_mul _ _ _
    _ ≤ (2 ^ W) ^ N := Nat.pow_le_pow_left (by rw [← base_eq]; exact hlt.le) _
    _ = 2 ^ (N * W) := by rw [← pow_mul, Nat.mul_comm]

theorem two_rpow47_ge (m : ℕ) :
    69 / 50 * (m : ℝ) ^ (47 / 100 : ℝ) ≤ ((2 * m : ℕ) : ℝ) ^ (47 / 100 : ℝ) := by
  rw [Nat.cast_mul, Real.mul_rpow (by norm_num) (Nat.cast_nonneg m)]
  refine mul_le_mul_of_nonneg_right ?_ (rpow47_nonneg m)
  refine le_of_pow_100 (Real.rpow_nonneg (by norm_num) _) ?_
  have e := rpow_pow_100 (show (0 : ℝ) ≤ 2 by norm_num) 47
  push_cast at e ⊢
  rw [e]
  norm_num

theorem two_rpow47_le (m : ℕ) :
    ((2 * m : ℕ) : ℝ) ^ (47 / 100 : ℝ) ≤ 139 / 100 * (m : ℝ) ^ (47 / 100 : ℝ) := by
  rw [Nat.cast_mul, Real.mul_rpow (by norm_num) (Nat.cast_nonneg m)]
  refine mul_le_mul_of_nonneg_right ?_ (rpow47_nonneg m)
  refine le_of_pow_100 (by norm_num) ?_
  have e := rpow_pow_100 (show (0 : ℝ) ≤ 2 by norm_num) 47
  push_cast at e ⊢
  rw [e]
  norm_num

theorem thirteen_le_rpow47 {n : ℕ} (hn : 256 ≤ n) : (13 : ℝ) ≤ (n : ℝ) ^ (47 / 100 : ℝ) := by
  have := le_mul_rpow47 (x := 13) (C := 1) (n := n) ?_
  · push_cast at this
    linarith
  · rw [one_pow, one_mul]
    exact le_trans (by norm_num) (Nat.pow_le_pow_left hn 47)

section
variable {cfg : Cfg}

/-- the recursion -/
theorem costs_npDivideConquer (hv : cfg.Valid) {r : Nat} (hval : isRadixValid r = true)
    (h2 : isRadixPow2 r = false) {info : RadixInfo} (hi : Ibig.radixInfo cfg.W r = .ok info)
    (ps : List UBig) (hp : PowersOK cfg r (256 * info.digitsPerWord) ps) (t : List Nat) (ht1 : 1 ≤ t.length)
    (ht : t.length ≤ 256 * info.digitsPerWord * 2 ^ ps.length)
    (hU : 256 * info.digitsPerWord * 2 ^ ps.length < 2 ^ cfg.U) :
    Costs (npDivideConquer cfg r (256 * info.digitsPerWord) ps t)
      (3 * t.length + 80 * groupsOf t.length info.digitsPerWord *
        ((256 * 2 ^ ps.length : ℕ) : ℝ) ^ (47 / 100 : ℝ))
      (OkP fun c => c.WF cfg ∧ c.value cfg < 2 ^ (groupsOf t.length info.digitsPerWord * cfg.W)) := by
  obtain ⟨info', hi', hn⟩ := radixInfo_nonPow2 hv.W16 hval h2
  rw [hi] at hi'; cases hi'
  have hD := hn.one
  have hr := (isRadixValid_iff.mp hval).1
  have h1 : 1 ≤ 256 * info.digitsPerWord := by omega
  induction ps generalizing t with
  | nil =>
    have hspec := npDivideConquer_spec hv hval h2 hi [] trivial t ht hU
    have hN1 := one_le_groupsOf ht1 hD
    have hN : groupsOf t.length info.digitsPerWord ≤ 256 :=
      groupsOf_le hD (ht.trans (by rw [List.length_nil, pow_zero, Nat.mul_one, Nat.mul_comm]))
    refine Costs.post (P := fun _ => True) ?_ (npDivideConquer_result _ _ _ _ _) ((PSpec.post hspec).mono ?_)
    · rw [npDivideConquer]
      have hx : (13 : ℝ) ≤ ((256 * 2 ^ ([] : List UBig).length : ℕ) : ℝ) ^ (47 / 100 : ℝ) :=
        thirteen_le_rpow47 (by simp)
      refine Costs.step (Takes.costs (takes_word1 _)) fun m _ => ?_
      refine Costs.step (Takes.costs (takes_word1 _)) fun _ _ => ?_
      refine (Takes.costs (takes_npParseChunk cfg r hi hD t)).mono ?_ (fun _ _ => trivial)
      generalize groupsOf t.length info.digitsPerWord = N at *
      have hN1' : (1 : ℝ) ≤ N := by exact_mod_cast hN1
      have hN' : (N : ℝ) ≤ 256 := by exact_mod_cast hN
      push_cast at hx ⊢
      nlinarith
    · intro q hq a ha
      exact ⟨(hq a ha).1, lt_of_lt_of_le (hq a ha).2 (pow_groups_lt (by omega) hD hn.lt
        (by rw [Nat.mul_comm]; exact le_groupsOf_mul hD))⟩
  | cons p ps ih =>
    have hspec := npDivideConquer_spec hv hval h2 hi (p :: ps) hp t ht hU
    obtain ⟨p1, p2, p3⟩ := hp
    rw [List.length_cons] at ht hU
    have hU' : 256 * info.digitsPerWord * 2 ^ ps.length < 2 ^ cfg.U := by
      refine lt_of_le_of_lt (Nat.mul_le_mul_left _ ?_) hU
      exact Nat.pow_le_pow_right (by norm_num) (by omega)
    have hN1 := one_le_groupsOf ht1 hD
    have hN1' : (1 : ℝ) ≤ groupsOf t.length info.digitsPerWord := by exact_mod_cast hN1
    have hx : (13 : ℝ) ≤ ((256 * 2 ^ ps.length : ℕ) : ℝ) ^ (47 / 100 : ℝ) :=
      thirteen_le_rpow47 (Nat.le_mul_of_pos_right _ (Nat.two_pow_pos _))
    have hx2 := two_rpow47_ge (256 * 2 ^ ps.length)
    rw [show 2 * (256 * 2 ^ ps.length) = 256 * 2 ^ (p :: ps).length by rw [List.length_cons, pow_succ]; ring] at hx2
    refine Costs.post (P := fun _ => True) ?_ (npDivideConquer_result _ _ _ _ _) ((PSpec.post hspec).mono ?_)
    · rw [npDivideConquer]
      unfold Timed.shlW
      rw [Ibig.shlW_ok h1 hU, Ibig.shlW_ok h1 hU']
      refine Costs.step (Takes.costs (takes_word1 _)) fun m _ => ?_
      refine Costs.step (Takes.costs (takes_word1 _)) fun _ _ => ?_
      refine Costs.step (Costs.pass (P := fun x => x = 256 * info.digitsPerWord * 2 ^ ps.length) (Post.ok rfl)) ?_
      rintro _ rfl
      generalize ((256 * 2 ^ (p :: ps).length : ℕ) : ℝ) ^ (47 / 100 : ℝ) = y at *
      refine Costs.ite (fun hle => ?_) (fun hgt => ?_)
      · refine (ih p3 t ht1 hle hU').mono ?_ (fun _ _ => trivial)
        generalize ((256 * 2 ^ ps.length : ℕ) : ℝ) ^ (47 / 100 : ℝ) = x at *
        push_cast
        nlinarith
      · refine Costs.step (B := 1) (P := fun (s : List Nat × List Nat) => t = s.1 ++ s.2 ∧
          s.2.length = 256 * info.digitsPerWord * 2 ^ ps.length) ?_ ?_
        · refine (Costs.pass (n := 1) (Post.of_returns ((returns_splitR
            (show t.length - 256 * info.digitsPerWord * 2 ^ ps.length ≤ t.length by omega))))).mono (by simp) ?_
          rintro ⟨a, b⟩ ⟨s1, s2⟩
          dsimp only at s1 s2 ⊢
          refine ⟨s1, ?_⟩
          have := congrArg List.length s1
          rw [List.length_append] at this
          omega
        rintro ⟨th, tl⟩ ⟨s1, s2⟩
        dsimp only at s1 s2 ⊢
        have hlen : th.length + tl.length = t.length := by rw [s1, List.length_append]
        have hs2 : tl.length = info.digitsPerWord * (256 * 2 ^ ps.length) := by rw [s2]; ring
        have hG : groupsOf t.length info.digitsPerWord =
            groupsOf th.length info.digitsPerWord + 256 * 2 ^ ps.length := by
          rw [← hlen, hs2, groupsOf_add hD]
        have hGl : groupsOf tl.length info.digitsPerWord = 256 * 2 ^ ps.length := by rw [hs2, groupsOf_mul hD]
        have ih1 := ih p3 th (by omega) (by rw [pow_succ, ← Nat.mul_assoc] at ht; omega) hU'
        have ih2 := ih p3 tl (by rw [s2]; exact Nat.mul_pos h1 (Nat.two_pow_pos _)) (by omega) hU'
        have hk1 : 1 ≤ 256 * 2 ^ ps.length := Nat.mul_pos (by norm_num) (Nat.two_pow_pos _)
        have hNh := one_le_groupsOf (n := th.length) (by omega) hD
        rw [hGl] at ih2
        rw [hG] at hN1' ⊢
        have hpv : p.value cfg ≤ 2 ^ (256 * 2 ^ ps.length * cfg.W) := by
          rw [p2]
          exact pow_groups_lt (by omega) hD hn.lt (by rw [← Nat.mul_assoc, Nat.mul_comm _ 256])
        have hpv' : p.value cfg < 2 ^ (256 * 2 ^ ps.length * cfg.W) := by
          rw [p2, show 256 * info.digitsPerWord * 2 ^ ps.length = info.digitsPerWord * (256 * 2 ^ ps.length) by ring,
            pow_mul, show 256 * 2 ^ ps.length * cfg.W = cfg.W * (256 * 2 ^ ps.length) by ring, pow_mul 2]
          exact Nat.pow_lt_pow_left (by rw [← base_eq]; exact hn.lt) (by omega)
        generalize hNeq : groupsOf th.length info.digitsPerWord = N at *
        generalize hk : 256 * 2 ^ ps.length = k at *
        have hkr : (1 : ℝ) ≤ k := by exact_mod_cast hk1
        have hNr : (1 : ℝ) ≤ N := by exact_mod_cast hNh
        have hlen' : (th.length : ℝ) + tl.length = t.length := by exact_mod_cast hlen
        have hxmin : ((min N k : ℕ) : ℝ) ^ (47 / 100 : ℝ) ≤ (k : ℝ) ^ (47 / 100 : ℝ) := rpow47_mono (min_le_right _ _)
        have key : (1 : ℝ) + 1 + 1 + 1 + (3 * th.length + 80 * N * (k : ℝ) ^ (47 / 100 : ℝ)) +
            (3 * tl.length + 80 * k * (k : ℝ) ^ (47 / 100 : ℝ)) + mulBound N k + 13 * ((N + k : ℕ) + k) ≤
            3 * t.length + 80 * (N + k : ℕ) * y := by
          unfold mulBound
          have e : 27 * ((N : ℝ) + k) * ((min N k : ℕ) : ℝ) ^ (47 / 100 : ℝ) ≤
            27 * ((N : ℝ) + k) * (k : ℝ) ^ (47 / 100 : ℝ) := mul_le_mul_of_nonneg_left hxmin (by linarith)
          generalize (k : ℝ) ^ (47 / 100 : ℝ) = x at *
          generalize ((min N k : ℕ) : ℝ) ^ (47 / 100 : ℝ) = z at *
          push_cast
          have e2 : 80 * ((N : ℝ) + k) * (69 / 50 * x) ≤ 80 * ((N : ℝ) + k) * y :=
            mul_le_mul_of_nonneg_left hx2 (by linarith)
          have e3 : ((N : ℝ) + k) * 13 ≤ ((N : ℝ) + k) * x := mul_le_mul_of_nonneg_left hx (by linarith)
          linarith
        refine Costs.mono (P := OkP fun _ => True) ?_ (le_refl _) (fun _ _ => trivial)
        refine Costs.tryP ih1 ?_ fun a ha => ?_
        · have := rpow47_nonneg k
          have hm : 0 ≤ mulBound N k := by unfold mulBound; positivity
          have : 0 ≤ 80 * (k : ℝ) * (k : ℝ) ^ (47 / 100 : ℝ) := by positivity
          have : (0 : ℝ) ≤ 3 * tl.length := by positivity
          push_cast at key ⊢
          linarith
        refine Costs.tryP ih2 ?_ fun b hb => ?_
        · have hm : 0 ≤ mulBound N k := by unfold mulBound; positivity
          push_cast at key ⊢
          linarith
        refine (Costs.okP (P := fun _ => True) ?_).mono (le_refl _) (fun _ _ _ _ => trivial)
        refine Costs.step (costs_mul hv .val .ref ha.1 p1 hNh hk1 ha.2 hpv') fun c hc => ?_
        have hcv : c.value cfg < 2 ^ ((N + k) * cfg.W) := by
          rw [hc.2, Nat.add_mul, pow_add]
          exact Nat.mul_lt_mul'' ha.2 hpv'
        refine (costs_add hv .val .val hc.1 hb.1 (by omega) hk1 hcv hb.2).mono ?_ (fun _ _ => trivial)
        push_cast at key ⊢
        linarith
    · intro q hq a ha
      exact ⟨(hq a ha).1, lt_of_lt_of_le (hq a ha).2 (pow_groups_lt (by omega) hD hn.lt
        (by rw [Nat.mul_comm]; exact le_groupsOf_mul hD))⟩

/-- the table of powers: `k` is the number of words of the last one -/
theorem costs_npPowersLoop (hv : cfg.Valid) {r len D : Nat} (hD : 1 ≤ D) (hlt : r ^ D < base cfg.W) :
    ∀ (fuel : Nat) (p : UBig) (ps : List UBig), PowersOK cfg r (256 * D) (p :: ps) →
    256 * 2 ^ ps.length ≤ groupsOf len D →
    Costs (npPowersLoop cfg (256 * D) len fuel (p :: ps))
      (2 + 54 * (groupsOf len D * (groupsOf len D : ℝ) ^ (47 / 100 : ℝ)) -
        54 * ((256 * 2 ^ ps.length : ℕ) * ((256 * 2 ^ ps.length : ℕ) : ℝ) ^ (47 / 100 : ℝ)))
      (fun q => 256 * 2 ^ q.length ≤ 2 * groupsOf len D) := by
  intro fuel
  induction fuel with
  | zero => intro p ps _ _; exact Costs.error
  | succ fuel ih =>
    intro p ps hp hk
    obtain ⟨p1, p2, p3⟩ := hp
    have hk1 : 1 ≤ 256 * 2 ^ ps.length := Nat.mul_pos (by norm_num) (Nat.two_pow_pos _)
    have hpv : p.value cfg < 2 ^ (256 * 2 ^ ps.length * cfg.W) := by
      rw [p2, show 256 * D * 2 ^ ps.length = D * (256 * 2 ^ ps.length) by ring,
        pow_mul, show 256 * 2 ^ ps.length * cfg.W = cfg.W * (256 * 2 ^ ps.length) by ring, pow_mul 2]
      exact Nat.pow_lt_pow_left (by rw [← base_eq]; exact hlt) (by omega)
    have ek : 256 * 2 ^ (ps.length + 1) = 2 * (256 * 2 ^ ps.length) := by rw [pow_succ]; ring
    have hmono : ((256 * 2 ^ ps.length : ℕ) : ℝ) * ((256 * 2 ^ ps.length : ℕ) : ℝ) ^ (47 / 100 : ℝ) ≤
        groupsOf len D * (groupsOf len D : ℝ) ^ (47 / 100 : ℝ) :=
      mul_le_mul (by exact_mod_cast hk) (rpow47_mono hk) (rpow47_nonneg _) (Nat.cast_nonneg _)
    rw [npPowersLoop]
    refine Costs.step (Costs.pass (P := fun n => n = len - 1) ?_) ?_
    · unfold Ibig.ckSub
      exact Post.ite (fun _ => Post.ok rfl) (fun _ => Post.error)
    rintro _ rfl
    refine Costs.step (Costs.pass (P := fun n => n = (len - 1) / 2 ^ (ps.length + 1)) ?_) ?_
    · unfold Ibig.shrW
      exact Post.ite (fun _ => Post.ok rfl) (fun _ => Post.error)
    rintro _ rfl
    refine Costs.ite (fun hge => ?_) (fun _ => ?_)
    · rw [Nat.le_div_iff_mul_le (Nat.two_pow_pos _)] at hge
      have hk2 : 256 * 2 ^ (ps.length + 1) ≤ groupsOf len D := by
        rcases Nat.eq_zero_or_pos len with h | h
        · subst h
          exact absurd hge (by
            have := Nat.mul_pos (show 0 < 256 * D by omega) (Nat.two_pow_pos (ps.length + 1)); omega)
        · refine (lt_groupsOf hD ?_).le
          rw [show D * (256 * 2 ^ (ps.length + 1)) = 256 * D * 2 ^ (ps.length + 1) by ring]
          omega
      refine Costs.step (costs_mul hv .ref .ref p1 p1 hk1 hk1 hpv hpv) fun c hc => ?_
      refine (ih c (p :: ps) ⟨hc.1, ?_, p1, p2, p3⟩ hk2).mono ?_ (fun _ h => h)
      · rw [hc.2, p2, ← pow_add, List.length_cons]; congr 1; ring
      · have h1 := two_rpow47_ge (256 * 2 ^ ps.length)
        have h3 := one_le_rpow47 hk1
        rw [List.length_cons, ek]
        unfold mulBound
        rw [min_self]
        generalize hkk : 256 * 2 ^ ps.length = k at *
        generalize ((2 * k : ℕ) : ℝ) ^ (47 / 100 : ℝ) = y at *
        generalize (k : ℝ) ^ (47 / 100 : ℝ) = x at *
        have hk' : (1 : ℝ) ≤ k := by exact_mod_cast hk1
        push_cast
        have h4 : (k : ℝ) * (69 / 50 * x) ≤ k * y := mul_le_mul_of_nonneg_left h1 (by linarith)
        have h5 : (1 : ℝ) ≤ k * x := one_le_mul_of_one_le_of_one_le hk' h3
        linarith
    · refine (Costs.pure ?_).mono ?_ (fun _ h => h)
      · rw [List.length_cons, ek]
        omega
      · push_cast at hmono ⊢
        linarith

theorem costs_npParseLarge (hv : cfg.Valid) {r : Nat} (hval : isRadixValid r = true)
    (h2 : isRadixPow2 r = false) {info : RadixInfo} (hi : Ibig.radixInfo cfg.W r = .ok info)
    {t : List Nat} (hgt : 256 * info.digitsPerWord < t.length) (hlen : t.length < 2 ^ (cfg.U - 1)) :
    Costs (npParseLarge cfg r t) (3 * t.length + 175 * (groupsOf t.length info.digitsPerWord *
      (groupsOf t.length info.digitsPerWord : ℝ) ^ (47 / 100 : ℝ))) (OkP fun _ => True) := by
  obtain ⟨info', hi', hn⟩ := radixInfo_nonPow2 hv.W16 hval h2
  rw [hi] at hi'; cases hi'
  have hr := (isRadixValid_iff.mp hval).1
  have hdpw := digitsPerWord_le hr hn
  have hW64 := hv.W64
  have hU := hv.two_pow_U
  have hD := hn.one
  have hN : 256 < groupsOf t.length info.digitsPerWord := lt_groupsOf hD (by omega)
  unfold npParseLarge Timed.radixInfo parseChunkLen Timed.ckMul
  rw [hi]
  refine Costs.step (Takes.costs (takes_word1 _)) fun _ _ => ?_
  refine Costs.step (Costs.pass (P := fun x => x = info) (Post.ok rfl)) ?_
  intro i hii; rw [hii]; clear hii i
  rw [ckMul_ok (by omega)]
  refine Costs.step (Costs.pass (P := fun x => x = 256 * info.digitsPerWord) (Post.ok rfl)) ?_
  rintro _ rfl
  refine Costs.step (Takes.costs (takes_word1 _)) fun _ _ => ?_
  have hsv : (UBig.small info.rangePerWord).value cfg < 2 ^ (1 * cfg.W) := by
    rw [Nat.one_mul, ← base_eq, show (UBig.small info.rangePerWord).value cfg = info.rangePerWord from rfl, hn.range]
    exact hn.lt
  refine Costs.step (costs_pow hv (show info.rangePerWord < _ by rw [hn.range]; exact hn.lt) (le_refl 1) hsv
    (exp := 256) (by omega)) ?_
  rintro p ⟨p1, p2⟩
  rw [show (UBig.small info.rangePerWord).value cfg = info.rangePerWord from rfl, hn.range, ← pow_mul,
    Nat.mul_comm info.digitsPerWord] at p2
  have hpow : PowersOK cfg r (256 * info.digitsPerWord) [p] := ⟨p1, by simpa using p2, trivial⟩
  have c1 := costs_npPowersLoop hv (len := t.length) hD hn.lt (bitLen t.length) p [] hpow
    (by rw [List.length_nil, pow_zero, Nat.mul_one]; exact hN.le)
  have s1 := rt_post (npPowersLoop_spec hv (by omega) (by omega) hgt hlen (bitLen t.length) p [] hpow
      (by simp only [List.length_nil, pow_zero, Nat.mul_one]; omega) (by simp))
  have c2 : Costs (npPowersLoop cfg (256 * info.digitsPerWord) t.length (bitLen t.length) [p]) _ _ :=
    Costs.and c1 (npPowersLoop_result _ _ _ _ _) s1
  refine Costs.step c2 ?_
  rintro q ⟨q0, q1, q2, q3⟩
  refine (costs_npDivideConquer hv hval h2 hi q q1 t (by omega) q2 q3).mono ?_ (fun _ _ _ _ => trivial)
  have hx := (rpow47_mono q0).trans (two_rpow47_le _)
  have h13 := thirteen_le_rpow47 hN.le
  have hNr : (256 : ℝ) ≤ groupsOf t.length info.digitsPerWord := by exact_mod_cast hN.le
  rw [List.length_nil, pow_zero, Nat.mul_one]
  unfold powBound
  rw [Nat.one_mul, Nat.cast_one, Real.one_rpow]
  generalize ((256 * 2 ^ q.length : ℕ) : ℝ) ^ (47 / 100 : ℝ) = z at *
  generalize ((256 : ℕ) : ℝ) ^ (47 / 100 : ℝ) = w at *
  generalize (groupsOf t.length info.digitsPerWord : ℝ) ^ (47 / 100 : ℝ) = x at *
  generalize (groupsOf t.length info.digitsPerWord : ℝ) = N at *
  push_cast
  have e1 : N * z ≤ N * (139 / 100 * x) := mul_le_mul_of_nonneg_left hx (by linarith)
  have e2 : N * 13 ≤ N * x := mul_le_mul_of_nonneg_left h13 (by linarith)
  nlinarith

theorem square_le_rpow {N : ℕ} (h : N ≤ 256) : (N : ℝ) * (6 + N) ≤ 25 * (N * (N : ℝ) ^ (47 / 100 : ℝ)) := by
  rcases Nat.eq_zero_or_pos N with rfl | h1
  · simp
  have h2 : (N : ℝ) ≤ 19 * (N : ℝ) ^ (47 / 100 : ℝ) := by
    have : ((N : ℕ) : ℝ) ≤ ((19 : ℕ) : ℝ) * (N : ℝ) ^ (47 / 100 : ℝ) := by
      refine le_mul_rpow47 ?_
      calc N ^ 100 = N ^ 53 * N ^ 47 := by rw [← pow_add]
        _ ≤ 256 ^ 53 * N ^ 47 := Nat.mul_le_mul_right _ (Nat.pow_le_pow_left h _)
        _ ≤ 19 ^ 100 * N ^ 47 := Nat.mul_le_mul_right _ (by norm_num)
    exact_mod_cast this
  have h3 := one_le_rpow47 h1
  have h0 : (0 : ℝ) ≤ N := Nat.cast_nonneg N
  nlinarith

theorem costs_npParse (hv : cfg.Valid) {r : Nat} (hval : isRadixValid r = true)
    (h2 : isRadixPow2 r = false) {info : RadixInfo} (hi : Ibig.radixInfo cfg.W r = .ok info)
    {t : List Nat} (hlen : t.length < 2 ^ (cfg.U - 1)) :
    Costs (npParse cfg r t) (3 * t.length + 175 * (groupsOf t.length info.digitsPerWord *
      (groupsOf t.length info.digitsPerWord : ℝ) ^ (47 / 100 : ℝ)) + 9) (OkP fun _ => True) := by
  obtain ⟨info', hi', hn⟩ := radixInfo_nonPow2 hv.W16 hval h2
  rw [hi] at hi'; cases hi'
  have hr := (isRadixValid_iff.mp hval).1
  have hdpw := digitsPerWord_le hr hn
  have hW64 := hv.W64
  have hU := hv.two_pow_U
  have hD := hn.one
  have hx : (0 : ℝ) ≤ groupsOf t.length info.digitsPerWord *
      (groupsOf t.length info.digitsPerWord : ℝ) ^ (47 / 100 : ℝ) :=
    mul_nonneg (Nat.cast_nonneg _) (rpow47_nonneg _)
  unfold npParse Timed.radixInfo parseChunkLen Timed.ckMul
  rw [hi]
  refine Costs.step (Takes.costs (takes_word1 _)) fun _ _ => ?_
  refine Costs.step (Costs.pass (P := fun x => x = info) (Post.ok rfl)) ?_
  intro i hii; rw [hii]; clear hii i
  refine Costs.ite (fun _ => ?_) (fun _ => ?_)
  · refine Costs.tryP (Takes.costs (takes_npParseWord _ _ _)) (by push_cast; linarith) fun w _ => ?_
    exact (Costs.pure (fun _ _ => trivial)).mono (by push_cast; linarith) (fun _ h => h)
  · rw [ckMul_ok (by omega)]
    refine Costs.step (Costs.pass (P := fun x => x = 256 * info.digitsPerWord) (Post.ok rfl)) ?_
    rintro _ rfl
    refine Costs.ite (fun hle => ?_) (fun hgt => ?_)
    · refine (Takes.costs (takes_npParseChunk cfg r hi hD t)).mono ?_ (fun _ h => h)
      have := square_le_rpow (groupsOf_le (k := 256) hD (by omega) : groupsOf t.length info.digitsPerWord ≤ 256)
      push_cast
      linarith
    · exact (costs_npParseLarge hv hval h2 hi (by omega) hlen).mono (by push_cast; linarith) (fun _ h => h)

/-! ### Entry points -/

theorem takes_stripZeros (s : List Nat) : Takes (stripZeros s) s.length (fun t => t.length ≤ s.length) := by
  induction s with
  | nil => exact Takes.pure (le_refl _)
  | cons c s ih =>
    rw [stripZeros, List.length_cons]
    refine Takes.bind takes_tick (by omega) fun _ M hM _ => ?_
    refine Takes.ite (fun _ => ih.mono (by omega) (fun _ h => by omega)) (fun _ => Takes.pure (by simp))

theorem takes_noSign_pow2 {r : Nat} (h2 : isRadixPow2 r = true) (s : List Nat) :
    Takes (UBig.fromStrRadixNoSign cfg s r) (9 * s.length + 11) (OkP fun _ => True) := by
  unfold UBig.fromStrRadixNoSign
  refine Takes.bind (takes_word1 _) (by omega) fun _ M hM _ => ?_
  refine Takes.ite (fun _ => Takes.pure (fun _ _ => trivial)) (fun _ => ?_)
  refine Takes.bind (takes_stripZeros s) (by omega) fun t M1 hM1 ht => ?_
  rw [if_pos h2]
  exact (takes_pow2Parse cfg r t).mono (by omega) (fun _ h => h)

/-- a text of `n ≤ N d` digits, where numbers of `d` digits fit in a word -/
theorem costs_noSign (hv : cfg.Valid) {r : Nat} (hval : isRadixValid r = true) (h2 : isRadixPow2 r = false)
    {s : List Nat} (hlen : s.length < 2 ^ (cfg.U - 1)) {d N : Nat} (hd : r ^ d < 2 ^ cfg.W) (hN : s.length ≤ N * d) :
    Costs (UBig.fromStrRadixNoSign cfg s r) (4 * s.length + 175 * (N * (N : ℝ) ^ (47 / 100 : ℝ)) + 10)
      (OkP fun _ => True) := by
  obtain ⟨info, hi, hn⟩ := radixInfo_nonPow2 hv.W16 hval h2
  have hr := (isRadixValid_iff.mp hval).1
  have hdD : d ≤ info.digitsPerWord := by
    have h := lt_of_lt_of_le hd (base_eq (W := cfg.W) ▸ hn.ge)
    have := (Nat.pow_lt_pow_iff_right (show 1 < r by omega)).mp h
    omega
  have hx : (0 : ℝ) ≤ N * (N : ℝ) ^ (47 / 100 : ℝ) := mul_nonneg (Nat.cast_nonneg _) (rpow47_nonneg _)
  unfold UBig.fromStrRadixNoSign
  refine Costs.step (Takes.costs (takes_word1 _)) fun _ _ => ?_
  refine Costs.ite (fun _ => (Costs.pure (fun _ _ => trivial)).mono (by push_cast; linarith) (fun _ h => h))
    (fun _ => ?_)
  refine Costs.step (Takes.costs (takes_stripZeros s)) fun t ht => ?_
  rw [if_neg (by rw [h2]; exact Bool.false_ne_true)]
  refine (costs_npParse hv hval h2 hi (by omega)).mono ?_ (fun _ h => h)
  have hg : groupsOf t.length info.digitsPerWord ≤ N := groupsOf_le hn.one (by
    rw [Nat.mul_comm]; exact (ht.trans hN).trans (Nat.mul_le_mul_left _ hdD))
  have h3 : (groupsOf t.length info.digitsPerWord : ℝ) * (groupsOf t.length info.digitsPerWord : ℝ) ^ (47 / 100 : ℝ) ≤
      N * (N : ℝ) ^ (47 / 100 : ℝ) :=
    mul_le_mul (by exact_mod_cast hg) (rpow47_mono hg) (rpow47_nonneg _) (Nat.cast_nonneg _)
  have h4 : (t.length : ℝ) ≤ s.length := by exact_mod_cast ht
  push_cast
  linarith

/-- both kinds of radixes -/
theorem costs_noSign_any (hv : cfg.Valid) {r : Nat} (hval : isRadixValid r = true)
    {s : List Nat} (hlen : s.length < 2 ^ (cfg.U - 1)) {d N : Nat} (hd : r ^ d < 2 ^ cfg.W) (hN : s.length ≤ N * d) :
    Costs (UBig.fromStrRadixNoSign cfg s r) (9 * s.length + 175 * (N * (N : ℝ) ^ (47 / 100 : ℝ)) + 11)
      (OkP fun _ => True) := by
  have hx : (0 : ℝ) ≤ N * (N : ℝ) ^ (47 / 100 : ℝ) := mul_nonneg (Nat.cast_nonneg _) (rpow47_nonneg _)
  have hs : (0 : ℝ) ≤ s.length := Nat.cast_nonneg _
  cases h2 : isRadixPow2 r
  · exact (costs_noSign hv hval h2 hlen hd hN).mono (by linarith) (fun _ h => h)
  · exact (Takes.costs (takes_noSign_pow2 h2 s)).mono (by push_cast; linarith) (fun _ h => h)

end
end Ibig.Timed
