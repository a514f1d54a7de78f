import Verif.Proofs.GcdCost
/-!
The number of steps of the extended greatest common divisor.  The inner loop is paid for by the bits that it removes.
-/
namespace Ibig.Timed

/-- if `x` returns then its steps and the potential of its result are at most `B`, and the result satisfies `P` -/
def Pays {α : Type} (x : Timed α) (B : ℕ) (Φ : α → ℕ) (P : α → Prop) : Prop :=
  ∀ a k, x = .ok (a, k) → k + Φ a ≤ B ∧ P a

theorem Pays.bind {α β : Type} {x : Timed α} {f : α → Timed β} {P : α → Prop} {Q : β → Prop}
    {Ψ : β → ℕ} {n N : ℕ} (hx : Takes x n P) (hn : n ≤ N)
    (hf : ∀ a M, N = n + M → P a → Pays (f a) M Ψ Q) : Pays (x >>= f) N Ψ Q := by
  intro b k hb
  rcases x with e | ⟨a, l⟩
  · cases hb
  · obtain ⟨hl, hP⟩ := hx a l rfl
    replace hb : (match f a with
      | .error e => Except.error e
      | .ok (b, m) => Except.ok (b, l + m) : R (β × Nat)) = .ok (b, k) := hb
    have := hf a (N - n) (by omega) hP
    generalize f a = y at hb this
    rcases y with e | ⟨b', m⟩
    · cases hb
    · cases hb
      obtain ⟨h1, h2⟩ := this b m rfl
      exact ⟨by omega, h2⟩

/-- a computation that leaves a potential, and a computation that is paid with it -/
theorem Pays.takes {α β : Type} {x : Timed α} {f : α → Timed β} {P : α → Prop} {Q : β → Prop}
    {Φ : α → ℕ} {n N : ℕ} (hx : Pays x n Φ P) (hn : n ≤ N)
    (hf : ∀ a, P a → Takes (f a) (Φ a + (N - n)) Q) : Takes (x >>= f) N Q := by
  intro b k hb
  rcases x with e | ⟨a, l⟩
  · cases hb
  · obtain ⟨hl, hP⟩ := hx a l rfl
    replace hb : (match f a with
      | .error e => Except.error e
      | .ok (b, m) => Except.ok (b, l + m) : R (β × Nat)) = .ok (b, k) := hb
    have := hf a hP
    generalize f a = y at hb this
    rcases y with e | ⟨b', m⟩
    · cases hb
    · cases hb
      obtain ⟨h1, h2⟩ := this b m rfl
      exact ⟨by omega, h2⟩

section
variable {cfg : Cfg}

theorem fromUnsigned_one (hv : cfg.Valid) : Ibig.UBig.fromUnsigned cfg 8 1 = .ok (.small 1) :=
  if_pos (lt_of_lt_of_le one_lt_two (two_le_base hv.W1))

theorem takes_isEven (hv : cfg.Valid) {a : UBig} (ha : a.WF cfg) :
    Takes (UBig.isEven cfg a) 66 (fun e => e = decide (a.value cfg % 2 = 0)) := by
  refine Takes.post (P := fun _ => True) ?_ (UBig.isEven_result cfg a)
    (by rw [UBig.isEven_spec hv ha]; exact Post.ok rfl)
  unfold UBig.isEven UBig.bitandUnsigned
  refine Takes.bind (n := 66) (P := fun _ => True) ?_ (by omega) fun _ _ _ _ => Takes.pure trivial
  refine Takes.bind (n := 32) (P := fun r => r = .small 1) (Takes.pass (by
    rw [fromUnsigned_one hv]; exact Post.ok rfl)) (by omega) ?_
  rintro r M hM rfl
  refine Takes.bind (n := 1) (P := fun _ => True) ?_ (by omega) (fun c M1 hM1 _ => ?_)
  · show Takes (UBig.bitandVR cfg (.small 1) a) _ _
    cases a with
    | small w => exact Takes.pure trivial
    | large b => exact takes_bitandWordLarge _ _
  · refine Takes.bind (n := 32) (Takes.pass (Post.true _)) (by omega) (fun t M2 hM2 _ => ?_)
    exact (takes_word1 _).mono (by omega) fun _ h => h

/-- the numbers of words of `u`, `v` and of the smaller of them -/
structure Sizes (cfg : Cfg) (u v : UBig) (n m k : ℕ) : Prop where
  wu : u.WF cfg
  wv : v.WF cfg
  n1 : 1 ≤ n
  m1 : 1 ≤ m
  k1 : 1 ≤ k
  kn : k ≤ n
  km : k ≤ m
  un : u.value cfg < 2 ^ (n * cfg.W)
  vm : v.value cfg < 2 ^ (m * cfg.W)
  par : ¬(u.value cfg % 2 = 0 ∧ v.value cfg % 2 = 0)

theorem len_double (hv : cfg.Valid) {x v : UBig} {m : ℕ} (hx : x.WF cfg) (h : x.value cfg ≤ 2 * v.value cfg)
    (hm : v.value cfg < 2 ^ (m * cfg.W)) : x.len ≤ m + 1 := by
  refine UBig.len_le hv hx (Nat.le_add_left _ _) ?_
  have h1 := hv.W1
  calc x.value cfg < 2 ^ (m * cfg.W + 1) := by rw [pow_succ]; omega
    _ ≤ _ := Nat.pow_le_pow_right (by norm_num) (by rw [Nat.add_mul]; omega)

theorem takes_addUV (hv : cfg.Valid) {u v : UBig} {n m k : ℕ} (hs : Sizes cfg u v n m k) {p : GcdTriple}
    (hx : p.x.WF cfg) (hy : p.y.WF cfg) (hxl : p.x.len ≤ m) (hyl : p.y.len ≤ n) :
    Takes (GcdTriple.addUV cfg u v p) (26 * (n + m)) (fun _ => True) := by
  unfold GcdTriple.addUV
  refine Takes.bind (takes_uadd' hv .val .ref hx hs.wv hxl (UBig.len_le hv hs.wv hs.m1 hs.vm)) (by omega) ?_
  rintro x M hM _
  refine Takes.bind (takes_uadd' hv .val .ref hy hs.wu hyl (UBig.len_le hv hs.wu hs.n1 hs.un)) (by omega) ?_
  rintro y M1 hM1 _
  exact Takes.pure trivial

theorem GInv.lens (hv : cfg.Valid) {u v : UBig} {n m k : ℕ} (hs : Sizes cfg u v n m k) {p : GcdTriple}
    (hp : GInv cfg (u.value cfg) (v.value cfg) p) : p.x.len ≤ m ∧ p.y.len ≤ n :=
  ⟨UBig.len_le hv hp.x hs.m1 (lt_of_le_of_lt hp.x_le hs.vm),
   UBig.len_le hv hp.y hs.n1 (lt_of_le_of_lt hp.y_le hs.un)⟩

theorem takes_makeEven (hv : cfg.Valid) {u v : UBig} {n m k : ℕ} (hs : Sizes cfg u v n m k) {p : GcdTriple}
    (hp : GInv cfg (u.value cfg) (v.value cfg) p) (he : p.a.value cfg % 2 = 0) :
    Takes (GcdTriple.makeEven cfg u v p) (26 * (n + m) + 132) (fun r =>
      r.a = p.a ∧ r.x.WF cfg ∧ r.y.WF cfg ∧ r.x.value cfg % 2 = 0 ∧ r.y.value cfg % 2 = 0 ∧
      r.x.value cfg ≤ 2 * v.value cfg ∧ r.y.value cfg ≤ 2 * u.value cfg ∧
      r.a.value cfg + r.y.value cfg * v.value cfg = r.x.value cfg * u.value cfg) := by
  refine Takes.post (P := fun _ => True) ?_ (GcdTriple.makeEven_result ..)
    (rt_post (GcdTriple.makeEven_spec hv hs.wu hs.wv hs.par hp he))
  unfold GcdTriple.makeEven
  refine Takes.bind (takes_isEven hv hp.x) (by omega) (fun _ M hM _ => ?_)
  refine Takes.bind (takes_isEven hv hp.y) (by omega) (fun _ M1 hM1 _ => ?_)
  refine Takes.ite (fun _ => ?_) fun _ => Takes.pure trivial
  have hl := GInv.lens hv hs hp
  exact (takes_addUV hv hs hp.x hp.y hl.1 hl.2).mono (by omega) fun _ h => h

theorem log2_half {a : ℕ} (h0 : a ≠ 0) (he : a % 2 = 0) : Nat.log2 (a / 2) + 1 = Nat.log2 a := by
  rw [Nat.log2_def a, if_pos (by omega)]

theorem pays_halve (hv : cfg.Valid) {u v : UBig} {n m k : ℕ} (hs : Sizes cfg u v n m k) : ∀ (fuel : ℕ) {p : GcdTriple},
    GInv cfg (u.value cfg) (v.value cfg) p → p.a.value cfg ≠ 0 → p.a.value cfg < 2 ^ (k * cfg.W) →
    Pays (GcdTriple.halve cfg u v fuel p) (142 * (n + m) * Nat.log2 (p.a.value cfg) + 67)
      (fun r => 142 * (n + m) * Nat.log2 (r.a.value cfg))
      (fun r => GInv cfg (u.value cfg) (v.value cfg) r ∧ r.a.value cfg % 2 = 1 ∧
        r.a.value cfg < 2 ^ (k * cfg.W) ∧ ∃ z, p.a.value cfg = 2 ^ z * r.a.value cfg) := by
  intro fuel
  induction fuel with
  | zero => intro p _ _ _ b l hb; cases hb
  | succ fuel ih =>
    intro p hp h0 hk
    have h1 := hs.k1
    have h2 := hs.kn
    have h3 := hs.km
    unfold GcdTriple.halve
    refine Pays.bind takes_tick (by omega) (fun _ M hM _ => ?_)
    refine Pays.bind (takes_isEven hv hp.a) (by omega) (fun e M1 hM1 he => ?_)
    by_cases hev : p.a.value cfg % 2 = 0
    · rw [he, decide_eq_true hev]
      show Pays (do let p ← GcdTriple.makeEven cfg u v p; _) _ _ _
      have hl := log2_half h0 hev
      rw [← hl, Nat.mul_add, Nat.mul_one] at hM
      generalize hN : 142 * (n + m) * Nat.log2 (p.a.value cfg / 2) = N at *
      refine Pays.bind (takes_makeEven hv hs hp hev) (by omega) ?_
      rintro r M2 hM2 ⟨ra, rx, ry, ex, ey, lx, ly, req⟩
      refine Pays.bind (takes_ushrVal' hv (ra ▸ hp.a : r.a.WF cfg) 1
        (UBig.len_le hv (ra ▸ hp.a : r.a.WF cfg) h1 (by rw [ra]; exact hk))) (by omega) ?_
      rintro a M3 hM3 ⟨wa, va⟩
      refine Pays.bind (takes_ushrVal' hv rx 1 (len_double hv rx lx hs.vm)) (by omega) ?_
      rintro x M4 hM4 ⟨wx, vx⟩
      refine Pays.bind (takes_ushrVal' hv ry 1 (len_double hv ry ly hs.un)) (by omega) ?_
      rintro y M5 hM5 ⟨wy, vy⟩
      rw [pow_one] at va vx vy
      rw [ra] at va req
      have hle := hp.a_le
      have hinv : GInv cfg (u.value cfg) (v.value cfg) ⟨a, x, y⟩ := by
        refine ⟨wa, wx, wy, ?_, ?_, ?_, ?_⟩
        · show a.value cfg + y.value cfg * _ = x.value cfg * _
          rw [va, vx, vy]; exact halve_eq req hev ex ey
        · show x.value cfg ≤ _
          omega
        · show y.value cfg ≤ _
          omega
        · show a.value cfg ≤ _
          omega
      intro t l ht
      obtain ⟨t1, t2, t3, t4, z, t5⟩ := ih hinv (by show a.value cfg ≠ 0; omega)
        (by show a.value cfg < _; omega) t l ht
      have t1' : l + 142 * (n + m) * Nat.log2 (t.a.value cfg) ≤
          142 * (n + m) * Nat.log2 (a.value cfg) + 67 := t1
      rw [va, hN] at t1'
      refine ⟨by dsimp only; omega, t2, t3, t4, z + 1, ?_⟩
      have t6 : a.value cfg = 2 ^ z * t.a.value cfg := t5
      rw [Nat.pow_succ, Nat.mul_comm (2 ^ z) 2, Nat.mul_assoc, ← t6]
      omega
    · rw [he, decide_eq_false hev]
      intro t l ht
      cases ht
      exact ⟨by dsimp only; omega, hp, by omega, hk, 0, by simp⟩

theorem takes_makeGe (hv : cfg.Valid) {u v : UBig} {n m k : ℕ} (hs : Sizes cfg u v n m k) {p q : GcdTriple}
    (hp : GInv cfg (u.value cfg) (v.value cfg) p) (hq : GInv cfg (u.value cfg) (v.value cfg) q) {a : UBig} :
    Takes (GcdTriple.makeGe cfg u v ⟨a, p.x, p.y⟩ q) (26 * (n + m) + m + 1) (fun r =>
      r.a = a ∧ r.x.WF cfg ∧ r.y.WF cfg ∧ q.x.value cfg ≤ r.x.value cfg ∧
      r.x.value cfg ≤ q.x.value cfg + v.value cfg ∧
      p.a.value cfg + r.y.value cfg * v.value cfg = r.x.value cfg * u.value cfg) := by
  refine Takes.post (P := fun _ => True) ?_ (GcdTriple.makeGe_result ..)
    (rt_post (GcdTriple.makeGe_spec hv hs.wu hs.wv hp hq))
  unfold GcdTriple.makeGe
  have hl := GInv.lens hv hs hp
  refine Takes.bind (takes_lt hv hp.x hq.x (n := m) (by omega)) (by omega) (fun _ M hM _ => ?_)
  refine Takes.ite (fun _ => ?_) fun _ => Takes.pure trivial
  exact (takes_addUV hv hs (p := ⟨a, p.x, p.y⟩) hp.x hp.y hl.1 hl.2).mono (by omega) fun _ h => h

theorem log2_mono {a b : ℕ} (h : a ≤ b) : Nat.log2 a ≤ Nat.log2 b := by
  rw [Nat.log2_eq_log_two, Nat.log2_eq_log_two]
  exact Nat.log_mono_right h

theorem takes_extGcdLoop (hv : cfg.Valid) {u v : UBig} {n m k : ℕ} (hs : Sizes cfg u v n m k) :
    ∀ (fuel : ℕ) {p q : GcdTriple},
    GInv cfg (u.value cfg) (v.value cfg) p → GInv cfg (u.value cfg) (v.value cfg) q → q.a.value cfg % 2 = 1 →
    p.a.value cfg < 2 ^ (k * cfg.W) → q.a.value cfg < 2 ^ (k * cfg.W) →
    Takes (extGcdLoop cfg u v fuel p q)
      (257 * (n + m) * (Nat.log2 (p.a.value cfg) + Nat.log2 (q.a.value cfg)) +
        115 * (n + m) * (p.a.value cfg % 2) + 1)
      (fun r => r.a.WF cfg ∧ r.a.value cfg < 2 ^ (k * cfg.W)) := by
  intro fuel
  induction fuel with
  | zero => intro p q _ _ _ _ _; exact Takes.throwT
  | succ fuel ih =>
    intro p q hp hq hodd hpk hqk
    have h1 := hs.k1
    have h2 := hs.kn
    have h3 := hs.km
    unfold extGcdLoop
    refine Takes.bind takes_tick (by omega) (fun _ M hM _ => ?_)
    by_cases h0 : p.a.value cfg = 0
    · rw [if_pos ((UBig.beq_zero hv hp.a).mpr h0)]
      exact Takes.pure ⟨hq.a, hqk⟩
    rw [if_neg (fun h => h0 ((UBig.beq_zero hv hp.a).mp h))]
    -- the budget
    have hM' : M = 257 * (n + m) * (Nat.log2 (p.a.value cfg) + Nat.log2 (q.a.value cfg)) +
        115 * (n + m) * (p.a.value cfg % 2) := by omega
    have hone : 1 ≤ Nat.log2 (p.a.value cfg) + p.a.value cfg % 2 := by
      by_contra hc
      have h4 : p.a.value cfg % 2 = 0 := by omega
      have h5 := log2_half h0 h4
      omega
    have hM2 : 142 * (n + m) * Nat.log2 (p.a.value cfg) + 67 ≤ M := by
      rw [hM']
      have : 115 * (n + m) * 1 ≤ 115 * (n + m) * (Nat.log2 (p.a.value cfg) + p.a.value cfg % 2) :=
        Nat.mul_le_mul_left _ hone
      nlinarith [Nat.zero_le ((n + m) * Nat.log2 (q.a.value cfg))]
    refine Pays.takes (pays_halve hv hs _ hp h0 hpk) hM2 ?_
    rintro r ⟨hr, rodd, hrk, z, hz⟩
    have hr0 : r.a.value cfg ≠ 0 := by omega
    -- each round removes a bit, except if the first number is odd
    have hbit : Nat.log2 (r.a.value cfg) + 1 ≤ Nat.log2 (p.a.value cfg) + p.a.value cfg % 2 := by
      cases z with
      | zero =>
        rw [pow_zero, Nat.one_mul] at hz
        rw [hz]; omega
      | succ z =>
        have : p.a.value cfg % 2 = 0 := Nat.mod_eq_zero_of_dvd ⟨2 ^ z * r.a.value cfg, by rw [hz, pow_succ]; ring⟩
        have h5 := log2_half h0 this
        have : r.a.value cfg ≤ p.a.value cfg / 2 := by
          rw [hz, pow_succ, Nat.mul_comm (2 ^ z), Nat.mul_assoc, Nat.mul_div_cancel_left _ (by norm_num)]
          exact Nat.le_mul_of_pos_left _ (Nat.two_pow_pos z)
        have := log2_mono this
        omega
    have hB : 142 * (n + m) * Nat.log2 (r.a.value cfg) +
        (M - (142 * (n + m) * Nat.log2 (p.a.value cfg) + 67)) ≥
        257 * (n + m) * (Nat.log2 (r.a.value cfg) + Nat.log2 (q.a.value cfg)) + (115 * (n + m) - 67) := by
      have : 115 * (n + m) * (Nat.log2 (r.a.value cfg) + 1) ≤
          115 * (n + m) * (Nat.log2 (p.a.value cfg) + p.a.value cfg % 2) := Nat.mul_le_mul_left _ hbit
      have : 257 * (n + m) * (Nat.log2 (r.a.value cfg) + Nat.log2 (q.a.value cfg)) + 115 * (n + m) +
          142 * (n + m) * Nat.log2 (p.a.value cfg) ≤ 142 * (n + m) * Nat.log2 (r.a.value cfg) + M := by
        rw [hM']
        linarith
      omega
    refine Takes.mono (n := 257 * (n + m) * (Nat.log2 (r.a.value cfg) + Nat.log2 (q.a.value cfg)) +
      (115 * (n + m) - 67)) ?_ hB fun _ h => h
    clear hB hM' hM2 hone hbit hM
    have lr := UBig.len_le hv hr.a h1 hrk
    have lq := UBig.len_le hv hq.a h1 hqk
    refine Takes.bind (takes_lt hv hr.a hq.a (n := k) (by omega)) (by omega) (fun t M1 hM1 ht => ?_)
    rw [ht]
    obtain ⟨hle, hps⟩ := swap_cases (v := fun t : GcdTriple => t.a.value cfg) (a := r) (b := q)
    generalize (if decide (r.a.value cfg < q.a.value cfg) = true then (q, r) else (r, q)) = s at *
    have w1 : GInv cfg (u.value cfg) (v.value cfg) s.1 ∧ s.1.a.value cfg < 2 ^ (k * cfg.W) := by
      rcases hps with ⟨e1, e2⟩ | ⟨e1, e2⟩ <;> rw [e1] <;> exact ⟨by assumption, by assumption⟩
    have w2 : GInv cfg (u.value cfg) (v.value cfg) s.2 ∧ s.2.a.value cfg < 2 ^ (k * cfg.W) := by
      rcases hps with ⟨e1, e2⟩ | ⟨e1, e2⟩ <;> rw [e2] <;> exact ⟨by assumption, by assumption⟩
    have o1 : s.1.a.value cfg % 2 = 1 := by
      rcases hps with ⟨e1, e2⟩ | ⟨e1, e2⟩ <;> rw [e1] <;> assumption
    have o2 : s.2.a.value cfg % 2 = 1 := by
      rcases hps with ⟨e1, e2⟩ | ⟨e1, e2⟩ <;> rw [e2] <;> assumption
    have hlog : Nat.log2 (r.a.value cfg) + Nat.log2 (q.a.value cfg) =
        Nat.log2 (s.1.a.value cfg) + Nat.log2 (s.2.a.value cfg) := by
      rcases hps with ⟨e1, e2⟩ | ⟨e1, e2⟩ <;> rw [e1, e2]
      exact Nat.add_comm _ _
    rw [hlog] at hM1
    clear hlog
    refine Takes.bind (takes_usub' hv .val .ref w1.1.a w2.1.a hle (UBig.len_le hv w1.1.a h1 w1.2)
      (UBig.len_le hv w2.1.a h1 w2.2)) (by omega) ?_
    rintro d M2 hM2 ⟨hd, vd⟩
    refine Takes.bind (takes_makeGe hv hs w1.1 w2.1) (by omega) ?_
    rintro t M3 hM3 ⟨ta, tx, ty, t1, t2, t3⟩
    have hlt : s.1.a.value cfg - s.2.a.value cfg < v.value cfg := by
      have := w1.1.a_le
      omega
    obtain ⟨y1, y2, y3⟩ := sub_step t3 w2.1.eq t1 t2 hle hlt
    have hl := GInv.lens hv hs w2.1
    have hx2 : t.x.value cfg ≤ 2 * v.value cfg := by
      have := w2.1.x_le
      omega
    have hy2 : t.y.value cfg ≤ 2 * u.value cfg := by
      have := w2.1.y_le
      omega
    refine Takes.bind (takes_usub' hv .val .ref tx w2.1.x t1 (len_double hv tx hx2 hs.vm) hl.1) (by omega) ?_
    rintro x M4 hM4 ⟨hx, vx⟩
    refine Takes.bind (takes_usub' hv .val .ref ty w2.1.y y1 (len_double hv ty hy2 hs.un) hl.2) (by omega) ?_
    rintro y M5 hM5 ⟨hy, vy⟩
    rw [ta]
    have hinv : GInv cfg (u.value cfg) (v.value cfg) ⟨d, x, y⟩ := by
      refine ⟨hd, hx, hy, ?_, ?_, ?_, ?_⟩
      · show d.value cfg + y.value cfg * _ = x.value cfg * _
        rw [vd, vx, vy]; exact y2
      · show x.value cfg ≤ _
        omega
      · show y.value cfg ≤ _
        omega
      · show d.value cfg ≤ _
        omega
    refine (ih hinv w2.1 o2 (by show d.value cfg < _; omega) w2.2).mono ?_ fun _ h => h
    show 257 * (n + m) * (Nat.log2 (d.value cfg) + _) + 115 * (n + m) * (d.value cfg % 2) + 1 ≤ M5
    have hde : d.value cfg % 2 = 0 := by omega
    have hdl : Nat.log2 (d.value cfg) ≤ Nat.log2 (s.1.a.value cfg) := log2_mono (by omega)
    have : 257 * (n + m) * (Nat.log2 (d.value cfg) + Nat.log2 (s.2.a.value cfg)) ≤
        257 * (n + m) * (Nat.log2 (s.1.a.value cfg) + Nat.log2 (s.2.a.value cfg)) :=
      Nat.mul_le_mul_left _ (by omega)
    rw [hde, Nat.mul_zero]
    omega

theorem Takes.and {α : Type} {x : Timed α} {y : R α} {n : ℕ} {P Q : α → Prop} (hx : Takes x n P)
    (hr : x.result = y) (hp : Post y Q) : Takes x n (fun a => P a ∧ Q a) :=
  fun a k h => ⟨(hx a k h).1, (hx a k h).2, hp a (by rw [← hr]; exact result_of_ok h)⟩

theorem takes_udivRem' (hv : cfg.Valid) (o1 o2 : Own) {a b : UBig} (ha : a.WF cfg) (hb : b.WF cfg)
    (h0 : b.value cfg ≠ 0) {n m : ℕ} (hn : a.len ≤ n) (hm : b.len ≤ m) :
    Takes (UBig.divRem cfg o1 o2 a b) ⌊divBound n m⌋₊ (fun c => c.1.WF cfg ∧ c.2.WF cfg ∧
      c.1.value cfg = a.value cfg / b.value cfg ∧ c.2.value cfg = a.value cfg % b.value cfg) :=
  takes_of_steps (fun _ _ h => (UBig.divRem_steps hv o1 o2 ha hb h).trans (divBound_mono hn hm))
    (UBig.divRem_result ..) (Post.of_returns ((UBig.divRem_spec hv o1 o2 ha hb).1 h0))

theorem takes_extGcdStart (hv : cfg.Valid) {u v : UBig} {n m : ℕ} (hs : Sizes cfg u v n m (min n m))
    (u0 : u.value cfg ≠ 0) (v0 : v.value cfg ≠ 0) :
    Takes (extGcdStart cfg u v) (⌊divBound (max n m) (min n m)⌋₊ + 42 * (n + m) + min n m + 16)
      (fun s => (s.1.a.value cfg ≤ min (u.value cfg) (v.value cfg) ∧
        s.2.a.value cfg ≤ min (u.value cfg) (v.value cfg)) ∧
        GInv cfg (u.value cfg) (v.value cfg) s.1 ∧ GInv cfg (u.value cfg) (v.value cfg) s.2 ∧
        Nat.gcd (s.1.a.value cfg) (s.2.a.value cfg) = Nat.gcd (u.value cfg) (v.value cfg)) := by
  refine Takes.and ?_ (extGcdStart_result cfg u v) (Post.of_returns (extGcdStart_spec hv hs.wu hs.wv u0 v0))
  unfold extGcdStart
  have hn := hs.n1
  have hm := hs.m1
  have lu := UBig.len_le hv hs.wu hs.n1 hs.un
  have lv := UBig.len_le hv hs.wv hs.m1 hs.vm
  have one : (UBig.small 1).WF cfg := wf_small (lt_of_lt_of_le one_lt_two (two_le_base hv.W1))
  generalize hD : ⌊divBound (max n m) (min n m)⌋₊ = D
  refine Takes.bind (takes_le hv hs.wu hs.wv (n := min n m) (by omega)) (by omega) (fun t M hM ht => ?_)
  by_cases hle : u.value cfg ≤ v.value cfg
  · rw [ht, decide_eq_true hle]
    show Takes (do let d ← UBig.divRem cfg .ref .ref v u; _) _ _
    have lu' : u.len ≤ min n m := by
      refine UBig.len_le hv hs.wu hs.k1 ?_
      rcases Nat.le_total n m with h | h
      · rw [Nat.min_eq_left h]; exact hs.un
      · rw [Nat.min_eq_right h]; exact lt_of_le_of_lt hle hs.vm
    refine Takes.bind (n := D) (hD ▸ takes_udivRem' hv .ref .ref hs.wv hs.wu u0 (n := max n m) (by omega) lu')
      (by omega) ?_
    rintro ⟨q, r⟩ M1 hM1 ⟨wq, wr, vq, vr⟩
    dsimp only at wq wr vq vr ⊢
    refine Takes.bind (takes_uclone hs.wu) (by omega) ?_
    rintro a M2 hM2 ⟨wa, va⟩
    have hqv : q.value cfg ≤ v.value cfg := by rw [vq]; exact Nat.div_le_self _ _
    refine Takes.bind (takes_usub' hv .ref .val hs.wv wq hqv lv
      (UBig.len_le hv wq hs.m1 (lt_of_le_of_lt hqv hs.vm))) (by omega) ?_
    rintro bx M3 hM3 _
    refine Takes.bind (takes_usub' hv .ref .val hs.wu one (by show 1 ≤ _; omega) lu (m := 1) (le_refl 1)) (by omega) ?_
    rintro y M4 hM4 _
    refine Takes.pure ⟨?_, ?_⟩
    · show a.value cfg ≤ _
      rw [va]; exact le_min (le_refl _) hle
    · show r.value cfg ≤ _
      have : v.value cfg % u.value cfg < u.value cfg := Nat.mod_lt _ (by omega)
      rw [vr]; exact le_min this.le (this.le.trans hle)
  · rw [ht, decide_eq_false hle]
    show Takes (do let d ← UBig.divRem cfg .ref .ref u v; _) _ _
    have hlt : v.value cfg < u.value cfg := by omega
    have lv' : v.len ≤ min n m := by
      refine UBig.len_le hv hs.wv hs.k1 ?_
      rcases Nat.le_total n m with h | h
      · rw [Nat.min_eq_left h]; exact lt_trans hlt hs.un
      · rw [Nat.min_eq_right h]; exact hs.vm
    refine Takes.bind (n := D) (hD ▸ takes_udivRem' hv .ref .ref hs.wu hs.wv v0 (n := max n m) (by omega) lv')
      (by omega) ?_
    rintro ⟨q, r⟩ M1 hM1 ⟨wq, wr, vq, vr⟩
    dsimp only at wq wr vq vr ⊢
    refine Takes.bind (takes_uclone hs.wv) (by omega) ?_
    rintro a M2 hM2 ⟨wa, va⟩
    refine Takes.bind (takes_uclone hs.wv) (by omega) ?_
    rintro ax M3 hM3 _
    refine Takes.bind (takes_usub' hv .ref .val hs.wu one (by show 1 ≤ _; omega) lu (m := 1) (le_refl 1)) (by omega) ?_
    rintro y M4 hM4 _
    refine Takes.pure ⟨?_, ?_⟩
    · show a.value cfg ≤ _
      rw [va]; exact le_min hlt.le (le_refl _)
    · show r.value cfg ≤ _
      have : u.value cfg % v.value cfg < v.value cfg := Nat.mod_lt _ (by omega)
      rw [vr]; exact le_min (this.le.trans hlt.le) this.le

theorem log2_lt_of_lt {a b : ℕ} (hb : 1 ≤ b) (h : a < 2 ^ b) : Nat.log2 a + 1 ≤ b := by
  by_cases h0 : a = 0
  · rw [h0]
    show 0 + 1 ≤ b
    omega
  · exact (Nat.log2_lt h0).mpr h

/-- The steps of `extended_gcd`, at most, for numbers of `n` and `m` words. -/
noncomputable def extGcdCost (W n m : ℕ) : ℕ := 514 * (n + m) * (min n m * W) + ⌊divBound (max n m) (min n m)⌋₊

theorem takes_extendedGcdNonzero (hv : cfg.Valid) {a b : UBig} (ha : a.WF cfg) (hb : b.WF cfg) {n m i j : ℕ}
    (hn : 1 ≤ n) (hm : 1 ≤ m) (han : a.value cfg < 2 ^ (n * cfg.W)) (hbm : b.value cfg < 2 ^ (m * cfg.W))
    (hi : a.value cfg ≠ 0 ∧ 2 ^ i ∣ a.value cfg ∧ ¬2 ^ (i + 1) ∣ a.value cfg)
    (hj : b.value cfg ≠ 0 ∧ 2 ^ j ∣ b.value cfg ∧ ¬2 ^ (j + 1) ∣ b.value cfg) :
    Takes (UBig.extendedGcdNonzero cfg a b (min i j)) (extGcdCost cfg.W n m - 5 * (n + m)) (fun _ => True) := by
  have hk : 1 ≤ min n m := le_min hn hm
  have da : 2 ^ min i j ∣ a.value cfg := dvd_trans (pow_dvd_pow 2 (Nat.min_le_left _ _)) hi.2.1
  have db : 2 ^ min i j ∣ b.value cfg := dvd_trans (pow_dvd_pow 2 (Nat.min_le_right _ _)) hj.2.1
  have hpar : ¬(a.value cfg / 2 ^ min i j % 2 = 0 ∧ b.value cfg / 2 ^ min i j % 2 = 0) := by
    rintro ⟨e1, e2⟩
    have d1 : 2 ^ (min i j + 1) ∣ a.value cfg := by
      rw [Nat.pow_succ]
      exact Nat.mul_dvd_of_dvd_div da (Nat.dvd_of_mod_eq_zero e1)
    have d2 : 2 ^ (min i j + 1) ∣ b.value cfg := by
      rw [Nat.pow_succ]
      exact Nat.mul_dvd_of_dvd_div db (Nat.dvd_of_mod_eq_zero e2)
    rcases Nat.le_total i j with h | h
    · rw [Nat.min_eq_left h] at d1; exact hi.2.2 d1
    · rw [Nat.min_eq_right h] at d2; exact hj.2.2 d2
  have hzw : min i j / cfg.W ≤ min n m := by
    have key : ∀ {c l : ℕ}, c ≠ 0 → 2 ^ min i j ∣ c → c < 2 ^ (l * cfg.W) → min i j / cfg.W ≤ l := by
      intro c l h0 hd hl
      have h1 := lt_of_le_of_lt (Nat.le_of_dvd (by omega) hd) hl
      have h2 := (Nat.pow_lt_pow_iff_right (by norm_num : 1 < 2)).mp h1
      exact Nat.div_le_of_le_mul (by rw [Nat.mul_comm]; omega)
    exact le_min (key hi.1 da han) (key hj.1 db hbm)
  generalize min i j = z at *
  have hW := hv.W16
  have hkW : 1 ≤ min n m * cfg.W := Nat.mul_pos hk (by omega)
  have hsplit : 514 * (n + m) * (min n m * cfg.W) = 257 * (n + m) * (2 * (min n m * cfg.W) - 2) + 514 * (n + m) := by
    obtain ⟨t, ht⟩ : ∃ t, min n m * cfg.W = t + 1 := ⟨min n m * cfg.W - 1, by omega⟩
    rw [ht, show 2 * (t + 1) - 2 = 2 * t by omega]
    ring
  unfold UBig.extendedGcdNonzero extGcdCost
  rw [hsplit]
  generalize hL : 257 * (n + m) * (2 * (min n m * cfg.W) - 2) = L
  refine Takes.bind (takes_ushr' hv .ref ha z (UBig.len_le hv ha hn han)) (by omega) ?_
  rintro u M hM ⟨hu, vu⟩
  refine Takes.bind (takes_ushr' hv .ref hb z (UBig.len_le hv hb hm hbm)) (by omega) ?_
  rintro v M1 hM1 ⟨hw, vv⟩
  rw [← vu, ← vv] at hpar
  have hun : u.value cfg < 2 ^ (n * cfg.W) := by rw [vu]; exact lt_of_le_of_lt (Nat.div_le_self _ _) han
  have hvm : v.value cfg < 2 ^ (m * cfg.W) := by rw [vv]; exact lt_of_le_of_lt (Nat.div_le_self _ _) hbm
  have hs : Sizes cfg u v n m (min n m) :=
    ⟨hu, hw, hn, hm, hk, Nat.min_le_left _ _, Nat.min_le_right _ _, hun, hvm, hpar⟩
  have u0 : u.value cfg ≠ 0 := by
    rw [vu]; exact (Nat.div_pos (Nat.le_of_dvd (by omega) da) (Nat.two_pow_pos z)).ne'
  have v0 : v.value cfg ≠ 0 := by
    rw [vv]; exact (Nat.div_pos (Nat.le_of_dvd (by omega) db) (Nat.two_pow_pos z)).ne'
  refine Takes.bind (takes_extGcdStart hv hs u0 v0) (by omega) ?_
  rintro ⟨p, q⟩ M2 hM2 ⟨⟨hp1, hq1⟩, hp, hq, hg⟩
  dsimp only at hp1 hq1 hp hq hg ⊢
  have hmin : min (u.value cfg) (v.value cfg) < 2 ^ (min n m * cfg.W) := by
    rcases Nat.le_total n m with h | h
    · rw [Nat.min_eq_left h]; exact lt_of_le_of_lt (Nat.min_le_left _ _) hun
    · rw [Nat.min_eq_right h]; exact lt_of_le_of_lt (Nat.min_le_right _ _) hvm
  have hpk := lt_of_le_of_lt hp1 hmin
  have hqk := lt_of_le_of_lt hq1 hmin
  refine Takes.bind (takes_isEven hv hq.a) (by omega) (fun e M3 hM3 he => ?_)
  have hnb : ¬(p.a.value cfg % 2 = 0 ∧ q.a.value cfg % 2 = 0) := by
    rintro ⟨e1, e2⟩
    have h2 : 2 ∣ Nat.gcd (u.value cfg) (v.value cfg) := by
      rw [← hg]
      exact Nat.dvd_gcd (Nat.dvd_of_mod_eq_zero e1) (Nat.dvd_of_mod_eq_zero e2)
    exact hpar ⟨Nat.mod_eq_zero_of_dvd (dvd_trans h2 (Nat.gcd_dvd_left _ _)),
      Nat.mod_eq_zero_of_dvd (dvd_trans h2 (Nat.gcd_dvd_right _ _))⟩
  have loop : ∀ {p q : GcdTriple}, GInv cfg (u.value cfg) (v.value cfg) p →
      GInv cfg (u.value cfg) (v.value cfg) q → q.a.value cfg % 2 = 1 →
      p.a.value cfg < 2 ^ (min n m * cfg.W) → q.a.value cfg < 2 ^ (min n m * cfg.W) → ∀ fuel,
      Takes (extGcdLoop cfg u v fuel p q) (L + 115 * (n + m) + 1)
        (fun r => r.a.WF cfg ∧ r.a.value cfg < 2 ^ (min n m * cfg.W)) := by
    intro p q hp hq hodd hpk hqk fuel
    refine (takes_extGcdLoop hv hs fuel hp hq hodd hpk hqk).mono ?_ fun _ h => h
    have h1 := log2_lt_of_lt hkW hpk
    have h2 := log2_lt_of_lt hkW hqk
    have h3 : 257 * (n + m) * (Nat.log2 (p.a.value cfg) + Nat.log2 (q.a.value cfg)) ≤ L := by
      rw [← hL]; exact Nat.mul_le_mul_left _ (by omega)
    have h4 : 115 * (n + m) * (p.a.value cfg % 2) ≤ 115 * (n + m) * 1 :=
      Nat.mul_le_mul_left _ (by omega)
    omega
  have fin : ∀ {p q : GcdTriple}, GInv cfg (u.value cfg) (v.value cfg) p →
      GInv cfg (u.value cfg) (v.value cfg) q → q.a.value cfg % 2 = 1 →
      p.a.value cfg < 2 ^ (min n m * cfg.W) → q.a.value cfg < 2 ^ (min n m * cfg.W) →
      Takes (do
        let q ← extGcdLoop cfg u v (gcdFuel cfg p.a q.a) p q
        let g ← UBig.shl cfg .val q.a z
        pure (g, IBig.ofUBig q.x, (IBig.ofUBig q.y).neg)) M3 (fun _ => True) := by
    intro p q hp hq hodd hpk hqk
    refine Takes.bind (loop hp hq hodd hpk hqk _) (by omega) ?_
    rintro r M4 hM4 ⟨wr, vr⟩
    have lr := UBig.len_le hv wr hk vr
    exact Takes.bind (takes_ushl cfg .val r.a z) (by omega) fun _ _ _ _ => Takes.pure trivial
  by_cases hev : q.a.value cfg % 2 = 0
  · rw [he, decide_eq_true hev]
    exact fin hq hp (show p.a.value cfg % 2 = 1 by omega) hqk hpk
  · rw [he, decide_eq_false hev]
    exact fin hp hq (show q.a.value cfg % 2 = 1 by omega) hpk hqk

theorem takes_uextendedGcd (hv : cfg.Valid) {a b : UBig} (ha : a.WF cfg) (hb : b.WF cfg) {n m : ℕ} (hn : 1 ≤ n)
    (hm : 1 ≤ m) (han : a.value cfg < 2 ^ (n * cfg.W)) (hbm : b.value cfg < 2 ^ (m * cfg.W)) :
    Takes (UBig.extendedGcd cfg a b) (extGcdCost cfg.W n m) (fun _ => True) := by
  have la := UBig.len_le hv ha hn han
  have lb := UBig.len_le hv hb hm hbm
  have hbig : 514 * (n + m) ≤ extGcdCost cfg.W n m := by
    unfold extGcdCost
    have : 1 ≤ min n m * cfg.W := Nat.mul_pos (le_min hn hm) (by have := hv.W16; omega)
    have := Nat.mul_le_mul_left (514 * (n + m)) this
    omega
  unfold UBig.extendedGcd
  refine Takes.bind (takes_utrailingZeros' hv ha) (by omega) (fun z M2 hM2 hz => ?_)
  refine Takes.bind (takes_utrailingZeros' hv hb) (by omega) (fun w M3 hM3 hw => ?_)
  rcases z with _ | i <;> rcases w with _ | j
  · exact Takes.throwT
  · refine Takes.bind (takes_uclone hb) (by omega) (fun _ M4 hM4 _ => ?_)
    refine Takes.bind (n := 32) (Takes.pass (Post.true _)) (by omega) (fun _ M5 hM5 _ => ?_)
    exact Takes.bind (n := 32) (Takes.pass (Post.true _)) (by omega) fun _ _ _ _ => Takes.pure trivial
  · refine Takes.bind (takes_uclone ha) (by omega) (fun _ M4 hM4 _ => ?_)
    refine Takes.bind (n := 32) (Takes.pass (Post.true _)) (by omega) (fun _ M5 hM5 _ => ?_)
    exact Takes.bind (n := 32) (Takes.pass (Post.true _)) (by omega) fun _ _ _ _ => Takes.pure trivial
  · exact (takes_extendedGcdNonzero hv ha hb hn hm han hbm hz hw).mono (by omega) fun _ h => h

theorem takes_iextendedGcd (hv : cfg.Valid) {a b : IBig} (ha : a.mag.WF cfg) (hb : b.mag.WF cfg) {n m : ℕ}
    (hn : 1 ≤ n) (hm : 1 ≤ m)
    (han : a.mag.value cfg < 2 ^ (n * cfg.W)) (hbm : b.mag.value cfg < 2 ^ (m * cfg.W)) :
    Takes (IBig.extendedGcd cfg a b) (extGcdCost cfg.W n m) (fun _ => True) :=
  Takes.bind (takes_uextendedGcd hv ha hb hn hm han hbm) (le_refl _) fun _ _ _ _ => Takes.pure trivial

/-- division takes less time than the rest -/
theorem extGcdCost_le {W n m : ℕ} (hW : 16 ≤ W) (hn : 1 ≤ n) (hm : 1 ≤ m) :
    extGcdCost W n m ≤ 528 * (n + m) * min n m * W := by
  have h1 : divBound (max n m) (min n m) ≤ ((210 * (n + m) * min n m : ℕ) : ℝ) := by
    unfold divBound
    rw [Nat.min_eq_right (show min n m ≤ max n m by omega)]
    have h2 : ((min n m : ℕ) : ℝ) ^ (47 / 100 : ℝ) ≤ ((min n m : ℕ) : ℝ) := by
      have h3 : (1 : ℝ) ≤ ((min n m : ℕ) : ℝ) := by exact_mod_cast le_min hn hm
      calc ((min n m : ℕ) : ℝ) ^ (47 / 100 : ℝ) ≤ ((min n m : ℕ) : ℝ) ^ (1 : ℝ) :=
            Real.rpow_le_rpow_of_exponent_le h3 (by norm_num)
        _ = _ := Real.rpow_one _
    have h4 : ((max n m : ℕ) : ℝ) ≤ ((n + m : ℕ) : ℝ) := by exact_mod_cast (by omega : max n m ≤ n + m)
    rw [Nat.cast_mul, Nat.cast_mul]
    push_cast at h4 h2 ⊢
    have h5 : (0 : ℝ) ≤ min (n : ℝ) m := by positivity
    have h6 : (0 : ℝ) ≤ (n : ℝ) + m := by positivity
    refine mul_le_mul (by linarith) h2 (Real.rpow_nonneg h5 _) (by linarith)
  have h2 : ⌊divBound (max n m) (min n m)⌋₊ ≤ 210 * (n + m) * min n m := by
    have := Nat.floor_le_floor h1
    rwa [Nat.floor_natCast] at this
  unfold extGcdCost
  have h3 : 210 * (n + m) * min n m ≤ 14 * (n + m) * min n m * W := by
    have : 14 * (n + m) * min n m * 16 ≤ 14 * (n + m) * min n m * W := Nat.mul_le_mul_left _ hW
    nlinarith [Nat.zero_le ((n + m) * min n m)]
  calc _ ≤ 514 * (n + m) * (min n m * W) + 14 * (n + m) * min n m * W := by omega
    _ = _ := by ring

end

end Ibig.Timed
