import Verif.Proofs.Buffer
/-! Facts about `UBig`/`IBig`: canonical representation, signs, comparison. -/
namespace Ibig

/-- Equal values have equal words: the representation is canonical. -/
theorem UBig.canonical {cfg : Cfg} (hv : cfg.Valid) {a b : UBig} (ha : a.WF cfg) (hb : b.WF cfg)
    (h : a.value cfg = b.value cfg) :
    (∃ w, a = .small w ∧ b = .small w) ∨
      ∃ x y : Buffer, a = .large x ∧ b = .large y ∧ x.words = y.words := by
  cases a with
  | small v =>
    cases b with
    | small w => left; exact ⟨v, rfl, by simp only [UBig.value] at h; rw [h]⟩
    | large b =>
      have h1 := Buffer.WF.ge_base hb
      have h2 : v < base cfg.W := ha
      simp only [UBig.value] at h
      omega
  | large a =>
    cases b with
    | small w =>
      have h1 := Buffer.WF.ge_base ha
      have h2 : w < base cfg.W := hb
      simp only [UBig.value] at h
      omega
    | large b =>
      right
      refine ⟨a, b, rfl, rfl, ?_⟩
      have ha : a.WF cfg := ha
      have hb : b.WF cfg := hb
      simp only [UBig.value] at h
      have l1 : a.words.length - 1 < b.words.length := by
        have := lt_of_le_of_lt ha.ge (h ▸ hb.lt)
        exact (Nat.pow_lt_pow_iff_right (two_le_base hv.W1)).mp this
      have l2 : b.words.length - 1 < a.words.length := by
        have := lt_of_le_of_lt hb.ge (h ▸ ha.lt)
        exact (Nat.pow_lt_pow_iff_right (two_le_base hv.W1)).mp this
      have := ha.two
      have := hb.two
      exact val_inj ha.words hb.words (by omega) h

theorem UBig.beq_iff {cfg : Cfg} (hv : cfg.Valid) {a b : UBig} (ha : a.WF cfg) (hb : b.WF cfg) :
    a.beq b = true ↔ a.value cfg = b.value cfg := by
  constructor
  · intro h
    cases a <;> cases b <;> simp_all [UBig.beq, UBig.value]
  · intro h
    rcases UBig.canonical hv ha hb h with ⟨w, rfl, rfl⟩ | ⟨x, y, rfl, rfl, e⟩
    · simp [UBig.beq]
    · simp [UBig.beq, e]

theorem wf_small {cfg : Cfg} {w : Nat} (h : w < base cfg.W) : (UBig.small w).WF cfg := h

theorem wf_zero (cfg : Cfg) : (UBig.small 0).WF cfg := wf_small (base_pos _)

theorem UBig.beq_zero {cfg : Cfg} (hv : cfg.Valid) {a : UBig} (ha : a.WF cfg) :
    a.beq (.small 0) = true ↔ a.value cfg = 0 := UBig.beq_iff hv ha (wf_zero cfg)

theorem UBig.hash_eq {cfg : Cfg} (hv : cfg.Valid) {a b : UBig} (ha : a.WF cfg) (hb : b.WF cfg)
    (h : a.value cfg = b.value cfg) : a.hashTokens = b.hashTokens := by
  rcases UBig.canonical hv ha hb h with ⟨w, rfl, rfl⟩ | ⟨x, y, rfl, rfl, e⟩
  · rfl
  · simp [UBig.hashTokens, Buffer.len, e]

/-! ### Signs -/

theorem IBig.fromSignMagnitude_spec {cfg : Cfg} (hv : cfg.Valid) (s : Sign) {m : UBig}
    (hm : m.WF cfg) : (IBig.fromSignMagnitude s m).WF cfg ∧
      (IBig.fromSignMagnitude s m).value cfg = s.toInt * (m.value cfg : Int) := by
  unfold IBig.fromSignMagnitude
  split
  · rename_i h
    have h0 := (UBig.beq_zero hv hm).mp h
    exact ⟨⟨hm, fun _ => rfl⟩, by simp [IBig.value, h0]⟩
  · rename_i h
    refine ⟨⟨hm, fun h0 => absurd ((UBig.beq_zero hv hm).mpr h0) h⟩, rfl⟩

theorem IBig.ofUBig_spec {cfg : Cfg} (hv : cfg.Valid) {m : UBig} (hm : m.WF cfg) :
    (IBig.ofUBig m).WF cfg ∧ (IBig.ofUBig m).value cfg = (m.value cfg : Int) := by
  have := IBig.fromSignMagnitude_spec hv .pos hm
  unfold IBig.ofUBig
  simpa [Sign.toInt] using this

theorem IBig.neg_spec {cfg : Cfg} (hv : cfg.Valid) {x : IBig} (hx : x.WF cfg) :
    x.neg.WF cfg ∧ x.neg.value cfg = -x.value cfg := by
  have := IBig.fromSignMagnitude_spec hv x.sign.negate hx.mag
  refine ⟨this.1, ?_⟩
  unfold IBig.neg
  rw [this.2]
  simp [IBig.value]

theorem IBig.natAbs_value {cfg : Cfg} (x : IBig) : (x.value cfg).natAbs = x.mag.value cfg := by
  unfold IBig.value
  cases x.sign <;> simp [Sign.toInt]

theorem IBig.WF.fits {cfg : Cfg} (hv : cfg.Valid) {x : IBig} (h : x.WF cfg) :
    Fits cfg (x.value cfg).natAbs := by
  rw [IBig.natAbs_value]; exact UBig.WF.fits hv h.mag

theorem IBig.value_nonneg_iff {cfg : Cfg} {x : IBig} (h : x.WF cfg) :
    x.sign = .pos ↔ 0 ≤ x.value cfg := by
  unfold IBig.value
  rcases hs : x.sign with _ | _
  · simp [Sign.toInt]
  · simp only [reduceCtorEq, false_iff, not_le, Sign.toInt]
    have : x.mag.value cfg ≠ 0 := fun e => by have := h.zero e; rw [hs] at this; cases this
    omega

theorem IBig.canonical_sign {cfg : Cfg} {x y : IBig} (hx : x.WF cfg)
    (hy : y.WF cfg) (h : x.value cfg = y.value cfg) :
    x.sign = y.sign ∧ x.mag.value cfg = y.mag.value cfg := by
  have h1 := IBig.value_nonneg_iff hx
  have h2 := IBig.value_nonneg_iff hy
  have h3 : x.mag.value cfg = y.mag.value cfg := by
    rw [← IBig.natAbs_value x, ← IBig.natAbs_value y, h]
  rw [h, ← h2] at h1
  refine ⟨?_, h3⟩
  rcases hs : x.sign <;> rcases ht : y.sign <;> simp_all

theorem IBig.beq_iff {cfg : Cfg} (hv : cfg.Valid) {x y : IBig} (hx : x.WF cfg) (hy : y.WF cfg) :
    x.beq y = true ↔ x.value cfg = y.value cfg := by
  unfold IBig.beq
  rw [Bool.and_eq_true, UBig.beq_iff hv hx.mag hy.mag, beq_iff_eq]
  constructor
  · rintro ⟨h1, h2⟩; simp [IBig.value, h1, h2]
  · intro h; exact IBig.canonical_sign hx hy h

theorem IBig.hash_eq {cfg : Cfg} (hv : cfg.Valid) {x y : IBig} (hx : x.WF cfg) (hy : y.WF cfg)
    (h : x.value cfg = y.value cfg) : x.hashTokens = y.hashTokens := by
  obtain ⟨h1, h2⟩ := IBig.canonical_sign hx hy h
  unfold IBig.hashTokens
  rw [h1, UBig.hash_eq hv hx.mag hy.mag h2]

/-! ### Clones -/

theorem UBig.clone_spec {cfg : Cfg} {a : UBig} (ha : a.WF cfg) :
    Returns (a.clone cfg) fun c => c.WF cfg ∧ c.value cfg = a.value cfg := by
  cases a with
  | small w => exact returns_ok.mpr ⟨ha, rfl⟩
  | large b =>
    refine Returns.bind (Buffer.clone_spec ha) ?_
    rintro c ⟨h1, h2⟩
    exact returns_ok.mpr ⟨h1, by simp only [UBig.value, h2]⟩

theorem Buffer.resizingCloneFrom_spec {cfg : Cfg} {b src : Buffer} (hs : src.WF cfg) :
    Returns (b.resizingCloneFrom cfg src) fun c => c.WF cfg ∧ c.words = src.words := by
  have hl := hs.len
  unfold Buffer.resizingCloneFrom Buffer.len
  split
  · rename_i h1
    unfold maxCompactCapacity Cfg.maxCap
    have hh : src.words.length ≤ cfg.maxLen + 4 := by omega
    rw [assertR_true hh]
    refine Returns.bind (P := fun c => c = min (src.words.length + src.words.length / 4 + 4)
      (cfg.maxLen + 4)) ⟨_, rfl, rfl⟩ ?_
    rintro c rfl
    split
    · unfold Buffer.cloneFrom Buffer.len
      refine Returns.bind (returns_assertR h1) ?_
      rintro _ -
      rw [returns_ok]
      exact ⟨⟨hs.words, hs.two, hs.top, hs.len, h1, by simp only; omega⟩, rfl⟩
    · exact Buffer.clone_spec hs
  · exact Buffer.clone_spec hs

theorem UBig.cloneFrom_spec {cfg : Cfg} {a src : UBig} (hs : src.WF cfg) :
    Returns (a.cloneFrom cfg src) fun c => c.WF cfg ∧ c.value cfg = src.value cfg := by
  cases a with
  | small w => exact UBig.clone_spec hs
  | large b =>
    cases src with
    | small w => exact UBig.clone_spec hs
    | large s =>
      refine Returns.bind (Buffer.resizingCloneFrom_spec hs) ?_
      rintro c ⟨h1, h2⟩
      exact returns_ok.mpr ⟨h1, by simp only [UBig.value, h2]⟩

theorem IBig.clone_spec {cfg : Cfg} {x : IBig} (hx : x.WF cfg) :
    Returns (x.clone cfg) fun c => c.WF cfg ∧ c.value cfg = x.value cfg ∧ c.sign = x.sign := by
  refine Returns.bind (UBig.clone_spec hx.mag) ?_
  rintro c ⟨h1, h2⟩
  exact returns_ok.mpr ⟨⟨h1, fun h => hx.zero (h2 ▸ h)⟩, by simp [IBig.value, h2], rfl⟩

theorem IBig.ofUBigOwn_spec {cfg : Cfg} (hv : cfg.Valid) (o : Own) {a : UBig} (ha : a.WF cfg) :
    Returns (IBig.ofUBigOwn cfg o a) fun c => c.WF cfg ∧ c.value cfg = (a.value cfg : Int) := by
  cases o
  · exact returns_ok.mpr (IBig.ofUBig_spec hv ha)
  · refine Returns.bind (UBig.clone_spec ha) ?_
    rintro c ⟨h1, h2⟩
    exact returns_ok.mpr (h2 ▸ IBig.ofUBig_spec hv h1)

/-! ### Exact results and signs -/

theorem IYields.neg {cfg : Cfg} (hv : cfg.Valid) {x : R IBig} {z : Int} (h : IYields cfg x z) :
    IYields cfg (do let y ← x; .ok y.neg) (-z) := by
  constructor
  · intro hf
    rw [Int.natAbs_neg] at hf
    obtain ⟨c, rfl, h1, h2⟩ := h.1 hf
    exact ⟨c.neg, rfl, (IBig.neg_spec hv h1).1, by rw [(IBig.neg_spec hv h1).2, h2]⟩
  · intro hf
    rw [Int.natAbs_neg] at hf
    rw [h.2 hf]; rfl

theorem Yields.withSign {cfg : Cfg} (hv : cfg.Valid) {x : R UBig} {n : Nat} (h : Yields cfg x n)
    (s : Sign) : IYields cfg (do let y ← x; .ok (IBig.fromSignMagnitude s y)) (s.toInt * n) := by
  have e : (s.toInt * (n : Int)).natAbs = n := by cases s <;> simp [Sign.toInt]
  constructor
  · intro hf
    rw [e] at hf
    obtain ⟨c, rfl, h1, h2⟩ := h.1 hf
    exact ⟨_, rfl, (IBig.fromSignMagnitude_spec hv s h1).1,
      by rw [(IBig.fromSignMagnitude_spec hv s h1).2, h2]⟩
  · intro hf
    rw [e] at hf
    rw [h.2 hf]; rfl

theorem Yields.ofUBig {cfg : Cfg} (hv : cfg.Valid) {x : R UBig} {n : Nat} (h : Yields cfg x n) :
    IYields cfg (do let y ← x; .ok (IBig.ofUBig y)) (n : Int) := by
  have := h.withSign hv .pos
  unfold IBig.ofUBig
  simpa [Sign.toInt] using this

/-! ### Comparison -/

theorem UBig.cmp_spec {cfg : Cfg} (hv : cfg.Valid) {a b : UBig} (ha : a.WF cfg) (hb : b.WF cfg) :
    a.cmp b = .ok (compare (a.value cfg) (b.value cfg)) := by
  cases a with
  | small v =>
    cases b with
    | small w => rfl
    | large b =>
      have h1 := Buffer.WF.ge_base hb
      have h2 : v < base cfg.W := ha
      have h3 : compare v (val cfg.W b.words) = .lt := Nat.compare_eq_lt.mpr (by omega)
      simp [UBig.cmp, UBig.value, h3]
  | large a =>
    cases b with
    | small w =>
      have h1 := Buffer.WF.ge_base ha
      have h2 : w < base cfg.W := hb
      have h3 : compare (val cfg.W a.words) w = .gt := Nat.compare_eq_gt.mpr (by omega)
      simp [UBig.cmp, UBig.value, h3]
    | large b =>
      have ha : a.WF cfg := ha
      have hb : b.WF cfg := hb
      simp only [UBig.cmp, UBig.value, Buffer.len]
      rcases lt_trichotomy a.words.length b.words.length with h | h | h
      · have h3 : compare (val cfg.W a.words) (val cfg.W b.words) = .lt := by
          refine Nat.compare_eq_lt.mpr (lt_of_lt_of_le ha.lt (le_trans ?_ hb.ge))
          exact Nat.pow_le_pow_right (base_pos _) (by omega)
        rw [Nat.compare_eq_lt.mpr h, h3]
      · rw [Nat.compare_eq_eq.mpr h]
        exact cmpSameLen_spec ha.words hb.words h
      · have h3 : compare (val cfg.W a.words) (val cfg.W b.words) = .gt := by
          refine Nat.compare_eq_gt.mpr (lt_of_lt_of_le hb.lt (le_trans ?_ ha.ge))
          exact Nat.pow_le_pow_right (base_pos _) (by omega)
        rw [Nat.compare_eq_gt.mpr h, h3]

theorem IBig.cmp_spec {cfg : Cfg} (hv : cfg.Valid) {x y : IBig} (hx : x.WF cfg) (hy : y.WF cfg) :
    x.cmp y = .ok (compare (x.value cfg) (y.value cfg)) := by
  have px := IBig.value_nonneg_iff hx
  have py := IBig.value_nonneg_iff hy
  have vx : x.value cfg = x.sign.toInt * x.mag.value cfg := rfl
  have vy : y.value cfg = y.sign.toInt * y.mag.value cfg := rfl
  unfold IBig.cmp
  rcases hs : x.sign <;> rcases ht : y.sign <;> simp only [hs, ht, Sign.toInt] at px py vx vy ⊢
  · rw [UBig.cmp_spec hv hx.mag hy.mag]
    congr 1
    rcases lt_trichotomy (x.mag.value cfg) (y.mag.value cfg) with h | h | h
    · rw [Nat.compare_eq_lt.mpr h, eq_comm, compare_lt_iff_lt]; omega
    · rw [Nat.compare_eq_eq.mpr h, eq_comm, compare_eq_iff_eq]; omega
    · rw [Nat.compare_eq_gt.mpr h, eq_comm, compare_gt_iff_gt]; omega
  · simp only [true_iff, reduceCtorEq, false_iff] at px py
    congr 1
    rw [eq_comm, compare_gt_iff_gt]; omega
  · simp only [true_iff, reduceCtorEq, false_iff] at px py
    congr 1
    rw [eq_comm, compare_lt_iff_lt]; omega
  · rw [UBig.cmp_spec hv hy.mag hx.mag]
    congr 1
    rcases lt_trichotomy (y.mag.value cfg) (x.mag.value cfg) with h | h | h
    · rw [Nat.compare_eq_lt.mpr h, eq_comm, compare_lt_iff_lt]; omega
    · rw [Nat.compare_eq_eq.mpr h, eq_comm, compare_eq_iff_eq]; omega
    · rw [Nat.compare_eq_gt.mpr h, eq_comm, compare_gt_iff_gt]; omega

/-! ### Sign functions -/

theorem IBig.signum_spec {cfg : Cfg} (hv : cfg.Valid) {x : IBig} (hx : x.WF cfg) :
    x.signum.WF cfg ∧ x.signum.value cfg = (x.value cfg).sign := by
  have h1 : (UBig.small 1).WF cfg := wf_small (two_le_base hv.W1)
  have px := IBig.value_nonneg_iff hx
  have na := IBig.natAbs_value (cfg := cfg) x
  unfold IBig.signum
  rcases hs : x.sign <;> simp only [hs, true_iff, reduceCtorEq, false_iff] at *
  · split
    · rename_i h
      have h0 := (UBig.beq_zero hv hx.mag).mp h
      have e : x.value cfg = 0 := by omega
      rw [e]
      exact IBig.ofUBig_spec hv (wf_zero cfg)
    · rename_i h
      have h0 : x.mag.value cfg ≠ 0 := fun e => h ((UBig.beq_zero hv hx.mag).mpr e)
      rw [Int.sign_eq_one_of_pos (by omega)]
      exact IBig.ofUBig_spec hv h1
  · rw [Int.sign_eq_neg_one_of_neg (by omega)]
    exact IBig.fromSignMagnitude_spec hv .neg h1

theorem IBig.unsignedAbs_spec {cfg : Cfg} {x : IBig} (o : Own) (hx : x.WF cfg) :
    Returns (x.unsignedAbs cfg o) fun c => c.WF cfg ∧ c.value cfg = (x.value cfg).natAbs := by
  rw [IBig.natAbs_value]
  cases o
  · exact returns_ok.mpr ⟨hx.mag, rfl⟩
  · exact UBig.clone_spec hx.mag

theorem IBig.abs_spec {cfg : Cfg} (hv : cfg.Valid) {x : IBig} (o : Own) (hx : x.WF cfg) :
    Returns (x.abs cfg o) fun c => c.WF cfg ∧ c.value cfg = |x.value cfg| := by
  refine Returns.bind (IBig.unsignedAbs_spec o hx) ?_
  rintro c ⟨h1, h2⟩
  refine returns_ok.mpr ⟨(IBig.ofUBig_spec hv h1).1, ?_⟩
  rw [(IBig.ofUBig_spec hv h1).2, h2, Int.natCast_natAbs]

theorem IBig.negOwn_spec {cfg : Cfg} (hv : cfg.Valid) {x : IBig} (o : Own) (hx : x.WF cfg) :
    Returns (x.negOwn cfg o) fun c => c.WF cfg ∧ c.value cfg = -x.value cfg := by
  cases o
  · exact returns_ok.mpr (IBig.neg_spec hv hx)
  · refine Returns.bind (IBig.clone_spec hx) ?_
    rintro c ⟨h1, h2, -⟩
    exact returns_ok.mpr (h2 ▸ IBig.neg_spec hv h1)

theorem UBig.tryFromIBig_spec {cfg : Cfg} {x : IBig} (o : Own) (hx : x.WF cfg) :
    (0 ≤ x.value cfg → ∃ c, UBig.tryFromIBig cfg o x = .ok (some c) ∧ c.WF cfg ∧
      (c.value cfg : Int) = x.value cfg) ∧
    (x.value cfg < 0 → UBig.tryFromIBig cfg o x = .ok none) := by
  have px := IBig.value_nonneg_iff hx
  have na := IBig.natAbs_value (cfg := cfg) x
  unfold UBig.tryFromIBig
  rcases hs : x.sign <;> simp only [hs, true_iff, reduceCtorEq, false_iff] at *
  · refine ⟨fun _ => ?_, fun h => by omega⟩
    cases o
    · exact ⟨_, rfl, hx.mag, by omega⟩
    · obtain ⟨c, h1, h2, h3⟩ := UBig.clone_spec hx.mag
      exact ⟨c, by simp only [h1]; rfl, h2, by omega⟩
  · exact ⟨fun h => by omega, fun _ => trivial⟩

theorem UBig.ofIBigPanic_spec {cfg : Cfg} {x : IBig} (hx : x.WF cfg) :
    (0 ≤ x.value cfg → Returns (UBig.ofIBigPanic x) fun c => c.WF cfg ∧
      (c.value cfg : Int) = x.value cfg) ∧
    (x.value cfg < 0 → UBig.ofIBigPanic x = .error .negativeUBig) := by
  have px := IBig.value_nonneg_iff hx
  have na := IBig.natAbs_value (cfg := cfg) x
  unfold UBig.ofIBigPanic
  rcases hs : x.sign <;> simp only [hs, true_iff, reduceCtorEq, false_iff] at *
  · exact ⟨fun _ => returns_ok.mpr ⟨hx.mag, by omega⟩, fun h => by omega⟩
  · exact ⟨fun h => by omega, fun _ => trivial⟩

end Ibig
