import Verif.Proofs.ExtGcd
/-! `extended_gcd` close to the size limit. -/
namespace Ibig

theorem Returns.bind_error {α β : Type} {x : R α} {f : α → R β} {P : α → Prop} {e : Panic} (h : Returns x P)
    (hf : ∀ a, P a → f a = .error e) : (x >>= f) = .error e := by
  obtain ⟨a, rfl, ha⟩ := h
  exact hf a ha

theorem bind_error_eq {α β : Type} {x : R α} {f : α → R β} {e : Panic} (h : x = .error e) : (x >>= f) = .error e := by
  rw [h]; rfl

theorem bind_ok_error {α β : Type} {x : R α} {f : α → R β} {a : α} {e : Panic} (h : x = .ok a) (hf : f a = .error e) :
    (x >>= f) = .error e := by
  rw [h]; exact hf

theorem extGcdLoop_limit {cfg : Cfg} (hv : cfg.Valid) {u v : UBig} (hw : v.WF cfg)
    (hlim : v.value cfg + 1 = 2 ^ (cfg.maxLen * cfg.W)) {p q : GcdTriple} (ha : p.a.WF cfg)
    (he : p.a.value cfg % 2 = 0) (h0 : p.a.value cfg ≠ 0) (hx : p.x = .small 1) (hy : p.y = .small 0) (n : Nat) :
    extGcdLoop cfg u v (n + 1) p q = .error .tooLarge := by
  have hb1 : 1 < base cfg.W := by rw [base_eq]; exact Nat.one_lt_two_pow (by have := hv.W1; omega)
  have w0 : (UBig.small 0).WF cfg := wf_small (by omega)
  have w1 : (UBig.small 1).WF cfg := wf_small hb1
  rw [extGcdLoop]
  rw [if_neg (fun h => h0 ((UBig.beq_zero hv ha).mp h))]
  refine bind_error_eq ?_
  rw [GcdTriple.halve]
  refine bind_ok_error (UBig.isEven_spec hv ha) ?_
  rw [decide_eq_true he]
  refine bind_error_eq ?_
  unfold GcdTriple.makeEven
  rw [hx, hy]
  refine bind_ok_error (UBig.isEven_spec hv w1) (bind_ok_error (UBig.isEven_spec hv w0) ?_)
  refine bind_error_eq ?_
  rw [hx]
  refine (UBig.add_spec hv .val .ref w1 hw).2 ?_
  unfold Fits
  show ¬ 1 + v.value cfg < _
  omega

theorem UBig.extendedGcd_limit {cfg : Cfg} (hv : cfg.Valid) {a b : UBig} (ha : a.WF cfg) (hb : b.WF cfg)
    (va : a.value cfg + 2 = 2 ^ (cfg.maxLen * cfg.W)) (vb : b.value cfg + 1 = 2 ^ (cfg.maxLen * cfg.W)) :
    a.extendedGcd cfg b = .error .tooLarge := by
  have hb1 : 1 < base cfg.W := by rw [base_eq]; exact Nat.one_lt_two_pow (by have := hv.W1; omega)
  have w1 : (UBig.small 1).WF cfg := wf_small hb1
  have hL := hv.W1
  obtain ⟨c, hc⟩ : 8 ∣ 2 ^ (cfg.maxLen * cfg.W) := by
    have h1 : 3 ≤ cfg.maxLen * cfg.W := by
      have := hv.large
      have := hv.W16
      nlinarith
    exact pow_dvd_pow 2 h1
  have hpos := Nat.two_pow_pos (cfg.maxLen * cfg.W)
  unfold UBig.extendedGcd
  obtain ⟨az, az1, az2⟩ := UBig.trailingZeros_spec hv ha
  obtain ⟨bz, bz1, bz2⟩ := UBig.trailingZeros_spec hv hb
  refine bind_ok_error az1 (bind_ok_error bz1 ?_)
  rcases az with _ | i
  · simp only at az2
    omega
  rcases bz with _ | j
  · simp only at bz2
    omega
  simp only at az2 bz2 ⊢
  have hj : j = 0 := by
    by_contra h
    have : 2 ∣ b.value cfg := (dvd_pow_self 2 h).trans bz2.2.1
    omega
  subst hj
  rw [Nat.min_zero]
  unfold UBig.extendedGcdNonzero
  refine (UBig.shr_spec hv .ref ha 0).bind_error ?_
  rintro u ⟨hu, vu⟩
  refine (UBig.shr_spec hv .ref hb 0).bind_error ?_
  rintro v ⟨hw, vv⟩
  rw [pow_zero, Nat.div_one] at vu vv
  refine Returns.bind_error (P := fun s => s.1.a.WF cfg ∧ s.1.a.value cfg = u.value cfg ∧ s.1.x = .small 1 ∧
    s.1.y = .small 0 ∧ s.2.a.WF cfg ∧ s.2.a.value cfg = 1) ?_ ?_
  · unfold extGcdStart
    rw [UBig.le_spec hv hu hw, decide_eq_true (by omega)]
    refine Returns.bind (P := fun s => s = true) (returns_ok.mpr rfl) ?_
    rintro _ rfl
    rw [if_pos rfl]
    refine Returns.bind ((UBig.divRem_spec hv .ref .ref hw hu).1 (by omega)) ?_
    rintro ⟨q, r⟩ ⟨wq, wr, vq, vr⟩
    simp only at wq wr vq vr ⊢
    refine Returns.bind (UBig.clone_spec hu) ?_
    rintro a ⟨wa, va'⟩
    have hqv : q.value cfg ≤ v.value cfg := by rw [vq]; exact Nat.div_le_self _ _
    refine Returns.bind (((UBig.sub_spec hv .ref .val hw wq).1 hqv).returns
      ((hw.fits hv).mono (Nat.sub_le _ _))) ?_
    rintro bx ⟨wbx, vbx⟩
    refine Returns.bind (((UBig.sub_spec hv .ref .val hu w1).1 (by show 1 ≤ _; omega)).returns
      ((hu.fits hv).mono (Nat.sub_le _ _))) ?_
    rintro by' ⟨wby, vby⟩
    refine returns_ok.mpr ⟨wa, va', rfl, rfl, wr, ?_⟩
    rw [vr, show v.value cfg = u.value cfg + 1 by omega, Nat.add_mod_left, Nat.mod_eq_of_lt (by omega)]
  · rintro ⟨p, q⟩ ⟨h1, h2, h3, h4, h5, h6⟩
    simp only at h1 h2 h3 h4 h5 h6 ⊢
    refine bind_ok_error (UBig.isEven_spec hv h5) ?_
    rw [h6]
    refine bind_error_eq ?_
    exact extGcdLoop_limit hv hw (by omega) h1 (by omega) (by omega) h3 h4 _

/-- `UBig::MAX` -/
def UBig.max (cfg : Cfg) : UBig := .large ⟨List.replicate cfg.maxLen (base cfg.W - 1), cfg.maxLen⟩

theorem val_replicate_max (W n : Nat) : val W (List.replicate n (base W - 1)) + 1 = base W ^ n := by
  have hb : 0 < base W := by rw [base_eq]; exact Nat.two_pow_pos W
  induction n with
  | zero => rfl
  | succ n ih =>
    rw [List.replicate_succ, val, Nat.pow_succ, ← ih]
    have : base W = (base W - 1) + 1 := by omega
    generalize base W - 1 = c at *
    rw [this]
    ring

theorem UBig.max_spec {cfg : Cfg} (hv : cfg.Valid) :
    (UBig.max cfg).WF cfg ∧ (UBig.max cfg).value cfg + 1 = 2 ^ (cfg.maxLen * cfg.W) := by
  have hb : 1 < base cfg.W := by rw [base_eq]; exact Nat.one_lt_two_pow (by have := hv.W1; omega)
  have hl := hv.large
  refine ⟨⟨?_, ?_, ?_, ?_, ?_, ?_⟩, ?_⟩
  · intro w hw
    rw [(List.mem_replicate.mp hw).2]
    omega
  · rw [List.length_replicate]; omega
  · show (List.replicate cfg.maxLen (base cfg.W - 1)).getLast? ≠ some 0
    rw [List.getLast?_replicate, if_neg (by omega)]
    intro h
    injection h
    omega
  · rw [List.length_replicate]
  · rw [List.length_replicate]
  · intro _
    show cfg.maxLen ≤ _
    rw [List.length_replicate]
    omega
  · show val cfg.W _ + 1 = _
    rw [val_replicate_max, base_eq, ← pow_mul, Nat.mul_comm]

end Ibig
