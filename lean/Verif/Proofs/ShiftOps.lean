import Verif.Model.ShiftOps
import Verif.Proofs.Bytes
import Verif.Proofs.IDivOps
/-! Shifts of `UBig` (/repo/src/shift_ops.rs) are exact. -/
namespace Ibig

theorem not_fits_of_ge {cfg : Cfg} {n k : Nat} (h : base cfg.W ^ k ≤ n) (hk : cfg.maxLen ≤ k) :
    ¬Fits cfg n := by
  rw [fits_iff]
  have := Nat.pow_le_pow_right (base_pos cfg.W) hk
  omega

theorem shift_split (W n : Nat) : 2 ^ n = base W ^ (n / W) * 2 ^ (n % W) := by
  unfold base
  rw [← pow_mul, ← pow_add, Nat.div_add_mod]

/-- an allocation that is too large means that the result is too large -/
theorem Yields.allocate {cfg : Cfg} {n m : Nat} {f : Buffer → R UBig}
    (h1 : cfg.maxLen + 4 < n → ¬Fits cfg m)
    (h2 : n ≤ cfg.maxLen + 4 → Yields cfg (f ⟨[], allocCap cfg n⟩) m) :
    Yields cfg (Buffer.allocate cfg n >>= f) m := by
  by_cases h : n ≤ cfg.maxLen + 4
  · rw [Buffer.allocate_ok h]; exact h2 h
  · rw [Buffer.allocate_err (by omega)]
    exact ⟨fun hf => absurd hf (h1 (by omega)), fun _ => rfl⟩

theorem ckAdd_ok {bits a b : Nat} (h : a + b < 2 ^ bits) : ckAdd bits a b = .ok (a + b) := by
  simp [ckAdd, h]
theorem ckMul_ok {bits a b : Nat} (h : a * b < 2 ^ bits) : ckMul bits a b = .ok (a * b) := by
  simp [ckMul, h]
theorem ckSub_ok {a b : Nat} (h : b ≤ a) : ckSub a b = .ok (a - b) := by
  simp [ckSub, h]

theorem Cfg.Valid.two_pow_U {cfg : Cfg} (hv : cfg.Valid) : 2 ^ 16 ≤ 2 ^ cfg.U :=
  Nat.pow_le_pow_right (by norm_num) (by rcases hv.usize with h | h | h <;> omega)

/-- `n / W` is much smaller than `usize::MAX` -/
theorem shiftWords_le {cfg : Cfg} (hv : cfg.Valid) {n : Nat} (hn : n < 2 ^ cfg.U) :
    16 * (n / cfg.W) < 2 ^ cfg.U := by
  have h1 := Nat.div_mul_le_self n cfg.W
  have h2 := Nat.mul_le_mul_left (n / cfg.W) hv.W16
  omega

theorem UBig.shlWordSlow_spec {cfg : Cfg} (hv : cfg.Valid) {w n : Nat} (hw : w < base cfg.W)
    (h0 : w ≠ 0) (hn : n < 2 ^ cfg.U) :
    Yields cfg (UBig.shlWordSlow cfg w n) (w * 2 ^ n) := by
  have hU := hv.two_pow_U
  have hsw := shiftWords_le hv hn
  have hmod : n % cfg.W < cfg.W := Nat.mod_lt _ (by have := hv.W1; omega)
  have hB := base_pos cfg.W
  have e := shift_split cfg.W n
  unfold UBig.shlWordSlow splitDoubleWord
  simp only
  rw [ckAdd_ok (by omega)]
  generalize n / cfg.W = k at *
  generalize n % cfg.W = s at *
  have hlt : w * 2 ^ s < base cfg.W * base cfg.W := by
    have : 2 ^ s ≤ base cfg.W := Nat.pow_le_pow_right (by norm_num) hmod.le
    calc w * 2 ^ s < base cfg.W * 2 ^ s := Nat.mul_lt_mul_of_pos_right hw (by positivity)
      _ ≤ _ := Nat.mul_le_mul_left _ this
  refine Yields.of_bind (P := fun s => s = k + 2) (returns_ok.mpr rfl) ?_
  intro m hm
  rw [hm]
  refine Yields.allocate ?_ ?_
  · intro hbig
    refine not_fits_of_ge (k := k) ?_ (by omega)
    rw [e]
    calc base cfg.W ^ k = 1 * (base cfg.W ^ k * 1) := by ring
      _ ≤ _ := Nat.mul_le_mul (by omega) (Nat.mul_le_mul_left _ Nat.one_le_two_pow)
  intro hok
  have hac := le_allocCap hok
  refine Yields.of_bind (Buffer.pushZeros_spec (cfg := cfg) ⟨by simp, by simp⟩ (by simp; omega)) ?_
  rintro b1 ⟨g1, g2, g3⟩
  simp only [List.nil_append] at g2 g3
  refine Yields.of_bind (Buffer.push_spec g1 (Nat.mod_lt _ hB) (by rw [g2, g3]; simp; omega)) ?_
  rintro b2 ⟨k1, k2, k3⟩
  refine Yields.of_bind (Buffer.push_spec k1 ?_ (by rw [k2, k3, g2, g3]; simp; omega)) ?_
  · exact Nat.div_lt_of_lt_mul hlt
  rintro b3 ⟨l1, l2, l3⟩
  refine yields_ofBuffer hv l1 ?_
  rw [l2, k2, g2, e]
  simp only [val_append, val_replicate_zero, List.length_replicate, val_cons, val_nil, mul_zero,
    add_zero, zero_add, List.length_append, List.length_cons, List.length_nil]
  have := Nat.mod_add_div (w * 2 ^ s) (base cfg.W)
  calc _ = base cfg.W ^ k * (w * 2 ^ s % base cfg.W + base cfg.W * (w * 2 ^ s / base cfg.W)) := by ring
    _ = _ := by rw [this]; ring

theorem Cfg.Valid.dbl {cfg : Cfg} (hv : cfg.Valid) : 2 * cfg.W = 8 * (2 * cfg.W / 8) ∧ 2 * cfg.W ≤ 128 := by
  rcases hv.word with h | h | h <;> rw [h] <;> norm_num

theorem base_sq' (W : Nat) : 2 ^ (2 * W) = base W * base W := by
  unfold base; rw [← pow_add]; congr 1; omega

theorem UBig.shlWord_spec {cfg : Cfg} (hv : cfg.Valid) {w n : Nat} (hw : w < base cfg.W)
    (h0 : w ≠ 0) (hn : n < 2 ^ cfg.U) :
    Yields cfg (UBig.shlWord cfg w n) (w * 2 ^ n) := by
  unfold UBig.shlWord
  refine Yields.of_bind (returns_assertR (p := w ≠ 0) h0) ?_
  rintro _ -
  split
  · rename_i hle
    have hlt : w * 2 ^ n < 2 ^ (2 * cfg.W) := by
      have : 2 ^ n ≤ base cfg.W := Nat.pow_le_pow_right (by norm_num) hle
      rw [base_sq']
      calc w * 2 ^ n < base cfg.W * 2 ^ n := Nat.mul_lt_mul_of_pos_right hw (by positivity)
        _ ≤ _ := Nat.mul_le_mul_left _ this
    rw [Nat.mod_eq_of_lt hlt]
    exact (UBig.fromUnsigned_spec hv hv.dbl.1 hv.dbl.2 hlt).1
  · exact UBig.shlWordSlow_spec hv hw h0 hn

theorem UBig.shlRefLarge_spec {cfg : Cfg} (hv : cfg.Valid) {b : Buffer} {n : Nat} (h : b.WF cfg)
    (hn : n < 2 ^ cfg.U) :
    Yields cfg (UBig.shlRefLarge cfg b.words n) (val cfg.W b.words * 2 ^ n) := by
  have hU := hv.two_pow_U
  have hsw := shiftWords_le hv hn
  have hml := hv.maxLen_lt
  have hmod : n % cfg.W < cfg.W := Nat.mod_lt _ (by have := hv.W1; omega)
  have e := shift_split cfg.W n
  have hlen := h.len
  have h2 := h.two
  unfold UBig.shlRefLarge
  simp only
  rw [ckAdd_ok (by omega)]
  generalize n / cfg.W = k at *
  generalize n % cfg.W = s at *
  refine Yields.of_bind (P := fun s => s = k + b.words.length) (returns_ok.mpr rfl) ?_
  intro m hm
  rw [hm, ckAdd_ok (by omega)]
  refine Yields.of_bind (P := fun s => s = k + b.words.length + 1) (returns_ok.mpr rfl) ?_
  intro m hm
  rw [hm]
  refine Yields.allocate ?_ ?_
  · intro hbig
    refine not_fits_of_ge (k := b.words.length - 1 + k) ?_ (by omega)
    rw [e, pow_add]
    refine Nat.mul_le_mul h.ge ?_
    calc base cfg.W ^ k = base cfg.W ^ k * 1 := by ring
      _ ≤ _ := Nat.mul_le_mul_left _ Nat.one_le_two_pow
  intro hok
  have hac := le_allocCap hok
  refine Yields.of_bind (Buffer.pushZeros_spec (cfg := cfg) (n := k) ⟨by simp, by simp⟩ (by simp; omega)) ?_
  rintro b1 ⟨g1, g2, g3⟩
  simp only [List.nil_append] at g2 g3
  refine Yields.of_bind (Buffer.extend_spec g1 h.words (by rw [g2, g3]; simp; omega)) ?_
  rintro b2 ⟨k1, k2, k3⟩
  rw [g2] at k2
  have hlen2 : b2.words.length = k + b.words.length := by rw [k2]; simp
  have hslice : Returns (onSlice b2.words k b2.len fun s' => shlInPlace cfg.W s' s)
      fun r => ∃ s', r.1 = List.replicate k 0 ++ s' ++ [] ∧ s'.length = b.words.length ∧
        IsWords cfg.W s' ∧ r.2 < 2 ^ s ∧
        val cfg.W s' + r.2 * base cfg.W ^ b.words.length = val cfg.W b.words * 2 ^ s := by
    have := onSlice_append (f := fun s' => shlInPlace cfg.W s' s) (a := List.replicate k 0)
      (s := b.words) (b := []) (i := k) (j := b2.len) (by simp) (by unfold Buffer.len; omega)
      (shlInPlace_spec hmod h.words)
    rw [List.append_nil, ← k2] at this
    exact this
  refine Yields.of_bind hslice ?_
  rintro ⟨ws, c⟩ ⟨s', q1, q2, q3, q4, q5⟩
  simp only [List.append_nil] at q1 q4 q5 ⊢
  have hcB : c < base cfg.W := lt_of_lt_of_le q4 (Nat.pow_le_pow_right (by norm_num) hmod.le)
  have hlw : ws.length = k + b.words.length := by rw [q1]; simp [q2]
  refine Yields.of_bind (Buffer.push_spec (k1.setWords (ws := ws) ?_ (by omega)) hcB ?_) ?_
  · rw [q1]; simp only [isWords_append]; exact ⟨isWords_replicate_zero _ _, q3⟩
  · simp only; rw [hlw, k3, g3]; omega
  rintro b3 ⟨l1, l2, l3⟩
  refine yields_ofBuffer hv l1 ?_
  rw [l2, q1, e]
  simp only [val_append, val_replicate_zero, List.length_replicate, val_cons, val_nil, mul_zero,
    add_zero, zero_add, List.length_append, q2]
  calc _ = base cfg.W ^ k * (val cfg.W s' + c * base cfg.W ^ b.words.length) := by ring
    _ = _ := by rw [q5]; ring

theorem UBig.shlLarge_spec {cfg : Cfg} (hv : cfg.Valid) {b : Buffer} {n : Nat} (h : b.WF cfg)
    (hn : n < 2 ^ cfg.U) :
    Yields cfg (UBig.shlLarge cfg b n) (val cfg.W b.words * 2 ^ n) := by
  have hU := hv.two_pow_U
  have hsw := shiftWords_le hv hn
  have hml := hv.maxLen_lt
  have hmod : n % cfg.W < cfg.W := Nat.mod_lt _ (by have := hv.W1; omega)
  have e := shift_split cfg.W n
  have hlen := h.len
  unfold UBig.shlLarge
  simp only [Buffer.len]
  rw [ckAdd_ok (by omega)]
  refine Yields.of_bind (P := fun s => s = b.words.length + n / cfg.W) (returns_ok.mpr rfl) ?_
  intro m hm
  rw [hm, ckAdd_ok (by omega)]
  refine Yields.of_bind (P := fun s => s = b.words.length + n / cfg.W + 1) (returns_ok.mpr rfl) ?_
  intro m hm
  rw [hm]
  split
  · exact UBig.shlRefLarge_spec hv h hn
  rename_i hcap
  refine Yields.of_bind (shlInPlace_spec hmod h.words) ?_
  rintro ⟨ws, c⟩ ⟨q1, q2, q3, q4⟩
  simp only at q1 q2 q3 q4 ⊢
  have hcB : c < base cfg.W := lt_of_lt_of_le q3 (Nat.pow_le_pow_right (by norm_num) hmod.le)
  refine Yields.of_bind (Buffer.push_spec (h.ok.setWords q2 (by omega)) hcB
    (by simp only; omega)) ?_
  rintro b1 ⟨g1, g2, g3⟩
  simp only at g2 g3
  refine Yields.of_bind (Buffer.pushZerosFront_spec g1 (by rw [g2, g3]; simp; omega)) ?_
  rintro b2 ⟨k1, k2, k3⟩
  refine yields_ofBuffer hv k1 ?_
  rw [k2, g2, e]
  simp only [val_append, val_replicate_zero, List.length_replicate, val_cons, val_nil, mul_zero,
    add_zero, zero_add, q1]
  rw [mul_comm (base cfg.W ^ b.words.length) c, q4]
  ring

/-- `a << n` is `a·2^n`. -/
theorem UBig.shl_spec {cfg : Cfg} (hv : cfg.Valid) (o : Own) {a : UBig} (ha : a.WF cfg) {n : Nat}
    (hn : n < 2 ^ cfg.U) : Yields cfg (a.shl cfg o n) (a.value cfg * 2 ^ n) := by
  cases a with
  | small w =>
    simp only [UBig.shl, UBig.value]
    split
    · rename_i h; subst h; simpa using yields_small hv (base_pos cfg.W)
    · rename_i h; exact UBig.shlWord_spec hv ha h hn
  | large b =>
    cases o
    · exact UBig.shlLarge_spec hv ha hn
    · exact UBig.shlRefLarge_spec hv ha hn

/-! ### Right shifts -/

theorem shr_div {W n : Nat} {x y : List Nat} (hx : IsWords W x) (hl : x.length = n / W) :
    val W (x ++ y) / 2 ^ n = val W y / 2 ^ (n % W) := by
  have h := Nat.div_eq_of_lt (val_lt hx)
  rw [hl] at h
  rw [shift_split W n, val_append, hl, ← Nat.div_div_eq_div_mul,
    Nat.add_mul_div_left _ _ (base_pow_pos W _), h, Nat.zero_add]

theorem shr_eq_div {W s : Nat} {l l' : List Nat} {c : Nat} (hc : c < 2 ^ s)
    (h : val W l' * 2 ^ s + c = val W l) : val W l' = val W l / 2 ^ s := by
  rw [← h, Nat.mul_comm, Nat.mul_add_div (by positivity), Nat.div_eq_of_lt hc, Nat.add_zero]

theorem shr_long {W n : Nat} {l : List Nat} (hx : IsWords W l) (hl : l.length ≤ n / W) :
    val W l / 2 ^ n = 0 := by
  refine Nat.div_eq_of_lt (lt_of_lt_of_le (val_lt hx) ?_)
  rw [shift_split W n]
  calc base W ^ l.length ≤ base W ^ (n / W) := Nat.pow_le_pow_right (base_pos W) hl
    _ = base W ^ (n / W) * 1 := by ring
    _ ≤ _ := Nat.mul_le_mul_left _ Nat.one_le_two_pow

theorem UBig.shrLarge_spec {cfg : Cfg} (hv : cfg.Valid) {b : Buffer} {n : Nat} (h : b.WF cfg) :
    Yields cfg (UBig.shrLarge cfg b n) (val cfg.W b.words / 2 ^ n) := by
  have hmod : n % cfg.W < cfg.W := Nat.mod_lt _ (by have := hv.W1; omega)
  unfold UBig.shrLarge
  simp only
  by_cases hl : b.len ≤ n / cfg.W
  · rw [if_pos hl, shr_long h.words hl]
    exact yields_small hv (base_pos _)
  rw [if_neg hl]
  unfold Buffer.len at hl
  obtain ⟨x, y, e, hx⟩ := exists_split (l := b.words) (n := n / cfg.W) (by omega)
  have hw := h.words
  rw [e, isWords_append] at hw
  refine Yields.of_bind (Buffer.eraseFront_spec h.ok e hx) ?_
  rintro b1 ⟨g1, g2⟩
  refine Yields.of_bind (shrInPlace_spec hmod g1.words) ?_
  rintro ⟨ws, c⟩ ⟨q1, q2, q3, q4⟩
  simp only at q1 q2 q3 q4 ⊢
  refine yields_ofBuffer hv (g1.setWords q2 (by omega)) ?_
  simp only
  rw [shr_eq_div q3 q4, e, shr_div hw.1 hx, g2]

theorem UBig.shrLargeRef_spec {cfg : Cfg} (hv : cfg.Valid) {b : Buffer} {n : Nat} (h : b.WF cfg) :
    Yields cfg (UBig.shrLargeRef cfg b.words n) (val cfg.W b.words / 2 ^ n) := by
  have hmod : n % cfg.W < cfg.W := Nat.mod_lt _ (by have := hv.W1; omega)
  have hlen := h.len
  unfold UBig.shrLargeRef
  simp only
  rw [sliceR_ok (Nat.min_le_right _ _) le_rfl, List.take_length]
  refine Yields.of_bind (P := fun l => l = b.words.drop (min (n / cfg.W) b.words.length))
    (returns_ok.mpr rfl) ?_
  intro l hl
  by_cases hk : b.words.length ≤ n / cfg.W
  · rw [Nat.min_eq_right hk, List.drop_length] at hl
    subst hl
    rw [shr_long h.words hk]
    exact yields_small hv (base_pos _)
  rw [Nat.min_eq_left (by omega)] at hl
  have e : b.words = b.words.take (n / cfg.W) ++ l := by rw [hl, List.take_append_drop]
  have hw := h.words
  have hx : (b.words.take (n / cfg.W)).length = n / cfg.W := by
    rw [List.length_take, Nat.min_eq_left (by omega)]
  have hval : val cfg.W b.words / 2 ^ n = val cfg.W l / 2 ^ (n % cfg.W) := by
    conv_lhs => rw [e]
    exact shr_div (h.words.take _) hx
  have hwl : IsWords cfg.W l := by rw [hl]; exact h.words.drop _
  have hll : l.length ≤ b.words.length := by rw [hl]; simp
  rw [hval]
  clear hl e
  split
  · simpa using yields_small hv (base_pos _)
  · rename_i w
    simp only [isWords_cons] at hwl
    have : w / 2 ^ (n % cfg.W) < base cfg.W := lt_of_le_of_lt (Nat.div_le_self _ _) hwl.1
    simpa using yields_small hv this
  · rename_i lo hi
    simp only [isWords_cons] at hwl
    have e : val cfg.W [lo, hi] = doubleWord cfg.W lo hi := by simp [doubleWord]
    rw [e]
    refine (UBig.fromUnsigned_spec hv hv.dbl.1 hv.dbl.2 ?_).1
    refine lt_of_le_of_lt (Nat.div_le_self _ _) ?_
    rw [base_sq']; unfold doubleWord
    nlinarith [hwl.1, hwl.2.1]
  · refine Yields.allocate (fun hb => by omega) ?_
    intro hok
    have hac := le_allocCap hok
    refine Yields.of_bind (Buffer.extend_spec ⟨by simp, by simp⟩ hwl (by simp; omega)) ?_
    rintro b1 ⟨g1, g2, g3⟩
    simp only [List.nil_append] at g2
    refine Yields.of_bind (shrInPlace_spec hmod g1.words) ?_
    rintro ⟨ws, c⟩ ⟨q1, q2, q3, q4⟩
    simp only at q1 q2 q3 q4 ⊢
    refine yields_ofBuffer hv (g1.setWords q2 (by omega)) ?_
    simp only
    rw [shr_eq_div q3 q4, g2]

theorem UBig.shrWord_spec {cfg : Cfg} {w n : Nat} (hw : w < base cfg.W) :
    (UBig.shrWord cfg w n).WF cfg ∧ (UBig.shrWord cfg w n).value cfg = w / 2 ^ n := by
  unfold UBig.shrWord
  split
  · rename_i hn
    rw [Nat.mod_eq_of_lt hn]
    exact ⟨lt_of_le_of_lt (Nat.div_le_self _ _) hw, rfl⟩
  · rename_i hn
    refine ⟨wf_zero cfg, ?_⟩
    rw [Nat.div_eq_of_lt (lt_of_lt_of_le hw (Nat.pow_le_pow_right (by norm_num) (by omega)))]
    rfl

/-- `a >> n` is `⌊a / 2^n⌋`, and never panics. -/
theorem UBig.shr_spec {cfg : Cfg} (hv : cfg.Valid) (o : Own) {a : UBig} (ha : a.WF cfg) (n : Nat) :
    Returns (a.shr cfg o n) fun c => c.WF cfg ∧ c.value cfg = a.value cfg / 2 ^ n := by
  have hf : Fits cfg (a.value cfg / 2 ^ n) := (ha.fits hv).mono (Nat.div_le_self _ _)
  cases a with
  | small w => exact returns_ok.mpr (UBig.shrWord_spec ha)
  | large b =>
    cases o
    · exact (UBig.shrLarge_spec hv ha).returns hf
    · exact (UBig.shrLargeRef_spec hv ha).returns hf

theorem IBig.shl_spec {cfg : Cfg} (hv : cfg.Valid) (o : Own) {a : IBig} (ha : a.WF cfg) {n : Nat}
    (hn : n < 2 ^ cfg.U) : IYields cfg (a.shl cfg o n) (a.value cfg * 2 ^ n) := by
  have h := (UBig.shl_spec hv o ha.mag hn).withSign hv a.sign
  have e : a.sign.toInt * ((a.mag.value cfg * 2 ^ n : Nat) : Int) = a.value cfg * 2 ^ n := by
    unfold IBig.value; push_cast; ring
  rw [e] at h
  exact h

end Ibig
