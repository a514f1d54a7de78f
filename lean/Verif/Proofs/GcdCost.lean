import Verif.Proofs.ShiftCost
import Verif.Proofs.ExtGcd
import Verif.Proofs.ParsePower
/-!
The number of steps of greatest common divisors.
-/
namespace Ibig.Timed

section
variable {cfg : Cfg}

/-! ### The operations, with bounds that depend on the values -/

theorem takes_lt (hv : cfg.Valid) {a b : UBig} (ha : a.WF cfg) (hb : b.WF cfg) {n : ℕ}
    (hn : min a.len b.len ≤ n) :
    Takes (UBig.lt a b) (n + 1) (fun c => c = decide (a.value cfg < b.value cfg)) := by
  refine Takes.post (P := fun _ => True) ?_ (UBig.lt_result a b)
    (by rw [UBig.lt_spec hv ha hb]; exact Post.ok rfl)
  exact Takes.bind (takes_cmp ha hb) (by omega) fun _ _ _ _ => Takes.pure trivial

theorem takes_le (hv : cfg.Valid) {a b : UBig} (ha : a.WF cfg) (hb : b.WF cfg) {n : ℕ}
    (hn : min a.len b.len ≤ n) :
    Takes (UBig.le a b) (n + 1) (fun c => c = decide (a.value cfg ≤ b.value cfg)) := by
  refine Takes.post (P := fun _ => True) ?_ (UBig.le_result a b)
    (by rw [UBig.le_spec hv ha hb]; exact Post.ok rfl)
  exact Takes.bind (takes_cmp ha hb) (by omega) fun _ _ _ _ => Takes.pure trivial

theorem takes_usub' (hv : cfg.Valid) (o1 o2 : Own) {a b : UBig} (ha : a.WF cfg) (hb : b.WF cfg)
    (h : b.value cfg ≤ a.value cfg) {n m : ℕ} (hn : a.len ≤ n) (hm : b.len ≤ m) :
    Takes (UBig.sub cfg o1 o2 a b) (13 * (n + m)) (fun c => c.WF cfg ∧ c.value cfg = a.value cfg - b.value cfg) := by
  refine (Takes.post (takes_usub o1 o2 ha hb) (UBig.sub_result ..)
    (Yields.post ((UBig.sub_spec hv o1 o2 ha hb).1 h))).mono ?_ fun _ h => h
  unfold addCost
  omega

theorem takes_uadd' (hv : cfg.Valid) (o1 o2 : Own) {a b : UBig} (ha : a.WF cfg) (hb : b.WF cfg)
    {n m : ℕ} (hn : a.len ≤ n) (hm : b.len ≤ m) :
    Takes (UBig.add cfg o1 o2 a b) (13 * (n + m)) (fun c => c.WF cfg ∧ c.value cfg = a.value cfg + b.value cfg) := by
  refine (Takes.post (takes_uadd o1 o2 ha hb) (UBig.add_result ..)
    (Yields.post (UBig.add_spec hv o1 o2 ha hb))).mono ?_ fun _ h => h
  unfold addCost
  omega

theorem takes_ushrVal' (hv : cfg.Valid) {a : UBig} (ha : a.WF cfg) (s : ℕ) {n : ℕ} (hn : a.len ≤ n) :
    Takes (UBig.shr cfg .val a s) (4 * n + 4) (fun c => c.WF cfg ∧ c.value cfg = a.value cfg / 2 ^ s) :=
  (Takes.post (takes_ushrVal cfg a s) (UBig.shr_result ..) (Post.of_returns (UBig.shr_spec hv .val ha s))).mono
    (by omega) fun _ h => h

theorem takes_ushr' (hv : cfg.Valid) (o : Own) {a : UBig} (ha : a.WF cfg) (s : ℕ) {n : ℕ} (hn : a.len ≤ n) :
    Takes (UBig.shr cfg o a s) (4 * n + 33) (fun c => c.WF cfg ∧ c.value cfg = a.value cfg / 2 ^ s) :=
  (Takes.post (takes_ushr cfg o a s) (UBig.shr_result ..) (Post.of_returns (UBig.shr_spec hv o ha s))).mono
    (by omega) fun _ h => h

/-! ### `gcd` -/

theorem takes_gcdLoop (hv : cfg.Valid) {k : ℕ} (hk : 1 ≤ k) : ∀ (fuel : ℕ) {a b : UBig}, a.WF cfg → b.WF cfg →
    a.value cfg < 2 ^ (k * cfg.W) → b.value cfg < 2 ^ (k * cfg.W) →
    Takes (UBig.gcdLoop cfg fuel a b) (42 * k * fuel) (fun g => g.WF cfg ∧ g.value cfg < 2 ^ (k * cfg.W)) := by
  intro fuel
  induction fuel with
  | zero => intro a b _ _ _ _; exact Takes.throwT
  | succ fuel ih =>
    intro a b ha hb hak hbk
    unfold UBig.gcdLoop
    rw [Nat.mul_succ]
    have la := UBig.len_le hv ha hk hak
    have lb := UBig.len_le hv hb hk hbk
    generalize hN : 42 * k * fuel = N at *
    refine Takes.bind takes_tick (by omega) (fun _ M hM _ => ?_)
    refine Takes.bind (takes_utrailingZeros cfg a) (by omega) (fun z M1 hM1 _ => ?_)
    cases z with
    | none => exact Takes.pure ⟨hb, hbk⟩
    | some z =>
      dsimp only
      refine Takes.bind (takes_ushrVal' hv ha z la) (by omega) ?_
      rintro c M2 hM2 ⟨hc, vc⟩
      have hck : c.value cfg < 2 ^ (k * cfg.W) := by
        rw [vc]; exact lt_of_le_of_lt (Nat.div_le_self _ _) hak
      have lc := UBig.len_le hv hc hk hck
      refine Takes.bind (takes_lt hv hc hb (n := k) (by omega)) (by omega) (fun t M3 hM3 ht => ?_)
      obtain ⟨hle, hps⟩ := swap_cases (v := fun t : UBig => t.value cfg) (a := c) (b := b)
      rw [ht]
      generalize (if decide (c.value cfg < b.value cfg) = true then (b, c) else (c, b)) = p at *
      have w1 : p.1.WF cfg ∧ p.1.value cfg < 2 ^ (k * cfg.W) := by
        rcases hps with ⟨e1, e2⟩ | ⟨e1, e2⟩ <;> rw [e1] <;> exact ⟨by assumption, by assumption⟩
      have w2 : p.2.WF cfg ∧ p.2.value cfg < 2 ^ (k * cfg.W) := by
        rcases hps with ⟨e1, e2⟩ | ⟨e1, e2⟩ <;> rw [e2] <;> exact ⟨by assumption, by assumption⟩
      refine Takes.bind (takes_usub' hv .val .ref w1.1 w2.1 hle (UBig.len_le hv w1.1 hk w1.2)
        (UBig.len_le hv w2.1 hk w2.2)) (by omega) ?_
      rintro d M4 hM4 ⟨hd, vd⟩
      exact (ih hd w2.1 (by rw [vd]; exact lt_of_le_of_lt (Nat.sub_le _ _) w1.2) w2.2).mono (by omega) fun _ h => h

/-- The steps of `gcd`, at most, for numbers of `n` and `m` words. -/
noncomputable def gcdCost (W n m : ℕ) : ℕ := 84 * min n m ^ 2 * W + ⌊divBound (max n m) (min n m)⌋₊ + 55 * (n + m)

theorem takes_gcdNonzero (hv : cfg.Valid) {a b : UBig} (ha : a.WF cfg) (hb : b.WF cfg) {n m i j : ℕ}
    (hn : 1 ≤ n) (hm : 1 ≤ m) (han : a.value cfg < 2 ^ (n * cfg.W)) (hbm : b.value cfg < 2 ^ (m * cfg.W))
    (hi : a.value cfg ≠ 0 ∧ 2 ^ i ∣ a.value cfg ∧ ¬2 ^ (i + 1) ∣ a.value cfg)
    (hj : b.value cfg ≠ 0 ∧ 2 ^ j ∣ b.value cfg ∧ ¬2 ^ (j + 1) ∣ b.value cfg) :
    Takes (UBig.gcdNonzero cfg a b i j)
      (84 * min n m ^ 2 * cfg.W + ⌊divBound (max n m) (min n m)⌋₊ + 4 * (n + m) + 50 * min n m + 38)
      (fun _ => True) := by
  have hk : 1 ≤ min n m := le_min hn hm
  unfold UBig.gcdNonzero
  refine Takes.bind (takes_ushrVal' hv ha i (UBig.len_le hv ha hn han)) (by omega) ?_
  rintro a' M hM ⟨ha', va⟩
  refine Takes.bind (takes_ushrVal' hv hb j (UBig.len_le hv hb hm hbm)) (by omega) ?_
  rintro b' M1 hM1 ⟨hb', vb⟩
  have han' : a'.value cfg < 2 ^ (n * cfg.W) := by rw [va]; exact lt_of_le_of_lt (Nat.div_le_self _ _) han
  have hbm' : b'.value cfg < 2 ^ (m * cfg.W) := by rw [vb]; exact lt_of_le_of_lt (Nat.div_le_self _ _) hbm
  have la := UBig.len_le hv ha' hn han'
  have lb := UBig.len_le hv hb' hm hbm'
  refine Takes.bind (takes_lt hv ha' hb' (n := min n m) (by omega)) (by omega) (fun t M3 hM3 ht => ?_)
  obtain ⟨hle, hps⟩ := swap_cases (v := fun t : UBig => t.value cfg) (a := a') (b := b')
  rw [ht]
  have pa : 0 < a'.value cfg := by
    rw [va]; exact Nat.div_pos (Nat.le_of_dvd (by omega) hi.2.1) (Nat.two_pow_pos i)
  have pb : 0 < b'.value cfg := by
    rw [vb]; exact Nat.div_pos (Nat.le_of_dvd (by omega) hj.2.1) (Nat.two_pow_pos j)
  generalize (if decide (a'.value cfg < b'.value cfg) = true then (b', a') else (a', b')) = p at *
  have w1 : p.1.WF cfg ∧ p.1.len ≤ max n m := by
    rcases hps with ⟨e1, e2⟩ | ⟨e1, e2⟩ <;> rw [e1] <;> exact ⟨by assumption, by omega⟩
  have w2 : p.2.WF cfg ∧ 0 < p.2.value cfg := by
    rcases hps with ⟨e1, e2⟩ | ⟨e1, e2⟩ <;> rw [e2] <;> exact ⟨by assumption, by assumption⟩
  have w3 : p.2.value cfg < 2 ^ (min n m * cfg.W) := by
    have hle' : p.2.value cfg ≤ p.1.value cfg := hle
    have hab : p.2.value cfg ≤ a'.value cfg ∧ p.2.value cfg ≤ b'.value cfg := by
      rcases hps with ⟨e1, e2⟩ | ⟨e1, e2⟩ <;> rw [e1, e2] at hle' <;> rw [e2] <;>
        first
        | exact ⟨hle', le_refl _⟩
        | exact ⟨le_refl _, hle'⟩
    rcases Nat.le_total n m with h | h
    · rw [Nat.min_eq_left h]; exact lt_of_le_of_lt hab.1 han'
    · rw [Nat.min_eq_right h]; exact lt_of_le_of_lt hab.2 hbm'
  have l2 := UBig.len_le hv w2.1 hk w3
  have hrem : Takes (UBig.rem cfg .val .ref p.1 p.2) ⌊divBound (max n m) (min n m)⌋₊
      (fun r => r.WF cfg ∧ r.value cfg < 2 ^ (min n m * cfg.W)) := by
    refine takes_of_steps (fun r k h => (UBig.rem_steps hv .val .ref w1.1 w2.1 h).trans
      (divBound_mono w1.2 l2)) (UBig.rem_result ..) ?_
    refine (Post.of_returns ((UBig.rem_spec hv .val .ref w1.1 w2.1).1 (by omega))).mono ?_
    rintro r ⟨h1, h2⟩
    exact ⟨h1, by rw [h2]; exact lt_trans (Nat.mod_lt _ w2.2) w3⟩
  refine Takes.bind hrem (by omega) ?_
  rintro r M4 hM4 ⟨hr, vr⟩
  have lr := UBig.len_le hv hr hk vr
  have hfuel : 42 * min n m * gcdFuel cfg r p.2 ≤ 84 * min n m ^ 2 * cfg.W + 42 * min n m := by
    have : gcdFuel cfg r p.2 ≤ 2 * min n m * cfg.W + 1 := by
      unfold gcdFuel
      have := Nat.mul_le_mul_right cfg.W (show r.len + p.2.len ≤ 2 * min n m by omega)
      omega
    calc 42 * min n m * gcdFuel cfg r p.2 ≤ 42 * min n m * (2 * min n m * cfg.W + 1) := Nat.mul_le_mul_left _ this
      _ = _ := by ring
  refine Takes.bind (takes_gcdLoop hv hk _ hr w2.1 vr w3) (by omega) ?_
  rintro g M5 hM5 ⟨hg, vg⟩
  have lg := UBig.len_le hv hg hk vg
  have hz : min i j / cfg.W ≤ min n m := by
    have key : ∀ {z c l : ℕ}, c ≠ 0 → 2 ^ z ∣ c → c < 2 ^ (l * cfg.W) → z / cfg.W ≤ l := by
      intro z c l h0 hd hl
      have h1 := lt_of_le_of_lt (Nat.le_of_dvd (by omega) hd) hl
      have h2 := (Nat.pow_lt_pow_iff_right (by norm_num : 1 < 2)).mp h1
      exact Nat.div_le_of_le_mul (by rw [Nat.mul_comm]; omega)
    have h1 := key hi.1 hi.2.1 han
    have h2 := key hj.1 hj.2.1 hbm
    exact le_min ((Nat.div_le_div_right (Nat.min_le_left _ _)).trans h1)
      ((Nat.div_le_div_right (Nat.min_le_right _ _)).trans h2)
  exact (takes_ushl cfg .val g (min i j)).mono (by omega) fun _ h => h

theorem takes_uclone {a : UBig} (ha : a.WF cfg) :
    Takes (UBig.clone cfg a) (a.len + 1) (fun c => c.WF cfg ∧ c.value cfg = a.value cfg) :=
  Takes.pass (Post.of_returns (UBig.clone_spec ha))

theorem takes_utrailingZeros' (hv : cfg.Valid) {a : UBig} (ha : a.WF cfg) :
    Takes (UBig.trailingZeros cfg a) (a.len + 4) (fun z => match z with
      | none => a.value cfg = 0
      | some i => a.value cfg ≠ 0 ∧ 2 ^ i ∣ a.value cfg ∧ ¬2 ^ (i + 1) ∣ a.value cfg) :=
  Takes.post (takes_utrailingZeros cfg a) (UBig.trailingZeros_result cfg a)
    (Post.of_returns (UBig.trailingZeros_spec hv ha))

theorem takes_ugcd (hv : cfg.Valid) {a b : UBig} (ha : a.WF cfg) (hb : b.WF cfg) {n m : ℕ} (hn : 1 ≤ n) (hm : 1 ≤ m)
    (han : a.value cfg < 2 ^ (n * cfg.W)) (hbm : b.value cfg < 2 ^ (m * cfg.W)) :
    Takes (UBig.gcd cfg a b) (gcdCost cfg.W n m) (fun _ => True) := by
  unfold UBig.gcd gcdCost
  have la := UBig.len_le hv ha hn han
  have lb := UBig.len_le hv hb hm hbm
  refine Takes.bind (takes_uclone ha) (by omega) ?_
  rintro a' M hM ⟨ha', va⟩
  refine Takes.bind (takes_uclone hb) (by omega) ?_
  rintro b' M1 hM1 ⟨hb', vb⟩
  rw [← va] at han
  rw [← vb] at hbm
  have la' := UBig.len_le hv ha' hn han
  have lb' := UBig.len_le hv hb' hm hbm
  refine Takes.bind (takes_utrailingZeros' hv ha') (by omega) (fun z M2 hM2 hz => ?_)
  refine Takes.bind (takes_utrailingZeros' hv hb') (by omega) (fun w M3 hM3 hw => ?_)
  rcases z with _ | i <;> rcases w with _ | j
  · exact Takes.throwT
  · exact Takes.pure trivial
  · exact Takes.pure trivial
  · exact (takes_gcdNonzero hv ha' hb' hn hm han hbm hz hw).mono (by omega) fun _ h => h

theorem takes_igcd (hv : cfg.Valid) {a b : IBig} (ha : a.mag.WF cfg) (hb : b.mag.WF cfg) {n m : ℕ}
    (hn : 1 ≤ n) (hm : 1 ≤ m)
    (han : a.mag.value cfg < 2 ^ (n * cfg.W)) (hbm : b.mag.value cfg < 2 ^ (m * cfg.W)) :
    Takes (IBig.gcd cfg a b) (gcdCost cfg.W n m) (fun _ => True) :=
  Takes.bind (takes_ugcd hv ha hb hn hm han hbm) (le_refl _) fun _ _ _ _ => Takes.pure trivial

end

end Ibig.Timed
