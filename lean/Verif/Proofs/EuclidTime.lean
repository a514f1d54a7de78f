import Verif.Proofs.AddOpsTime
import Verif.Proofs.IDivOps
import Verif.Proofs.Gcd
import Verif.Model.EuclidTime
/-!
The number of steps of Euclidean division.
-/
namespace Ibig.Timed

theorem IBig.divEuclid_result (cfg : Cfg) (o0 o1 : Own) (a b : IBig) :
    (IBig.divEuclid cfg o0 o1 a b).result = Ibig.IBig.divEuclid cfg o0 o1 a b := by
  unfold IBig.divEuclid Ibig.IBig.divEuclid
  refine result_bind (IBig.divRem_result _ _ _ _ _) ?_
  rintro ⟨q, ⟨s, r⟩⟩
  cases s
  · rfl
  · exact IBig.sub_result _ _ _ _ _

theorem IBig.remEuclid_result (cfg : Cfg) (o0 o1 : Own) (a b : IBig) :
    (IBig.remEuclid cfg o0 o1 a b).result = Ibig.IBig.remEuclid cfg o0 o1 a b := by
  unfold IBig.remEuclid Ibig.IBig.remEuclid
  refine result_bind (IBig.rem_result _ _ _ _ _) ?_
  rintro ⟨s, r⟩
  cases s
  · rfl
  · exact result_bind (result_pass _ _) (fun _ => IBig.add_result _ _ _ _ _)

theorem IBig.divRemEuclid_result (cfg : Cfg) (o0 o1 : Own) (a b : IBig) :
    (IBig.divRemEuclid cfg o0 o1 a b).result = Ibig.IBig.divRemEuclid cfg o0 o1 a b := by
  unfold IBig.divRemEuclid Ibig.IBig.divRemEuclid
  refine result_bind (IBig.divRem_result _ _ _ _ _) ?_
  rintro ⟨q, ⟨s, r⟩⟩
  cases s
  · rfl
  · refine result_bind (IBig.sub_result _ _ _ _ _) (fun _ => ?_)
    refine result_bind (result_pass _ _) (fun _ => ?_)
    exact result_bind (IBig.add_result _ _ _ _ _) (fun _ => rfl)

/-! The number of steps -/

theorem Post.of_returns {α : Type} {x : R α} {P : α → Prop} (h : Returns x P) : Post x P := by
  obtain ⟨a, rfl, ha⟩ := h
  exact Post.ok ha

/-- a bound on the steps by a real number, and a property of the result -/
theorem takes_of_steps {α : Type} {x : Timed α} {y : R α} {B : ℝ} {P : α → Prop}
    (hs : ∀ r k, x = .ok (r, k) → (k : ℝ) ≤ B) (hr : x.result = y) (hp : Post y P) : Takes x ⌊B⌋₊ P := by
  intro a k h
  exact ⟨Nat.le_floor (hs a k h), hp a (by rw [← hr]; exact result_of_ok h)⟩

theorem one_le_len {cfg : Cfg} {a : UBig} (ha : a.WF cfg) : 1 ≤ a.len := by
  cases a with
  | small w => exact le_refl 1
  | large b =>
    have := two_le ha
    show 1 ≤ b.words.length
    omega

theorem mag_natAbs {cfg : Cfg} (x : IBig) : x.mag.value cfg = (x.value cfg).natAbs := by
  unfold Ibig.IBig.value
  cases x.sign <;> simp [Sign.toInt]

theorem ilen_le {cfg : Cfg} (hv : cfg.Valid) {x y : IBig} (hx : x.WF cfg) (hy : y.WF cfg)
    (h : (x.value cfg).natAbs ≤ (y.value cfg).natAbs) : x.mag.len ≤ y.mag.len := by
  refine UBig.len_le hv hx.mag (one_le_len hy.mag) ?_
  rw [mag_natAbs]
  refine lt_of_le_of_lt h ?_
  rw [← mag_natAbs]
  exact UBig.value_lt_len hy.mag

theorem tdiv_le (a b : Int) : (a.tdiv b).natAbs ≤ a.natAbs := by
  rw [Int.natAbs_tdiv]
  exact Nat.div_le_self _ _

theorem tmod_le (a b : Int) : (a.tmod b).natAbs ≤ a.natAbs := by
  rw [Int.natAbs_tmod]
  exact Nat.mod_le _ _

theorem signum_len (b : IBig) : b.signum.mag.len = 1 := by
  rcases b with ⟨s, m⟩
  cases s
  · show UBig.len (IBig.mag (if m.beq (.small 0) then _ else _)) = 1
    by_cases h : m.beq (.small 0) = true
    · rw [if_pos h]; rfl
    · rw [if_neg h]; rfl
  · rfl

theorem signum_wf {cfg : Cfg} (hv : cfg.Valid) {b : IBig} (hb : b.WF cfg) : b.signum.mag.WF cfg :=
  (IBig.signum_spec hv hb).1.mag

theorem takes_idivRem {cfg : Cfg} (hv : cfg.Valid) (o0 o1 : Own) {a b : IBig} (ha : a.WF cfg) (hb : b.WF cfg) :
    Takes (IBig.divRem cfg o0 o1 a b) ⌊divBound a.mag.len b.mag.len⌋₊
      (fun p => p.1.mag.WF cfg ∧ p.2.mag.WF cfg ∧ p.1.mag.len ≤ a.mag.len ∧ p.2.mag.len ≤ a.mag.len) := by
  refine takes_of_steps (fun r k h => IBig.divRem_steps hv o0 o1 ha hb h) (IBig.divRem_result _ _ _ _ _) ?_
  by_cases h0 : b.value cfg = 0
  · rw [(IBig.divRem_spec hv o0 o1 ha hb).2 h0]
    exact Post.error
  · obtain ⟨c, h1, h2, h3, h4, h5⟩ := (IBig.divRem_spec hv o0 o1 ha hb).1 h0
    rw [h1]
    refine Post.ok ⟨h2.mag, h3.mag, ilen_le hv h2 ha ?_, ilen_le hv h3 ha ?_⟩
    · rw [h4]; exact tdiv_le _ _
    · rw [h5]; exact tmod_le _ _

theorem takes_irem {cfg : Cfg} (hv : cfg.Valid) (o0 o1 : Own) {a b : IBig} (ha : a.WF cfg) (hb : b.WF cfg) :
    Takes (IBig.rem cfg o0 o1 a b) ⌊divBound a.mag.len b.mag.len⌋₊
      (fun p => p.mag.WF cfg ∧ p.mag.len ≤ a.mag.len) := by
  refine takes_of_steps (fun r k h => IBig.rem_steps hv o0 o1 ha hb h) (IBig.rem_result _ _ _ _ _) ?_
  by_cases h0 : b.value cfg = 0
  · rw [(IBig.rem_spec hv o0 o1 ha hb).2 h0]
    exact Post.error
  · obtain ⟨c, h1, h2, h4⟩ := (IBig.rem_spec hv o0 o1 ha hb).1 h0
    rw [h1]
    refine Post.ok ⟨h2.mag, ilen_le hv h2 ha ?_⟩
    rw [h4]; exact tmod_le _ _

theorem takes_iabs {cfg : Cfg} (hv : cfg.Valid) (o : Own) {b : IBig} (hb : b.WF cfg) :
    Takes (IBig.abs cfg o b) (b.mag.len + 1) (fun m => m.mag.WF cfg ∧ m.mag.len ≤ b.mag.len) := by
  refine Takes.pass ((Post.of_returns (IBig.abs_spec hv o hb)).mono ?_)
  rintro m ⟨h1, h2⟩
  refine ⟨h1.mag, ilen_le hv h1 hb ?_⟩
  rw [h2, Int.natAbs_abs]

/-- the steps of Euclidean division, at most -/
noncomputable def euclidCost (n m : ℕ) : ℕ := ⌊divBound n m⌋₊ + 29 * n + 14 * m + 14

theorem takes_idivEuclid {cfg : Cfg} (hv : cfg.Valid) (o0 o1 : Own) {a b : IBig} (ha : a.WF cfg) (hb : b.WF cfg) :
    Takes (IBig.divEuclid cfg o0 o1 a b) (euclidCost a.mag.len b.mag.len) (fun _ => True) := by
  unfold IBig.divEuclid euclidCost
  refine Takes.bind (takes_idivRem hv o0 o1 ha hb) (by omega) ?_
  rintro ⟨q, ⟨s, r⟩⟩ M hM ⟨h1, h2, h3, h4⟩
  cases s
  · exact Takes.pure trivial
  · refine (takes_isub .val .val h1 (signum_wf hv hb)).mono ?_ fun _ h => h
    rw [signum_len]
    unfold addCost
    omega

theorem takes_iremEuclid {cfg : Cfg} (hv : cfg.Valid) (o0 o1 : Own) {a b : IBig} (ha : a.WF cfg) (hb : b.WF cfg) :
    Takes (IBig.remEuclid cfg o0 o1 a b) (euclidCost a.mag.len b.mag.len) (fun _ => True) := by
  unfold IBig.remEuclid euclidCost
  refine Takes.bind (takes_irem hv o0 .ref ha hb) (by omega) ?_
  rintro ⟨s, r⟩ M hM ⟨h1, h2⟩
  dsimp only at h2
  cases s
  · exact Takes.pure trivial
  · have := one_le_len ha.mag
    refine Takes.bind (takes_iabs hv o1 hb) (by omega) ?_
    rintro m M1 hM1 ⟨h5, h6⟩
    refine (takes_iadd .val .val h1 h5).mono ?_ fun _ h => h
    unfold addCost
    dsimp only
    omega

theorem takes_idivRemEuclid {cfg : Cfg} (hv : cfg.Valid) (o0 o1 : Own) {a b : IBig} (ha : a.WF cfg)
    (hb : b.WF cfg) : Takes (IBig.divRemEuclid cfg o0 o1 a b) (euclidCost a.mag.len b.mag.len) (fun _ => True) := by
  unfold IBig.divRemEuclid euclidCost
  refine Takes.bind (takes_idivRem hv o0 .ref ha hb) (by omega) ?_
  rintro ⟨q, ⟨s, r⟩⟩ M hM ⟨h1, h2, h3, h4⟩
  dsimp only at h3 h4
  cases s
  · exact Takes.pure trivial
  · have := one_le_len ha.mag
    have hs := takes_isub (cfg := cfg) .val .val h1 (signum_wf hv hb)
    rw [signum_len] at hs
    unfold addCost at hs
    dsimp only at hs
    refine Takes.bind hs (by omega) ?_
    rintro q' M0 hM0 -
    refine Takes.bind (takes_iabs hv o1 hb) (by omega) ?_
    rintro m M1 hM1 ⟨h5, h6⟩
    have hd := takes_iadd (cfg := cfg) .val .val (x := ⟨.neg, r⟩) h2 h5
    unfold addCost at hd
    dsimp only at hd
    exact Takes.bind hd (by omega) (fun _ _ _ _ => Takes.pure trivial)

/-- A bound for the steps of Euclidean division of `n` words by `m` words. -/
noncomputable def euclidBound (n m : ℕ) : ℝ := 210 * n * ((min n m : ℕ) : ℝ) ^ (47 / 100 : ℝ) + 29 * n + 14 * m + 14

theorem euclidBound_mono {n n' m m' : ℕ} (h : n ≤ n') (h' : m ≤ m') : euclidBound n m ≤ euclidBound n' m' := by
  have h1 : (n : ℝ) ≤ n' := by exact_mod_cast h
  have h2 : (m : ℝ) ≤ m' := by exact_mod_cast h'
  have h3 := divBound_mono h h'
  unfold divBound at h3
  unfold euclidBound
  linarith

theorem euclid_steps {α : Type} {x : Timed α} {n m : ℕ} (hx : Takes x (euclidCost n m) (fun _ => True)) {r : α}
    {k : ℕ} (h : x = .ok (r, k)) : (k : ℝ) ≤ euclidBound n m := by
  have h1 := (hx r k h).1
  unfold euclidCost at h1
  have h2 : (k : ℝ) ≤ ⌊divBound n m⌋₊ + 29 * n + 14 * m + 14 := by exact_mod_cast h1
  have h3 := Nat.floor_le (show 0 ≤ divBound n m by unfold divBound; positivity)
  unfold euclidBound
  unfold divBound at h2 h3
  linarith

end Ibig.Timed
