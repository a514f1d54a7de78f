import Verif.Proofs.RandTime
/-!
The expected number of steps of drawing a number from a range.
-/
namespace Ibig

namespace TDraw

theorem UBig.uniform_cost {cfg : Cfg} (hv : cfg.Valid) (t : Nat) {r : UBig} (hr : r.WF cfg) {C : ℚ} (hC : 0 ≤ C)
    {f : Option UBig → ℚ} (hf : ∀ o, f o ≤ C) : (UBig.uniform cfg t r).cost f ≤ 4 * r.len + 27 + C := by
  unfold UBig.uniform
  have hl : (0 : ℚ) ≤ r.len := by positivity
  have hN : (0 : ℚ) ≤ 4 * r.len + 26 + C := by linarith
  refine (cost_ofT (M := 1) (Timed.takes_any 1 _) hN fun _ _ => ?_).trans (by push_cast; linarith)
  cases r with
  | small w =>
    dsimp only
    rcases Nat.eq_zero_or_pos w with rfl | hw
    · refine (cost_draw _ _ _).trans ?_
      simpa using hN
    · refine (cost_draw _ _ _).trans (avg_le hw ?_)
      refine (Finset.sum_le_sum (g := fun _ => 1 + C) fun n _ => ?_).trans ?_
      · rw [cost_pure]
        exact add_le_add le_rfl (hf _)
      · rw [Finset.sum_const, Finset.card_range, nsmul_eq_mul]
        have : (0 : ℚ) ≤ w := by positivity
        exact mul_le_mul_of_nonneg_left (by linarith) this
  | large b =>
    have hb : b.WF cfg := hr
    have hlen := hb.len
    have ea : Timed.Buffer.allocate cfg b.words.length = .ok (⟨[], allocCap cfg b.words.length⟩, 1) := by
      unfold Timed.Buffer.allocate
      rw [Buffer.allocate_ok (cfg := cfg) (n := b.words.length) (by omega)]; rfl
    obtain ⟨c, ec, hc1, hc2, hc3⟩ := Buffer.pushZeros_spec (cfg := cfg)
      (b := ⟨[], allocCap cfg b.words.length⟩) (n := b.words.length)
      ⟨by simp [IsWords], by simp⟩ (by simpa using le_allocCap (by omega))
    have ez : Timed.Buffer.pushZeros ⟨[], allocCap cfg b.words.length⟩ b.words.length = .ok (c, b.words.length + 1) := by
      unfold Timed.Buffer.pushZeros
      rw [ec]; rfl
    have hL : ((UBig.large b).len : ℚ) = b.words.length := rfl
    dsimp only
    unfold UBig.uniformLarge
    refine (cost_step ea _ _).trans ?_
    refine (add_le_add le_rfl (cost_step ez _ _)).trans ?_
    refine (add_le_add le_rfl (add_le_add le_rfl (cost_bind _ _ _))).trans ?_
    have h0 : (0 : ℚ) ≤ b.words.length := by positivity
    have h := uniformLoop_cost (W := cfg.W) (by have := hv.W1; omega) hb.words hb.ne_nil hb.last_ne t
      (result := c.words) (by rw [hc2]; simp) (C := 2 * b.words.length + 2 + C) (by linarith)
      (f := fun o => (match o with
        | none => (pure none : TDraw (Option UBig))
        | some ws => do
          let u ← ofT (Timed.UBig.ofBuffer cfg ⟨ws, c.cap⟩)
          pure (some u)).cost f)
      (by dsimp only; rw [cost_pure]; have := hf none; linarith)
      (fun ws hws => by
        dsimp only
        refine (cost_ofT (Timed.takes_ofBuffer cfg ⟨ws, c.cap⟩) hC fun a _ => ?_).trans ?_
        · rw [cost_pure]; exact hf _
        · dsimp only
          rw [hws]
          push_cast
          linarith)
    refine (add_le_add le_rfl (add_le_add le_rfl h)).trans ?_
    rw [hL]
    push_cast
    linarith

theorem UBig.uniform_all {cfg : Cfg} (hv : cfg.Valid) {t : Nat} (ht : 1 ≤ t) {r : UBig} (hr : r.WF cfg)
    (h0 : 0 < r.value cfg) :
    (UBig.uniform cfg t r).result.All fun o => ∀ u, o = some u → u.WF cfg ∧ u.value cfg < r.value cfg := by
  rw [UBig.uniform_result]
  obtain ⟨q, -, -, h⟩ := Ibig.UBig.uniform_spec hv hr h0
  obtain ⟨g, g1, g2⟩ := h t ht
  refine g2.all h0 (fun x hx u hu => ?_) (fun u hu => by cases hu)
  cases hu
  exact ⟨(g1 x hx).1, by rw [(g1 x hx).2]; exact hx⟩

theorem ofUBig_mag' (u : UBig) : (IBig.ofUBig u).mag = u := by
  unfold IBig.ofUBig IBig.fromSignMagnitude
  split <;> rfl

/-- `sample` with a range of at most `n` words and an offset of at most `m` words -/
theorem UniformUBig.sample_cost {cfg : Cfg} (hv : cfg.Valid) {t : Nat} (ht : 1 ≤ t) {d : UniformUBig}
    (hr : d.range.WF cfg) (ho : d.offset.WF cfg) (h0 : 0 < d.range.value cfg) {n m : Nat} (hn : 1 ≤ n)
    (hrn : d.range.value cfg < 2 ^ (n * cfg.W)) (hom : d.offset.len ≤ m) :
    (UniformUBig.sample cfg t d).cost (fun _ => 0) ≤ 17 * n + 13 * m + 27 := by
  have hl := Timed.UBig.len_le hv hr hn hrn
  have hlq : (d.range.len : ℚ) ≤ n := by exact_mod_cast hl
  unfold UniformUBig.sample
  refine (cost_bind _ _ _).trans ?_
  have hC : (0 : ℚ) ≤ 13 * (n + m) := by positivity
  refine (cost_mono_all (UBig.uniform_all hv ht hr h0) (g := fun _ => 13 * (n + m)) fun o ho' => ?_).trans
    ((UBig.uniform_cost hv t hr hC fun _ => le_rfl).trans (by linarith))
  cases o with
  | none =>
    dsimp only
    rw [cost_pure]
    exact hC
  | some u =>
    obtain ⟨hu, huv⟩ := ho' u rfl
    have hul := Timed.UBig.len_le hv hu hn (by omega)
    dsimp only
    refine (cost_ofT (Timed.takes_uadd .val .ref hu ho) le_rfl fun a _ => ?_).trans ?_
    · rw [cost_pure]
    · have : Timed.addCost u.len d.offset.len ≤ 13 * (n + m) := by unfold Timed.addCost; omega
      have : (Timed.addCost u.len d.offset.len : ℚ) ≤ 13 * (n + m) := by exact_mod_cast this
      linarith

theorem UniformIBig.sample_cost {cfg : Cfg} (hv : cfg.Valid) {t : Nat} (ht : 1 ≤ t) {d : UniformIBig}
    (hr : d.range.WF cfg) (ho : d.offset.WF cfg) (h0 : 0 < d.range.value cfg) {n m : Nat} (hn : 1 ≤ n)
    (hrn : d.range.value cfg < 2 ^ (n * cfg.W)) (hom : d.offset.mag.len ≤ m) :
    (UniformIBig.sample cfg t d).cost (fun _ => 0) ≤ 17 * n + 13 * m + 27 := by
  have hl := Timed.UBig.len_le hv hr hn hrn
  have hlq : (d.range.len : ℚ) ≤ n := by exact_mod_cast hl
  unfold UniformIBig.sample
  refine (cost_bind _ _ _).trans ?_
  have hC : (0 : ℚ) ≤ 13 * (n + m) := by positivity
  refine (cost_mono_all (UBig.uniform_all hv ht hr h0) (g := fun _ => 13 * (n + m)) fun o ho' => ?_).trans
    ((UBig.uniform_cost hv t hr hC fun _ => le_rfl).trans (by linarith))
  cases o with
  | none =>
    dsimp only
    rw [cost_pure]
    exact hC
  | some u =>
    obtain ⟨hu, huv⟩ := ho' u rfl
    have hul := Timed.UBig.len_le hv hu hn (by omega)
    dsimp only
    refine (cost_ofT (Timed.takes_iadd (x := .ofUBig u) .val .ref (show (IBig.ofUBig u).mag.WF cfg by rw [ofUBig_mag']; exact hu) ho.mag) le_rfl fun a _ => ?_).trans ?_
    · rw [cost_pure]
    · have : Timed.addCost u.len d.offset.mag.len ≤ 13 * (n + m) := by unfold Timed.addCost; omega
      rw [ofUBig_mag']
      have : (Timed.addCost u.len d.offset.mag.len : ℚ) ≤ 13 * (n + m) := by exact_mod_cast this
      linarith

end TDraw

theorem Yields.of_ok' {cfg : Cfg} {x : R UBig} {n : Nat} (h : Yields cfg x n) {c : UBig} (hc : x = .ok c) :
    c.WF cfg ∧ c.value cfg = n := by
  by_cases hf : Fits cfg n
  · obtain ⟨d, e, h1, h2⟩ := h.1 hf
    rw [hc] at e; cases e
    exact ⟨h1, h2⟩
  · rw [h.2 hf] at hc; cases hc

theorem IYields.of_ok' {cfg : Cfg} {x : R IBig} {z : Int} (h : IYields cfg x z) {c : IBig} (hc : x = .ok c) :
    c.WF cfg ∧ c.value cfg = z := by
  by_cases hf : Fits cfg z.natAbs
  · obtain ⟨d, e, h1, h2⟩ := h.1 hf
    rw [hc] at e; cases e
    exact ⟨h1, h2⟩
  · rw [h.2 hf] at hc; cases hc

namespace Timed

theorem takes_result {α : Type} {x : Timed α} {y : R α} {n : Nat} (h : Takes x n (fun _ => True)) (hy : x.result = y) :
    Takes x n (fun a => y = .ok a) := by
  intro a k hx
  refine ⟨(h a k hx).1, ?_⟩
  rw [← hy, hx]
  rfl

theorem takes_unew {cfg : Cfg} {low high : UBig} (hl : low.WF cfg) (hh : high.WF cfg) {n : Nat} (hln : low.len ≤ n)
    (hhn : high.len ≤ n) : Takes (UniformUBig.new cfg low high) (27 * n + 2) (fun _ => True) := by
  unfold UniformUBig.new
  refine Takes.bind (takes_usub .ref .ref hh hl) (by unfold addCost; omega) (fun r M hM _ => ?_)
  unfold addCost at hM
  refine Takes.bind takes_tick (by omega) (fun _ M1 hM1 _ => ?_)
  refine Takes.ite (fun _ => Takes.throwT) (fun _ => ?_)
  exact Takes.bind (takes_any (low.len + 1) _) (by omega) (fun _ _ _ _ => Takes.pure trivial)

theorem takes_unewInclusive {cfg : Cfg} (hv : cfg.Valid) {low high : UBig} (hl : low.WF cfg) (hh : high.WF cfg) {n : Nat}
    (hn : 1 ≤ n) (hln : low.value cfg < 2 ^ (n * cfg.W)) (hhn : high.value cfg < 2 ^ (n * cfg.W)) :
    Takes (UniformUBig.newInclusive cfg low high) (40 * n + 14) (fun _ => True) := by
  have h1 := UBig.len_le hv hl hn hln
  have h2 := UBig.len_le hv hh hn hhn
  unfold UniformUBig.newInclusive
  refine Takes.bind (takes_result (takes_usub .ref .ref hh hl) (UBig.sub_result _ _ _ _ _)) (by unfold addCost; omega)
    (fun d M hM hd => ?_)
  unfold addCost at hM
  have hs := UBig.sub_spec hv .ref .ref hh hl
  have hle : low.value cfg ≤ high.value cfg := by
    by_contra g
    rw [hs.2 (by omega)] at hd; cases hd
  obtain ⟨hdw, hdv⟩ := (hs.1 hle).of_ok' hd
  have hdl := UBig.len_le hv hdw hn (by omega)
  have h1w : (UBig.small 1).WF cfg := wf_small (Nat.one_lt_two_pow (by have := hv.W1; omega))
  refine Takes.bind (takes_uadd .val .val hdw h1w) (by unfold addCost; have : (UBig.small 1).len = 1 := rfl; omega)
    (fun r M1 hM1 _ => ?_)
  have : (UBig.small 1).len = 1 := rfl
  unfold addCost at hM1
  exact Takes.bind (takes_any (low.len + 1) _) (by omega) (fun _ _ _ _ => Takes.pure trivial)

theorem takes_iofRange {cfg : Cfg} {r low : IBig} {n : Nat} (hr : r.mag.len ≤ n + 1) (hl : low.mag.len ≤ n) :
    Takes (UniformIBig.ofRange cfg r low) (2 * n + 38) (fun _ => True) := by
  unfold UniformIBig.ofRange
  refine Takes.bind (takes_any 32 _) (by omega) (fun _ M hM _ => ?_)
  refine Takes.bind (takes_any 3 _) (by omega) (fun _ M1 hM1 _ => ?_)
  refine Takes.ite (fun _ => Takes.throwT) (fun _ => ?_)
  refine Takes.bind (takes_any (r.mag.len + 1) _) (by omega) (fun _ M2 hM2 _ => ?_)
  exact Takes.bind (takes_any (low.mag.len + 1) _) (by omega) (fun _ _ _ _ => Takes.pure trivial)

theorem pow_words {cfg : Cfg} (hv : cfg.Valid) (n : Nat) : 2 * 2 ^ (n * cfg.W) ≤ 2 ^ ((n + 1) * cfg.W) := by
  rw [← pow_succ']
  exact Nat.pow_le_pow_right (by norm_num) (by rw [Nat.succ_mul]; have := hv.W1; omega)

theorem natAbs_len_le {cfg : Cfg} (hv : cfg.Valid) {a : IBig} (ha : a.WF cfg) {n : Nat} (hn : 1 ≤ n)
    (h : (a.value cfg).natAbs < 2 ^ (n * cfg.W)) : a.mag.len ≤ n :=
  UBig.len_le hv ha.mag hn (by rwa [IBig.natAbs_value] at h)

theorem takes_inew {cfg : Cfg} (hv : cfg.Valid) {low high : IBig} (hl : low.WF cfg) (hh : high.WF cfg) {n : Nat}
    (hn : 1 ≤ n) (hln : (low.value cfg).natAbs < 2 ^ (n * cfg.W)) (hhn : (high.value cfg).natAbs < 2 ^ (n * cfg.W)) :
    Takes (UniformIBig.new cfg low high) (28 * n + 38) (fun _ => True) := by
  have h1 := natAbs_len_le hv hl hn hln
  have h2 := natAbs_len_le hv hh hn hhn
  have h3 := pow_words hv n
  unfold UniformIBig.new
  refine Takes.bind (takes_result (takes_isub .ref .ref hh.mag hl.mag) (IBig.sub_result _ _ _ _ _))
    (by unfold addCost; omega) (fun d M hM hd => ?_)
  unfold addCost at hM
  obtain ⟨hdw, hdv⟩ := (IBig.sub_spec hv .ref .ref hh hl).of_ok' hd
  have hdl := natAbs_len_le hv hdw (n := n + 1) (by omega) (by omega)
  exact (takes_iofRange hdl h1).mono (by omega) fun _ h => h

theorem takes_inewInclusive {cfg : Cfg} (hv : cfg.Valid) {low high : IBig} (hl : low.WF cfg) (hh : high.WF cfg) {n : Nat}
    (hn : 1 ≤ n) (hln : (low.value cfg).natAbs < 2 ^ (n * cfg.W)) (hhn : (high.value cfg).natAbs < 2 ^ (n * cfg.W)) :
    Takes (UniformIBig.newInclusive cfg low high) (41 * n + 96) (fun _ => True) := by
  have h1 := natAbs_len_le hv hl hn hln
  have h2 := natAbs_len_le hv hh hn hhn
  have h3 := pow_words hv n
  unfold UniformIBig.newInclusive
  refine Takes.bind (takes_result (takes_isub .ref .ref hh.mag hl.mag) (IBig.sub_result _ _ _ _ _))
    (by unfold addCost; omega) (fun d M hM hd => ?_)
  unfold addCost at hM
  obtain ⟨hdw, hdv⟩ := (IBig.sub_spec hv .ref .ref hh hl).of_ok' hd
  have hdl := natAbs_len_le hv hdw (n := n + 1) (by omega) (by omega)
  refine Takes.bind (takes_result (takes_any 32 _) (result_pass _ _)) (by omega) (fun one M1 hM1 ho => ?_)
  obtain ⟨o, eo, how, hov⟩ := IBig.fromUnsigned_spec hv (b := 8) (by unfold PBits; omega) (x := 1) (by norm_num)
  rw [ho] at eo; cases eo
  have hol := natAbs_len_le hv how (n := 1) le_rfl (by rw [hov]; exact Nat.one_lt_two_pow (by have := hv.W1; omega))
  refine Takes.bind (takes_result (takes_iadd .val .val hdw.mag how.mag) (IBig.add_result _ _ _ _ _))
    (by unfold addCost; omega) (fun r M2 hM2 hr => ?_)
  unfold addCost at hM2
  obtain ⟨hrw, hrv⟩ := (IBig.add_spec hv .val .val hdw how).of_ok' hr
  rw [hdv, hov] at hrv
  have hrl := natAbs_len_le hv hrw (n := n + 1) (by omega) (by rw [hrv]; omega)
  exact (takes_iofRange hrl h1).mono (by omega) fun _ h => h

end Timed

end Ibig
