import Verif.Spec.Interact
import Verif.Proofs.ModUnwind
import Verif.Props.Gcd
import Verif.Props.Serde
import Verif.Props.Rand
/-! Programs that react to what they see refine the mathematical ones. -/
namespace Ibig

/-! ### Random draws -/

theorem Draw.All.can {α : Type} {P : α → Prop} {d : Draw α} (h : d.All P) {r : R α} (hr : d.Can r) : ∃ a, r = .ok a ∧ P a := by
  induction d with
  | ret a => exact ⟨a, hr, h⟩
  | fail p => exact h.elim
  | draw m k ih =>
    obtain ⟨n, hn, hr⟩ := hr
    exact ih n (h.2 n hn) hr

theorem Draw.exp_pos_can {α : Type} {f : α → ℚ} {d : Draw α} (h : 0 < d.exp f) : ∃ a, d.Can (.ok a) ∧ 0 < f a := by
  induction d with
  | ret a => exact ⟨a, rfl, h⟩
  | fail p => exact (lt_irrefl _ h).elim
  | draw m k ih =>
    have hm : 0 < ∑ n ∈ Finset.range m, (k n).exp f := by
      by_contra hc
      exact absurd h (not_lt.mpr (div_nonpos_of_nonpos_of_nonneg (not_lt.mp hc) (Nat.cast_nonneg _)))
    obtain ⟨n, hn, hp⟩ := Finset.exists_lt_of_sum_lt (s := Finset.range m) (f := fun _ => (0 : ℚ))
      (g := fun n => (k n).exp f) (by simpa using hm)
    obtain ⟨a, h1, h2⟩ := ih n hp
    exact ⟨a, ⟨n, Finset.mem_range.mp hn, h1⟩, h2⟩

theorem Draw.prob_pos_can {α : Type} {S : α → Prop} {d : Draw α} (h : 0 < d.prob S) : ∃ a, d.Can (.ok a) ∧ S a := by
  obtain ⟨a, h1, h2⟩ := Draw.exp_pos_can h
  refine ⟨a, h1, ?_⟩
  by_contra hc
  simp [hc] at h2

/-- What can come out of a uniform distribution. -/
theorem UniformOn.can {δ α : Type} {u : δ} {sample : Nat → δ → Draw (Option α)} {wf : α → Prop} {value : α → Int}
    {low high : Int} (h : UniformOn (fun t => sample t u) wf value low high) {dist : R δ} (hd : dist = .ok u) :
    (∀ r, SampleCan dist sample r → ∃ y, r = .ok y ∧ wf y ∧ low ≤ value y ∧ value y < high) ∧
    ∀ z, low ≤ z → z < high → ∃ y, SampleCan dist sample (.ok y) ∧ wf y ∧ value y = z := by
  obtain ⟨q, h1, h2, h3⟩ := h
  subst hd
  refine ⟨fun r hr => ?_, fun z hz1 hz2 => ?_⟩
  · obtain ⟨t, ht, hr⟩ := hr
    have ha := (h3 t ht).1
    match r, hr with
    | .error e, hr =>
      obtain ⟨a, h, -⟩ := ha.can hr
      cases h
    | .ok y, hr =>
      obtain ⟨a, h, ha⟩ := ha.can hr
      cases h
      exact ⟨y, rfl, ha y rfl⟩
  · obtain ⟨ha, -, hp⟩ := h3 1 le_rfl
    have hpos : 0 < (sample 1 u).prob (fun o => ∃ y, o = some y ∧ value y = z) := by
      rw [hp z hz1 hz2, pow_one]
      have : (low : ℚ) < high := by exact_mod_cast lt_of_le_of_lt hz1 hz2
      exact div_pos (by linarith) (by linarith)
    obtain ⟨o, hc, y, rfl, hy⟩ := Draw.prob_pos_can hpos
    obtain ⟨a, h, hw⟩ := ha.can hc
    cases h
    exact ⟨y, ⟨1, le_rfl, hc⟩, (hw y rfl).1, hy⟩

theorem SampleCan.of_error {δ α : Type} {dist : R δ} {sample : Nat → δ → Draw (Option α)} {r : R α} {e : Panic}
    (hd : dist = .error e) : SampleCan dist sample r ↔ r = .error e := by
  subst hd
  rfl

variable {cfg : Cfg} {addr : Nat → Nat} {s : MState} {v : MathState}

/-! ### Assignments -/

theorem MState.Means.setU (h : MState.Means cfg addr s v) (d : Nat) {x : UBig} (hx : x.WF cfg) {n : Nat}
    (hn : x.value cfg = n) : MState.Means cfg addr { s with n := s.n.setU d x } { v with n := v.n.setU d n } := by
  obtain ⟨h1, h2⟩ := h.wf.setU d hx
  exact ⟨h1, by rw [h2, h.values, hn], h.ring, h.elem⟩

theorem MState.Means.setI (h : MState.Means cfg addr s v) (d : Nat) {x : IBig} (hx : x.WF cfg) {z : Int}
    (hz : x.value cfg = z) : MState.Means cfg addr { s with n := s.n.setI d x } { v with n := v.n.setI d z } := by
  obtain ⟨h1, h2⟩ := h.wf.setI d hx
  exact ⟨h1, by rw [h2, h.values, hz], h.ring, h.elem⟩

/-- The outcome is permitted, and the variables agree. -/
def XInstr.Good (cfg : Cfg) (addr : Nat → Nat) (s : MState) (v : MathState) (c : XInstr) : R (MState × List Obs) → Prop
  | .ok (t, o) => ∃ w, c.May cfg v (.ok (w, o)) ∧ MState.Means cfg addr t w
  | .error e => c.May cfg v (.error e) ∧ MState.Means cfg addr (c.leaves cfg s) (c.mathLeaves v)

theorem IBig.deserialize_yields (hv : cfg.Valid) (sign : Sign) {es : List Nat} {hint : Option Nat} {n : Nat}
    (h : Yields cfg (UBig.deserialize cfg hint es) n) :
    IYields cfg (IBig.deserialize cfg sign hint es) (sign.toInt * n) := by
  obtain ⟨h1, h2⟩ := h
  have hn : (sign.toInt * n).natAbs = n := by cases sign <;> simp [Sign.toInt]
  refine ⟨fun hf => ?_, fun hf => ?_⟩
  · rw [hn] at hf
    obtain ⟨m, e, hm, hmv⟩ := h1 hf
    obtain ⟨g1, g2⟩ := IBig.fromSignMagnitude_spec hv sign hm
    refine ⟨_, by unfold IBig.deserialize; rw [e]; rfl, g1, ?_⟩
    rw [g2, hmv]
  · rw [hn] at hf
    unfold IBig.deserialize
    rw [h2 hf]
    rfl

/-- One instruction. -/
theorem XInstr.ref (hv : cfg.Valid) (ha : Function.Injective addr) (be : Bool) (h : MState.Means cfg addr s v)
    {c : XInstr} (hc : c.OK cfg) {out : R (MState × List Obs)} (ho : c.Can cfg be addr s out) :
    c.Good cfg addr s v out := by
  have hu : ∀ k, (s.n.u k).value cfg = v.n.u k := fun k => by rw [← h.values]; rfl
  have hi : ∀ k, (s.n.i k).value cfg = v.n.i k := fun k => by rw [← h.values]; rfl
  have hwu : ∀ k, (s.n.u k).WF cfg := h.wf.1
  have hwi : ∀ k, (s.n.i k).WF cfg := h.wf.2
  cases c with
  | base c =>
    have ho : out = c.exec cfg be addr s := ho
    subst ho
    have hr := MInstr.ref hv ha be h hc
    generalize hx : c.exec cfg be addr s = x at hr
    match x, hx, hr with
    | .ok (t, o), hx, .inl hr =>
      generalize hy : c.math cfg.bits v = y at hr
      match y, hr with
      | .ok (w, o'), ⟨t', h1, h2⟩ =>
        cases h1
        exact ⟨w, .base hy, h2⟩
    | .ok (t, o), hx, .inr hr => rcases hr.1 with hr | hr <;> cases hr
    | .error e, hx, .inl hr =>
      have hl := MInstr.leaves_ref hv ha be h hx
      generalize hy : c.math cfg.bits v = y at hr
      match y, hr with
      | .ok (v', o'), ⟨t', h1, _⟩ => cases h1
      | .error e', h1 =>
        cases h1
        refine ⟨?_, hl⟩
        by_cases hd : c.Defined v
        · exact .panic hy (MInstr.docs _ v c hd e hy)
        · obtain ⟨h2, h3⟩ := MInstr.undefined_math cfg.bits v c hd
          rw [hy] at h2
          cases h2
          exact .undefined hd
    | .error e, hx, .inr hr =>
      refine ⟨.limit hr.2 ?_, MInstr.leaves_ref hv ha be h hx⟩
      rcases hr.1 with hr | hr <;> cases hr
      · exact .inl rfl
      · exact .inr rfl
  | uextGcd d x y a b =>
    have ho : out = s.putBezoutU d x y ((s.n.u a).extendedGcd cfg (s.n.u b)) := ho
    subst ho
    obtain ⟨h1, h2⟩ := C25_ubig_extended_gcd hv (hwu a) (hwu b)
    rw [hu, hu] at h1 h2
    by_cases hz : v.n.u a = 0 ∧ v.n.u b = 0
    · rw [h2 hz.1 hz.2]
      exact ⟨.uextGcdZero hz.1 hz.2, h⟩
    · rcases h1 hz with ⟨g, p, q, e, w1, w2, w3, w4⟩ | ⟨e, hf⟩
      · rw [e]
        exact ⟨_, .uextGcd hz w4, ((h.setU d w1 rfl).setI x w2 rfl).setI y w3 rfl⟩
      · rw [e]
        exact ⟨.uextGcdLimit hf, h⟩
  | iextGcd d x y a b =>
    have ho : out = s.putBezoutI d x y ((s.n.i a).extendedGcd cfg (s.n.i b)) := ho
    subst ho
    obtain ⟨h1, h2⟩ := C25_ibig_extended_gcd hv (hwi a) (hwi b)
    rw [hi, hi] at h1 h2
    by_cases hz : v.n.i a = 0 ∧ v.n.i b = 0
    · rw [h2 hz.1 hz.2]
      exact ⟨.iextGcdZero hz.1 hz.2, h⟩
    · rcases h1 hz with ⟨g, p, q, e, w1, w2, w3, w4, w5, w6, w7⟩ | ⟨e, hf⟩
      · rw [e]
        exact ⟨_, .iextGcd hz (by rw [w5, w4]) w6 w7, ((h.setI d w1 w4).setI x w2 rfl).setI y w3 rfl⟩
      · rw [e]
        exact ⟨.iextGcdLimit hf, h⟩
  | userde k d a =>
    obtain ⟨len, es, e1, h1⟩ := C31_ubig_same_build hv (hwu a)
    have e2 := C31_ubig_serialize hv (hwu a)
    rw [e1] at e2
    cases e2
    obtain ⟨b, e3, hb, hbv⟩ := h1 (if k then some (Nat.digits (2 ^ 64) ((s.n.u a).value cfg)).length else none)
      (by cases k <;> simp)
    have ho : out = (do
      let (b, o) ← (s.n.u a).throughSerde cfg k
      return ({ s with n := s.n.setU d b }, o)) := ho
    subst ho
    simp only [UBig.throughSerde, e1, e3, bind, Except.bind, pure, Except.pure]
    rw [hu]
    exact ⟨_, .userde, h.setU d hb (by rw [hbv, hu])⟩
  | iserde k d a =>
    obtain ⟨sg, len, es, e1, hs, he, hl, h1, h2⟩ := C31_ibig_round_trip hv hv (hwi a)
    have hf : Fits cfg ((s.n.i a).value cfg).natAbs := by
      rw [IBig.natAbs_value]
      exact (hwi a).mag.fits hv
    have h3 : ∃ b, IBig.deserialize cfg sg (if k then some len else none) es = .ok b ∧ b.WF cfg ∧
        b.value cfg = (s.n.i a).value cfg := by
      cases k
      · exact h2.1 hf
      · exact h1.1 hf
    obtain ⟨b, e3, hb, hbv⟩ := h3
    have ho : out = (do
      let (b, o) ← (s.n.i a).throughSerde cfg k
      return ({ s with n := s.n.setI d b }, o)) := ho
    subst ho
    simp only [IBig.throughSerde, e1, e3, bind, Except.bind, pure, Except.pure]
    subst hl
    subst he
    rw [hi] at hs hbv ⊢
    have hsg : (sg == Sign.neg) = decide (v.n.i a < 0) := by
      rw [hs]
      by_cases h0 : 0 ≤ v.n.i a
      · rw [if_pos h0, decide_eq_false (by omega)]; rfl
      · rw [if_neg h0, decide_eq_true (by omega)]; rfl
    rw [hsg]
    exact ⟨_, .iserde, h.setI d hb hbv⟩
  | uread k d es =>
    obtain ⟨h1, h2⟩ := C31_any_sequence hv hc (hint := if k then some es.length else none) (by cases k <;> simp)
    have ho : out = s.putU d (UBig.deserialize cfg (if k then some es.length else none) es) := ho
    subst ho
    by_cases hl : cfg.maxLen + 4 < es.length * (64 / cfg.W)
    · rw [h2 hl]
      exact ⟨.ureadLimit (.inr hl), h⟩
    · by_cases hf : Fits cfg (Nat.ofDigits (2 ^ 64) es)
      · obtain ⟨b, e, hb, hbv⟩ := (h1 (by omega)).1 hf
        rw [e]
        exact ⟨_, .uread, h.setU d hb hbv⟩
      · rw [(h1 (by omega)).2 hf]
        exact ⟨.ureadLimit (.inl hf), h⟩
  | iread k d sg es =>
    obtain ⟨h1, h2⟩ := C31_any_sequence hv hc (hint := if k then some es.length else none) (by cases k <;> simp)
    have ho : out = s.putI d (IBig.deserialize cfg sg (if k then some es.length else none) es) := ho
    subst ho
    by_cases hl : cfg.maxLen + 4 < es.length * (64 / cfg.W)
    · unfold IBig.deserialize
      rw [h2 hl]
      exact ⟨.ireadLimit (.inr hl), h⟩
    · have h3 := IBig.deserialize_yields hv sg (h1 (by omega))
      have hn : (sg.toInt * (Nat.ofDigits (2 ^ 64) es : Nat)).natAbs = Nat.ofDigits (2 ^ 64) es := by
        cases sg <;> simp [Sign.toInt]
      by_cases hf : Fits cfg (Nat.ofDigits (2 ^ 64) es)
      · obtain ⟨b, e, hb, hbv⟩ := h3.1 (by rw [hn]; exact hf)
        rw [e]
        exact ⟨_, .iread, h.setI d hb hbv⟩
      · rw [h3.2 (by rw [hn]; exact hf)]
        exact ⟨.ireadLimit (.inl hf), h⟩
  | urand k d low high =>
    obtain ⟨r, hr, rfl⟩ := ho
    cases k
    · obtain ⟨h1, h2, h3⟩ := C32_ubig_new hv (hwu low) (hwu high)
      rw [hu, hu] at h1 h2 h3
      rcases Nat.lt_trichotomy (v.n.u low) (v.n.u high) with g | g | g
      · obtain ⟨u, e, hun⟩ := h1 g
        obtain ⟨y, rfl, hy, g1, g2⟩ := (UniformOn.can (sample := fun t (u : UniformUBig) => u.sample cfg t) hun e).1 r hr
        exact ⟨_, .urand (by omega) (by simpa using g2), h.setU d hy rfl⟩
      · rw [(SampleCan.of_error (h2 g)).mp hr]
        exact ⟨.urandEmpty g, h⟩
      · rw [(SampleCan.of_error (h3 g)).mp hr]
        exact ⟨.urandNegative g, h⟩
    · obtain ⟨h1, h2, h3⟩ := C32_ubig_new_inclusive hv (hwu low) (hwu high)
      rw [hu, hu] at h1 h2 h3
      rcases Nat.lt_or_ge (v.n.u high) (v.n.u low) with g | g
      · rw [(SampleCan.of_error (h3 g)).mp hr]
        exact ⟨.urandNegative g, h⟩
      · by_cases hf : Fits cfg (v.n.u high - v.n.u low + 1)
        · obtain ⟨u, e, hun⟩ := h1 g hf
          obtain ⟨y, rfl, hy, g1, g2⟩ := (UniformOn.can (sample := fun t (u : UniformUBig) => u.sample cfg t) hun e).1 r hr
          exact ⟨_, .urand (by omega) (by simp only [if_true]; omega), h.setU d hy rfl⟩
        · rw [(SampleCan.of_error (h2 g hf)).mp hr]
          exact ⟨.urandLimit hf, h⟩
  | irand k d low high =>
    obtain ⟨r, hr, rfl⟩ := ho
    cases k
    · obtain ⟨h1, h2, h3⟩ := C32_ibig_new hv (hwi low) (hwi high)
      rw [hi, hi] at h1 h2 h3
      by_cases hf : Fits cfg (v.n.i high - v.n.i low).natAbs
      · rcases lt_or_ge (v.n.i low) (v.n.i high) with g | g
        · obtain ⟨u, e, hun⟩ := h1 g hf
          obtain ⟨y, rfl, hy, g1, g2⟩ := (UniformOn.can (sample := fun t (u : UniformIBig) => u.sample cfg t) hun e).1 r hr
          exact ⟨_, .irand g1 (by simpa using g2), h.setI d hy rfl⟩
        · rw [(SampleCan.of_error (h2 g hf)).mp hr]
          exact ⟨.irandEmpty (by simpa using g), h⟩
      · rw [(SampleCan.of_error (h3 hf)).mp hr]
        exact ⟨.irandLimit (.inl hf), h⟩
    · obtain ⟨h1, h2, h3⟩ := C32_ibig_new_inclusive hv (hwi low) (hwi high)
      rw [hi, hi] at h1 h2 h3
      by_cases hf : Fits cfg (v.n.i high - v.n.i low).natAbs
      · by_cases hf' : Fits cfg (v.n.i high - v.n.i low + 1).natAbs
        · rcases lt_or_ge (v.n.i high) (v.n.i low) with g | g
          · rw [(SampleCan.of_error (h2 g hf)).mp hr]
            exact ⟨.irandEmpty (by simp only [if_true]; omega), h⟩
          · obtain ⟨u, e, hun⟩ := h1 g hf'
            obtain ⟨y, rfl, hy, g1, g2⟩ := (UniformOn.can (sample := fun t (u : UniformIBig) => u.sample cfg t) hun e).1 r hr
            exact ⟨_, .irand g1 (by simpa using g2), h.setI d hy rfl⟩
        · rw [(SampleCan.of_error (h3 (.inr hf'))).mp hr]
          exact ⟨.irandLimit (.inr ⟨rfl, hf'⟩), h⟩
      · rw [(SampleCan.of_error (h3 (.inl hf))).mp hr]
        exact ⟨.irandLimit (.inl hf), h⟩

/-- Every run is a permitted run. -/
theorem Run.ref (hv : cfg.Valid) (ha : Function.Injective addr) {be : Bool} {next : List Event → XInstr → Prop}
    (hn : ∀ tr c, next tr c → c.OK cfg) (h : MState.Means cfg addr s v) {tr : List Event} {t : MState}
    (hr : Run cfg be addr next s tr t) : ∃ w, MathRun cfg next v tr w ∧ MState.Means cfg addr t w := by
  induction hr with
  | start => exact ⟨v, .start, h⟩
  | step _ hc hx ih =>
    obtain ⟨w, h1, h2⟩ := ih
    obtain ⟨w', h3, h4⟩ := XInstr.ref hv ha be h2 (hn _ _ hc) hx
    exact ⟨w', .step h1 hc h3, h4⟩
  | panic _ hc hx ih =>
    obtain ⟨w, h1, h2⟩ := ih
    obtain ⟨h3, h4⟩ := XInstr.ref hv ha be h2 (hn _ _ hc) hx
    exact ⟨_, .panic h1 hc h3, h4⟩

end Ibig
