import Verif.Proofs.RandSeq
/-!
# C78: random numbers drawn one after another are independent
-/
namespace Ibig
open Draw Filter Topology

/-- C78 (`UBig`): a program draws numbers one after another.  It chooses the range of each (its ends `low past` and
`high past`, and whether `high past` belongs to it) from the numbers `past` that came before.  If it never chooses an empty
range, then, whatever the generator does, no draw panics and every number is in its range; and the probability of any
sequence of numbers is the product of the probabilities `1 / (number of elements of the range)`: given the numbers
before, each number is uniformly distributed in its range. -/
theorem C78_ubig {cfg : Cfg} (hv : cfg.Valid) {low high : List Int → UBig} {inclusive : List Int → Bool} {lo hi : List Int → Int}
    (hlo : ∀ past, lo past = (low past).value cfg)
    (hhi : ∀ past, hi past = (high past).value cfg + (if inclusive past then 1 else 0))
    (h : ∀ past, Possible lo hi [] past → (low past).WF cfg ∧ (high past).WF cfg ∧ lo past < hi past ∧
      Fits cfg (hi past - lo past).natAbs) :
    let draws := fun t k => successive (fun y : UBig => (y.value cfg : Int))
      (fun past => genUBig cfg (inclusive past) (low past) (high past)) t k []
    (∀ t k, 1 ≤ t → (draws t k).All fun o => ∀ ys, o = some ys →
      ys.length = k ∧ (∀ y ∈ ys, y.WF cfg) ∧ Possible lo hi [] (ys.map fun y => (y.value cfg : Int))) ∧
    ∀ vs, Possible lo hi [] vs →
      Tendsto (fun t => (draws t vs.length).prob fun o => ∃ ys, o = some ys ∧ ys.map (fun y => (y.value cfg : Int)) = vs) atTop
        (𝓝 (chance lo hi [] vs)) := by
  have key : ∀ past, Possible lo hi [] past →
      UniformOn (genUBig cfg (inclusive past) (low past) (high past)) (fun y => y.WF cfg) (fun y => (y.value cfg : Int))
        (lo past) (hi past) := by
    intro past hp
    obtain ⟨h1, h2, h3, h4⟩ := h past hp
    have e1 := hlo past
    have e2 := hhi past
    by_cases hi' : inclusive past = true
    · rw [hi', if_pos rfl] at e2
      rw [e1, e2] at h3 h4 ⊢
      obtain ⟨d, e, hd⟩ := (C32_ubig_new_inclusive hv h1 h2).1 (by omega) (h4.mono (by omega))
      unfold genUBig
      simp only [hi', if_true, e]
      exact hd
    · rw [Bool.not_eq_true] at hi'
      rw [hi', if_neg (by decide), add_zero] at e2
      rw [e1, e2] at h3 h4 ⊢
      obtain ⟨d, e, hd⟩ := (C32_ubig_new hv h1 h2).1 (by omega)
      unfold genUBig
      simp only [hi', Bool.false_eq_true, if_false, e]
      exact hd
  exact ⟨fun t k ht => successive_all key ht k trivial, fun vs hp => successive_limit key vs trivial hp⟩

/-- C78 (`IBig`). -/
theorem C78_ibig {cfg : Cfg} (hv : cfg.Valid) {low high : List Int → IBig} {inclusive : List Int → Bool} {lo hi : List Int → Int}
    (hlo : ∀ past, lo past = (low past).value cfg)
    (hhi : ∀ past, hi past = (high past).value cfg + (if inclusive past then 1 else 0))
    (h : ∀ past, Possible lo hi [] past → (low past).WF cfg ∧ (high past).WF cfg ∧ lo past < hi past ∧
      Fits cfg (hi past - lo past).natAbs) :
    let draws := fun t k => successive (fun y : IBig => y.value cfg)
      (fun past => genIBig cfg (inclusive past) (low past) (high past)) t k []
    (∀ t k, 1 ≤ t → (draws t k).All fun o => ∀ ys, o = some ys →
      ys.length = k ∧ (∀ y ∈ ys, y.WF cfg) ∧ Possible lo hi [] (ys.map fun y => y.value cfg)) ∧
    ∀ vs, Possible lo hi [] vs →
      Tendsto (fun t => (draws t vs.length).prob fun o => ∃ ys, o = some ys ∧ ys.map (fun y => y.value cfg) = vs) atTop
        (𝓝 (chance lo hi [] vs)) := by
  have key : ∀ past, Possible lo hi [] past →
      UniformOn (genIBig cfg (inclusive past) (low past) (high past)) (fun y => y.WF cfg) (fun y => y.value cfg)
        (lo past) (hi past) := by
    intro past hp
    obtain ⟨h1, h2, h3, h4⟩ := h past hp
    have e1 := hlo past
    have e2 := hhi past
    by_cases hi' : inclusive past = true
    · rw [hi', if_pos rfl] at e2
      rw [e1, e2] at h3 h4 ⊢
      obtain ⟨d, e, hd⟩ := (C32_ibig_new_inclusive hv h1 h2).1 (by omega) (h4.mono (by omega))
      unfold genIBig
      simp only [hi', if_true, e]
      exact hd
    · rw [Bool.not_eq_true] at hi'
      rw [hi', if_neg (by decide), add_zero] at e2
      rw [e1, e2] at h3 h4 ⊢
      obtain ⟨d, e, hd⟩ := (C32_ibig_new hv h1 h2).1 (by omega) h4
      unfold genIBig
      simp only [hi', Bool.false_eq_true, if_false, e]
      exact hd
  exact ⟨fun t k ht => successive_all key ht k trivial, fun vs hp => successive_limit key vs trivial hp⟩

theorem chance_const (low high : Int) (past vs : List Int) :
    chance (fun _ => low) (fun _ => high) past vs = (1 / ((high : ℚ) - low)) ^ vs.length := by
  induction vs generalizing past with
  | nil => rw [chance, List.length_nil, pow_zero]
  | cons v vs ih => rw [chance, ih, List.length_cons, pow_succ']

theorem possible_const {low high : Int} {past vs : List Int} (h : ∀ v ∈ vs, low ≤ v ∧ v < high) :
    Possible (fun _ => low) (fun _ => high) past vs := by
  induction vs generalizing past with
  | nil => trivial
  | cons v vs ih =>
    exact ⟨(h v List.mem_cons_self).1, (h v List.mem_cons_self).2, ih fun w hw => h w (List.mem_cons_of_mem _ hw)⟩

/-- C78: `k` numbers from the same range `low..high` take each of the `(high - low)^k` sequences of values with the same
probability. -/
theorem C78_same_range {cfg : Cfg} (hv : cfg.Valid) {low high : UBig} (hl : low.WF cfg) (hh : high.WF cfg)
    (h : low.value cfg < high.value cfg) (vs : List Nat) (hvs : ∀ v ∈ vs, low.value cfg ≤ v ∧ v < high.value cfg) :
    Tendsto (fun t => (successive (fun y : UBig => (y.value cfg : Int)) (fun _ => genUBig cfg false low high) t vs.length []).prob
        fun o => ∃ ys, o = some ys ∧ ys.map (fun y => y.value cfg) = vs) atTop
      (𝓝 ((1 / ((high.value cfg : ℚ) - low.value cfg)) ^ vs.length)) := by
  have := (C78_ubig hv (low := fun _ => low) (high := fun _ => high) (inclusive := fun _ => false)
    (lo := fun _ => low.value cfg) (hi := fun _ => high.value cfg) (fun _ => rfl) (fun _ => by simp)
    (fun _ _ => ⟨hl, hh, by exact_mod_cast h, (UBig.WF.fits hv hh).mono (by omega)⟩)).2 (vs.map fun v : Nat => (v : Int))
    (possible_const fun v hm => by
      obtain ⟨n, hn, rfl⟩ := List.mem_map.mp hm
      have := hvs n hn
      exact ⟨by exact_mod_cast this.1, by exact_mod_cast this.2⟩)
  rw [chance_const, List.length_map] at this
  have e : ∀ ys : List UBig, (ys.map (fun y => (y.value cfg : Int)) = vs.map fun v : Nat => (v : Int)) ↔
      ys.map (fun y => y.value cfg) = vs := fun ys => by
    have e : ys.map (fun y => (y.value cfg : Int)) = (ys.map fun y => y.value cfg).map fun n : Nat => (n : Int) := by
      rw [List.map_map]
      rfl
    rw [e]
    exact (List.map_injective_iff.mpr Int.ofNat_injective).eq_iff
  simp only [e] at this
  simpa using this

/-! ### Examples -/

/-- Two numbers between `2^64 + 5` and `2^128 - 1`. -/
example := C78_same_range cfg64_valid exB_wf exA_wf (by decide +kernel) [2 ^ 64 + 5, 2 ^ 100] (by decide +kernel)

/-- Numbers from `2^64 + 5..2^128 - 1`, but after an even number one from `0..=5`.  The probability of getting `2^64 + 6` and
then 3. -/
example :=
  (C78_ubig cfg64_valid (low := fun past => if past.getLastD 1 % 2 = 0 then .small 0 else exB)
    (high := fun past => if past.getLastD 1 % 2 = 0 then .small 5 else exA)
    (inclusive := fun past => decide (past.getLastD 1 % 2 = 0)) (fun _ => rfl) (fun _ => rfl) (fun past _ => by
      by_cases h : past.getLastD 1 % 2 = 0
      · simp only [h, if_true, decide_true]
        exact ⟨show 0 < 2 ^ 64 by norm_num, show 5 < 2 ^ 64 by norm_num, by decide +kernel,
          fitsEx 3 (by decide +kernel) (by decide)⟩
      · simp only [h, if_false, decide_false]
        exact ⟨exB_wf, exA_wf, by decide +kernel, fitsEx 200 (by decide +kernel) (by decide)⟩)).2
    [2 ^ 64 + 6, 3] ⟨by decide +kernel, by decide +kernel, by decide +kernel, by decide +kernel, trivial⟩

/-- Negative and positive numbers. -/
example := (C78_ibig cfg64_valid (low := fun _ => exNegA) (high := fun _ => exPosB) (inclusive := fun past => past.length == 1)
    (fun _ => rfl) (fun _ => rfl) (fun past _ => by
      refine ⟨exNegA_wf, exPosB_wf, ?_, fitsEx 200 ?_ (by decide)⟩ <;>
        by_cases h : (past.length == 1) = true <;> simp only [h, if_true, Bool.false_eq_true, if_false] <;> decide +kernel)).2
    [-3, 2 ^ 64 + 5] ⟨by decide +kernel, by decide +kernel, by decide +kernel, by decide +kernel, trivial⟩

end Ibig
