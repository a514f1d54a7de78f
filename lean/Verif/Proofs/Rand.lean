import Verif.Spec.Rand
import Verif.Proofs.AddOps
import Verif.Proofs.Number
import Verif.Proofs.Convert
import Verif.Proofs.BitCount
import Mathlib.Algebra.BigOperators.Intervals
import Mathlib.Algebra.BigOperators.Field
import Mathlib.Tactic.FieldSimp
import Mathlib.Tactic.Linarith
import Mathlib.Tactic.Ring
/-!
Lemmas about random numbers.
-/
namespace Ibig

open Finset

namespace Draw

theorem ret_bind {α β : Type} (a : α) (k : α → Draw β) : (Draw.ret a >>= k) = k a := rfl

theorem ofR_ok_bind {α β : Type} (a : α) (k : α → Draw β) : (Draw.ofR (.ok a) >>= k) = k a := rfl

theorem exp_bind {α β : Type} (d : Draw α) (k : α → Draw β) (f : β → ℚ) :
    (d >>= k).exp f = d.exp fun a => (k a).exp f := by
  show (Draw.bind d k).exp f = _
  induction d with
  | ret a => rfl
  | fail p => rfl
  | draw m g ih =>
    simp only [Draw.bind, Draw.exp]
    congr 1
    exact Finset.sum_congr rfl fun n _ => ih n

theorem exp_uniform (m : Nat) (f : Nat → ℚ) : (Draw.uniform m).exp f = (∑ n ∈ range m, f n) / m := rfl

theorem All.bind {α β : Type} {P : α → Prop} {Q : β → Prop} {d : Draw α} {k : α → Draw β} (h : d.All P)
    (hk : ∀ a, P a → (k a).All Q) : (d >>= k).All Q := by
  show (Draw.bind d k).All Q
  induction d with
  | ret a => exact hk a h
  | fail p => exact h
  | draw m g ih => exact ⟨h.1, fun n hn => ih n (h.2 n hn)⟩

theorem All.mono {α : Type} {P Q : α → Prop} {d : Draw α} (h : d.All P) (hpq : ∀ a, P a → Q a) : d.All Q := by
  induction d with
  | ret a => exact hpq a h
  | fail p => exact h
  | draw m g ih => exact ⟨h.1, fun n hn => ih n (h.2 n hn)⟩

theorem all_uniform {m : Nat} (h : 0 < m) : (Draw.uniform m).All fun n => n < m := ⟨h, fun _ hn => hn⟩

theorem all_ofR {α : Type} {x : R α} {P : α → Prop} (h : Returns x P) : (Draw.ofR x).All P := by
  obtain ⟨a, rfl, ha⟩ := h
  exact ha

/-- Only the values on possible results matter. -/
theorem exp_congr {α : Type} {P : α → Prop} {d : Draw α} (h : d.All P) {f g : α → ℚ} (hfg : ∀ a, P a → f a = g a) :
    d.exp f = d.exp g := by
  induction d with
  | ret a => exact hfg a h
  | fail p => rfl
  | draw m k ih =>
    simp only [Draw.exp]
    congr 1
    exact Finset.sum_congr rfl fun n hn => ih n (h.2 n (mem_range.mp hn))

end Draw

/-! ### Words of a number -/

/-- The `k` words of `x`. -/
def toWords (W : Nat) : Nat → Nat → List Nat
  | 0, _ => []
  | k + 1, x => (x % base W) :: toWords W k (x / base W)

theorem toWords_length (W k x : Nat) : (toWords W k x).length = k := by
  induction k generalizing x with
  | zero => rfl
  | succ k ih => simp [toWords, ih]

theorem toWords_isWords (W k x : Nat) : IsWords W (toWords W k x) := by
  induction k generalizing x with
  | zero => simp [toWords, IsWords]
  | succ k ih => rw [toWords, isWords_cons]; exact ⟨Nat.mod_lt _ (base_pos W), ih _⟩

theorem val_toWords {W k x : Nat} (h : x < base W ^ k) : val W (toWords W k x) = x := by
  induction k generalizing x with
  | zero => simp at h; simp [toWords, h]
  | succ k ih =>
    rw [toWords, val_cons, ih, Nat.mod_add_div]
    rw [Nat.div_lt_iff_lt_mul (base_pos W), ← pow_succ]; exact h

theorem toWords_val {W : Nat} {l : List Nat} (hl : IsWords W l) : toWords W l.length (val W l) = l :=
  val_inj (toWords_isWords _ _ _) hl (toWords_length ..) (val_toWords (val_lt hl))

theorem toWords_snoc {W k x r : Nat} (hx : x < base W ^ k) (hr : r < base W) :
    toWords W (k + 1) (x + base W ^ k * r) = toWords W k x ++ [r] := by
  have hw : IsWords W (toWords W k x ++ [r]) := by
    rw [isWords_append, isWords_cons]; exact ⟨toWords_isWords _ _ _, hr, by simp [IsWords]⟩
  have h := toWords_val hw
  rw [List.length_append, toWords_length, val_append, val_toWords hx, toWords_length] at h
  simpa using h

/-! ### Sums -/

theorem sum_range_mul' (P w : Nat) (F : Nat → ℚ) :
    ∑ z ∈ range (w * P), F z = ∑ r ∈ range w, ∑ y ∈ range P, F (y + P * r) := by
  induction w with
  | zero => simp
  | succ w ih =>
    rw [Nat.succ_mul, Finset.sum_range_add, ih, Finset.sum_range_succ]
    congr 1
    exact Finset.sum_congr rfl fun y _ => by rw [Nat.add_comm, Nat.mul_comm]

theorem sum_range_split (P w A : Nat) (F : Nat → ℚ) :
    ∑ z ∈ range (A + P * w), F z
      = ∑ r ∈ range w, ∑ y ∈ range P, F (y + P * r) + ∑ y ∈ range A, F (y + P * w) := by
  rw [Nat.add_comm, Finset.sum_range_add, Nat.mul_comm P w, sum_range_mul']
  congr 1
  exact Finset.sum_congr rfl fun y _ => by rw [Nat.add_comm]

theorem fillWords_exp (W k : Nat) (f : List Nat → ℚ) :
    (fillWords W k).exp f = (∑ x ∈ range (base W ^ k), f (toWords W k x)) / (base W ^ k : Nat) := by
  induction k generalizing f with
  | zero => simp [fillWords, Draw.exp, toWords]
  | succ k ih =>
    simp only [fillWords, Draw.exp_bind, Draw.exp_uniform, ih, Draw.exp]
    rw [← Finset.sum_div, div_div, pow_succ, sum_range_mul', Finset.sum_comm, ← Nat.cast_mul]
    congr 1
    refine Finset.sum_congr rfl fun x _ => Finset.sum_congr rfl fun y hy => ?_
    have hy := mem_range.mp hy
    rw [toWords, Nat.add_mul_mod_self_left, Nat.mod_eq_of_lt hy, Nat.add_mul_div_left _ _ (base_pos W),
      Nat.div_eq_of_lt hy, Nat.zero_add]

theorem fillWords_all (W k : Nat) : (fillWords W k).All fun l => l.length = k ∧ IsWords W l := by
  induction k with
  | zero => exact ⟨rfl, by simp [IsWords]⟩
  | succ k ih =>
    refine Draw.All.bind (Draw.all_uniform (base_pos W)) fun x hx => Draw.All.bind ih fun l hl => ?_
    exact ⟨by simp [hl.1], by rw [isWords_cons]; exact ⟨hx, hl.2⟩⟩

/-! ### One attempt -/

/-- The word drawn differs: the rest is filled. -/
theorem tryFillLoop_ne {W : Nat} {words result : List Nat} {i : Nat} (hi : i < words.length)
    (hr : i < result.length) (h : result[i] ≠ words[i]) (f : Bool × List Nat → ℚ) :
    (tryFillLoop W words i result).exp f
      = (∑ x ∈ range (base W ^ i), f (true, toWords W i x ++ result.drop i)) / (base W ^ i : Nat) := by
  have key : tryFillLoop W words i result = fillWords W i >>= fun xs => .ret (true, xs ++ result.drop i) := by
    cases i <;> simp only [tryFillLoop, getR_ok hi, getR_ok hr, Draw.ofR_ok_bind, if_neg h]
  rw [key, Draw.exp_bind, fillWords_exp]
  rfl

theorem drop_set_self {l : List Nat} {i : Nat} (h : i < l.length) (x : Nat) :
    (l.set i x).drop i = x :: l.drop (i + 1) := by
  rw [List.drop_eq_getElem_cons (by simpa using h)]
  simp [List.drop_set]

theorem val_take_succ' (W : Nat) {l : List Nat} {n : Nat} (h : n < l.length) :
    val W (l.take (n + 1)) = val W (l.take n) + base W ^ n * l[n] := by
  rw [List.take_succ_eq_append_getElem h, val_append]
  simp [Nat.min_eq_left (le_of_lt h)]

/-- All words from `i` on equal those of the bound. -/
theorem tryFillLoop_eq {W : Nat} {words : List Nat} (hw : IsWords W words) {i : Nat} (hi : i < words.length)
    {result : List Nat} (hr : result.length = words.length) (hd : result.drop i = words.drop i)
    {f : Bool × List Nat → ℚ} {c : ℚ} (hf : ∀ l, l.length = words.length → f (false, l) = c) :
    (tryFillLoop W words i result).exp f
      = (∑ x ∈ range (val W (words.take i)), f (true, toWords W i x ++ words.drop i)
          + c * ((base W ^ i : Nat) - (val W (words.take i) : ℚ))) / (base W ^ i : Nat) := by
  have hget : ∀ {j} (h1 : j < words.length) (h2 : j < result.length), result.drop j = words.drop j →
      result[j] = words[j] := by
    intro j h1 h2 h
    rw [List.drop_eq_getElem_cons h1, List.drop_eq_getElem_cons h2] at h
    exact (List.cons.inj h).1
  induction i generalizing result with
  | zero =>
    have e := hget hi (hr ▸ hi) hd
    simp only [tryFillLoop, getR_ok hi, getR_ok (hr ▸ hi : 0 < result.length), Draw.ofR_ok_bind, if_pos e]
    simp [Draw.exp, hf result hr]
  | succ i ih =>
    have e := hget hi (hr ▸ hi) hd
    have hi' : i < words.length := by omega
    have hir : i < result.length := by omega
    simp only [tryFillLoop, getR_ok hi, getR_ok (hr ▸ hi : i + 1 < result.length), Draw.ofR_ok_bind, if_pos e,
      Draw.exp_bind, Draw.exp_uniform, setR_ok _ hir, getR_ok hi']
    have hwi : words[i] < base W := hw _ (List.getElem_mem _)
    have hset : ∀ x, (result.set i x).drop i = x :: words.drop (i + 1) := fun x => by
      rw [drop_set_self hir, hd]
    have hlow : ∀ x < words[i], (if words[i] < x then Draw.ret (false, result.set i x)
        else tryFillLoop W words i (result.set i x)).exp f
        = (∑ y ∈ range (base W ^ i), f (true, toWords W (i + 1) (y + base W ^ i * x) ++ words.drop (i + 1)))
          / (base W ^ i : Nat) := by
      intro x hx
      rw [if_neg (by omega), tryFillLoop_ne hi' (by simpa using hir) (by simp; omega), hset]
      congr 1
      refine Finset.sum_congr rfl fun y hy => ?_
      rw [toWords_snoc (mem_range.mp hy) (by omega)]; simp
    have heq : (if words[i] < words[i] then Draw.ret (false, result.set i words[i])
        else tryFillLoop W words i (result.set i words[i])).exp f
        = (∑ y ∈ range (val W (words.take i)),
            f (true, toWords W (i + 1) (y + base W ^ i * words[i]) ++ words.drop (i + 1))
            + c * ((base W ^ i : Nat) - (val W (words.take i) : ℚ))) / (base W ^ i : Nat) := by
      have hlt : val W (words.take i) ≤ base W ^ i := by
        have := val_lt (hw.take i)
        rw [List.length_take, Nat.min_eq_left (by omega)] at this
        exact this.le
      have hgets : ∀ {j} (h1 : j < words.length) (h2 : j < (result.set i words[i]).length),
          (result.set i words[i]).drop j = words.drop j → (result.set i words[i])[j] = words[j] := by
        intro j h1 h2 h
        rw [List.drop_eq_getElem_cons h1, List.drop_eq_getElem_cons h2] at h
        exact (List.cons.inj h).1
      rw [if_neg (lt_irrefl _), ih hi' (by simpa using hr)
        (by rw [hset, ← List.drop_eq_getElem_cons hi']) hgets]
      congr 2
      refine Finset.sum_congr rfl fun y hy => ?_
      rw [toWords_snoc (lt_of_lt_of_le (mem_range.mp hy) hlt) hwi, List.drop_eq_getElem_cons hi']; simp
    have hhigh : ∀ x, (if words[i] < words[i] + 1 + x then Draw.ret (false, result.set i (words[i] + 1 + x))
        else tryFillLoop W words i (result.set i (words[i] + 1 + x))).exp f = c := by
      intro x
      rw [if_pos (by omega)]
      exact hf _ (by simpa using hr)
    rw [val_take_succ' W hi', sum_range_split]
    obtain ⟨d, hdd⟩ : ∃ d, base W = words[i] + 1 + d := ⟨base W - (words[i] + 1), by omega⟩
    have hb0 : (base W : ℚ) ≠ 0 := by exact_mod_cast (base_pos W).ne'
    have hsum : ∀ G : Nat → ℚ, ∑ x ∈ range (base W), G x
        = ∑ x ∈ range words[i], G x + G words[i] + ∑ x ∈ range d, G (words[i] + 1 + x) := by
      intro G
      rw [hdd, Finset.sum_range_add, Finset.sum_range_succ]
    rw [hsum, heq, Finset.sum_congr rfl fun x hx => hlow x (mem_range.mp hx), Finset.sum_congr rfl fun x _ => hhigh x,
      ← Finset.sum_div]
    have hdq : (base W : ℚ) = words[i] + 1 + d := by exact_mod_cast hdd
    simp only [Finset.sum_const, card_range, nsmul_eq_mul]
    push_cast
    rw [pow_succ]
    have hbi : (base W : ℚ) ^ i ≠ 0 := pow_ne_zero _ hb0
    generalize (∑ x ∈ range words[i], ∑ y ∈ range (base W ^ i), _ : ℚ) = S1
    generalize (∑ y ∈ range (val W (words.take i)), _ : ℚ) = S2
    field_simp
    rw [hdq]; ring

/-- One attempt: with `B = (top+1)·base^(n-1)`, each number below the bound has probability `1/B`, and the
attempt fails with the remaining probability. -/
theorem tryFillUniform_exp {W : Nat} {words : List Nat} (hw : IsWords W words) (h0 : words ≠ []) {result : List Nat}
    (hr : result.length = words.length) {B : Nat}
    (hB : B = (words.getLast h0 + 1) * base W ^ (words.length - 1))
    {f : Bool × List Nat → ℚ} {c : ℚ} (hf : ∀ l, l.length = words.length → f (false, l) = c) :
    (tryFillUniform W words result).exp f
      = (∑ x ∈ range (val W words), f (true, toWords W words.length x) + c * (B - (val W words : ℚ))) / B := by
  obtain ⟨n, hn⟩ : ∃ n, words.length = n + 1 :=
    ⟨words.length - 1, by have := List.length_pos_iff.mpr h0; omega⟩
  have hi : n < words.length := by omega
  have hir : n < result.length := by omega
  have hlast : words.getLast h0 = words[n] := by
    rw [List.getLast_eq_getElem]; congr 1; omega
  rw [hlast, hn, Nat.add_sub_cancel] at hB
  have hwn : words[n] < base W := hw _ (List.getElem_mem _)
  have hdropw : words.drop (n + 1) = [] := List.drop_eq_nil_of_le (by omega)
  have hdropr : result.drop (n + 1) = [] := List.drop_eq_nil_of_le (by omega)
  have hval : val W words = val W (words.take n) + base W ^ n * words[n] := by
    rw [← val_take_succ' W hi, ← hn, List.take_length]
  have hset : ∀ x, (result.set n x).drop n = [x] := fun x => by rw [drop_set_self hir, hdropr]
  have hlt : val W (words.take n) ≤ base W ^ n := by
    have := val_lt (hw.take n)
    rw [List.length_take, Nat.min_eq_left (by omega)] at this
    exact this.le
  unfold tryFillUniform
  rw [assertR_true (by constructor <;> omega)]
  simp only [Draw.ofR_ok_bind, hn, Nat.add_sub_cancel, getR_ok hi, Draw.exp_bind, Draw.exp_uniform, setR_ok _ hir]
  rw [Finset.sum_range_succ, tryFillLoop_eq hw hi (by simpa using hr)
    (by rw [hset, List.drop_eq_getElem_cons hi, hdropw]) hf]
  rw [Finset.sum_congr rfl fun x hx => by
    rw [tryFillLoop_ne hi (by simpa using hir) (by simp; have := mem_range.mp hx; omega) f, hset x]]
  rw [hval, sum_range_split, ← Finset.sum_div]
  have e1 : ∑ x ∈ range words[n], ∑ y ∈ range (base W ^ n), f (true, toWords W n y ++ [x])
      = ∑ x ∈ range words[n], ∑ y ∈ range (base W ^ n), f (true, toWords W (n + 1) (y + base W ^ n * x)) :=
    Finset.sum_congr rfl fun x hx => Finset.sum_congr rfl fun y hy => by
      rw [toWords_snoc (mem_range.mp hy) (by have := mem_range.mp hx; omega)]
  have e2 : ∑ y ∈ range (val W (words.take n)), f (true, toWords W n y ++ words.drop n)
      = ∑ y ∈ range (val W (words.take n)), f (true, toWords W (n + 1) (y + base W ^ n * words[n])) :=
    Finset.sum_congr rfl fun y hy => by
      rw [toWords_snoc (lt_of_lt_of_le (mem_range.mp hy) hlt) hwn, List.drop_eq_getElem_cons hi, hdropw]
  rw [e1, e2, hB]
  push_cast
  have hb0 : (base W : ℚ) ≠ 0 := by exact_mod_cast (base_pos W).ne'
  have hbi : (base W : ℚ) ^ n ≠ 0 := pow_ne_zero _ hb0
  have hw0 : ((words[n] : ℚ) + 1) ≠ 0 := by positivity
  generalize (∑ x ∈ range words[n], ∑ y ∈ range (base W ^ n), _ : ℚ) = S1
  generalize (∑ y ∈ range (val W (words.take n)), _ : ℚ) = S2
  field_simp
  ring

/-! ### Repeated attempts -/

/-- A random computation whose result is `none` with probability `p`, and otherwise is `h x` with `x` uniformly
distributed below `N`. -/
def Draw.UniformBelow {α : Type} (d : Draw (Option α)) (p : ℚ) (N : Nat) (h : Nat → α) : Prop :=
  ∀ g : Option α → ℚ, d.exp g = (1 - p) / N * ∑ x ∈ range N, g (some (h x)) + p * g none

theorem uniformLoop_spec {W : Nat} {words : List Nat} (hw : IsWords W words) (h0 : words ≠ [])
    (hpos : 0 < val W words) {B : Nat} (hB : B = (words.getLast h0 + 1) * base W ^ (words.length - 1))
    (t : Nat) {result : List Nat} (hr : result.length = words.length) :
    (uniformLoop W words t result).UniformBelow ((1 - (val W words : ℚ) / B) ^ t) (val W words)
      (toWords W words.length) := by
  intro g
  have hB0 : (B : ℚ) ≠ 0 := by
    rw [hB]
    have := base_pow_pos W (words.length - 1)
    exact_mod_cast (Nat.mul_pos (Nat.succ_pos _) this).ne'
  have hN0 : (val W words : ℚ) ≠ 0 := by exact_mod_cast hpos.ne'
  induction t generalizing result with
  | zero => simp [uniformLoop, Draw.exp]
  | succ t ih =>
    simp only [uniformLoop, Draw.exp_bind]
    rw [tryFillUniform_exp hw h0 hr hB (f := fun x => (if x.1 = true then Draw.ret (some x.2)
      else uniformLoop W words t x.2).exp g) (fun l hl => by simpa using ih hl)]
    simp only [if_true, Draw.exp]
    generalize ∑ x ∈ range (val W words), g (some (toWords W words.length x)) = S
    rw [pow_succ]
    generalize (1 - (val W words : ℚ) / B) ^ t = p
    field_simp
    ring

/-! ### All results -/

open Classical in
theorem Draw.exp_le_one {α : Type} (d : Draw α) (P : α → Prop) : d.exp (fun a => if P a then 1 else 0) ≤ 1 := by
  induction d with
  | ret a => simp only [Draw.exp]; split <;> norm_num
  | fail p => simp [Draw.exp]
  | draw m k ih =>
    simp only [Draw.exp]
    rcases Nat.eq_zero_or_pos m with rfl | hm
    · simp
    · rw [div_le_one (by exact_mod_cast hm)]
      calc _ ≤ ∑ _n ∈ range m, (1 : ℚ) := Finset.sum_le_sum fun n _ => ih n
        _ = m := by simp

open Classical in
theorem Draw.all_of_exp {α : Type} {d : Draw α} {P : α → Prop}
    (h : d.exp (fun a => if P a then 1 else 0) = 1) : d.All P := by
  induction d with
  | ret a =>
    simp only [Draw.exp] at h
    by_contra hn
    rw [if_neg (show ¬P a from hn)] at h
    norm_num at h
  | fail p => simp [Draw.exp] at h
  | draw m k ih =>
    simp only [Draw.exp] at h
    rcases Nat.eq_zero_or_pos m with rfl | hm
    · simp at h
    · refine ⟨hm, fun n hn => ih n ?_⟩
      rw [div_eq_one_iff_eq (by exact_mod_cast hm.ne')] at h
      have h1 : ∑ n ∈ range m, (k n).exp (fun a => if P a then 1 else 0) = ∑ _n ∈ range m, (1 : ℚ) := by
        rw [h]; simp
      exact (Finset.sum_eq_sum_iff_of_le fun n _ => Draw.exp_le_one (k n) P).mp h1 n (mem_range.mpr hn)

open Classical in
theorem Draw.UniformBelow.all {α : Type} {d : Draw (Option α)} {p : ℚ} {N : Nat} {h : Nat → α}
    (hd : d.UniformBelow p N h) (hN : 0 < N) {P : Option α → Prop} (h1 : ∀ x < N, P (some (h x))) (h2 : P none) :
    d.All P := by
  refine Draw.all_of_exp ?_
  rw [hd]
  have : ∑ x ∈ range N, (if P (some (h x)) then (1 : ℚ) else 0) = N := by
    rw [Finset.sum_congr rfl fun x hx => if_pos (h1 x (mem_range.mp hx))]; simp
  have hN' : (N : ℚ) ≠ 0 := by exact_mod_cast hN.ne'
  rw [this, if_pos h2]
  field_simp
  ring

/-- Processing the result further. -/
theorem Draw.UniformBelow.map {α β : Type} {d : Draw (Option α)} {p : ℚ} {N : Nat} {h : Nat → α}
    (hd : d.UniformBelow p N h) {k : Option α → Draw (Option β)} {h' : Nat → β} (hn : k none = .ret none)
    (hs : ∀ x < N, k (some (h x)) = .ret (some (h' x))) : (d >>= k).UniformBelow p N h' := by
  intro g
  rw [Draw.exp_bind, hd, hn, Finset.sum_congr rfl fun x hx => by rw [hs x (mem_range.mp hx)]]
  rfl

open Classical in
/-- Probability of one outcome. -/
theorem Draw.UniformBelow.prob {α : Type} {d : Draw (Option α)} {p : ℚ} {N : Nat} {h : Nat → α}
    (hd : d.UniformBelow p N h) {S : Option α → Prop} {v : Nat} (hv : v < N)
    (hS : ∀ x < N, S (some (h x)) ↔ x = v) (hn : ¬S none) : d.prob S = (1 - p) / N := by
  unfold Draw.prob
  rw [hd, if_neg hn, Finset.sum_congr rfl fun x hx => by rw [if_congr (hS x (mem_range.mp hx)) rfl rfl]]
  rw [Finset.sum_ite_eq' (range N) v]
  simp [hv]

open Classical in
theorem Draw.UniformBelow.prob_none {α : Type} {d : Draw (Option α)} {p : ℚ} {N : Nat} {h : Nat → α}
    (hd : d.UniformBelow p N h) : d.prob (fun o => o = none) = p := by
  unfold Draw.prob
  rw [hd]; simp

/-! ### The distributions -/

theorem UBig.uniform_spec {cfg : Cfg} (hv : cfg.Valid) {r : UBig} (hr : r.WF cfg) (h0 : 0 < r.value cfg) :
    ∃ q : ℚ, 0 ≤ q ∧ q ≤ 1 / 2 ∧ ∀ t, 1 ≤ t → ∃ h : Nat → UBig,
      (∀ x < r.value cfg, (h x).WF cfg ∧ (h x).value cfg = x) ∧
      (UBig.uniform cfg t r).UniformBelow (q ^ t) (r.value cfg) h := by
  have hne : r.beq (.small 0) = false := by
    rw [← Bool.not_eq_true, UBig.beq_zero hv hr]; omega
  cases r with
  | small w =>
    have hw : w < base cfg.W := hr
    refine ⟨0, le_rfl, by norm_num, fun t ht => ⟨UBig.small, fun x hx => ?_, fun g => ?_⟩⟩
    · have hx : x < w := hx
      exact ⟨show x < base cfg.W by omega, rfl⟩
    · unfold UBig.uniform
      rw [assertR_true hne]
      simp only [Draw.ofR_ok_bind, Draw.exp_bind, Draw.exp_uniform, Draw.exp]
      rw [zero_pow (by omega)]
      show _ = (1 - 0) / (w : ℚ) * (∑ x ∈ range w, _) + 0 * g none
      ring
  | large b =>
    have hb : b.WF cfg := hr
    have hnil := hb.ne_nil
    have hval : (UBig.large b).value cfg = val cfg.W b.words := rfl
    rw [hval] at h0 ⊢
    obtain ⟨B, hB⟩ : ∃ B, B = (b.words.getLast hnil + 1) * base cfg.W ^ (b.words.length - 1) := ⟨_, rfl⟩
    have hlast := hb.last_ne
    have hP := base_pow_pos cfg.W (b.words.length - 1)
    have e := val_getLast cfg.W hnil
    have hdl : val cfg.W b.words.dropLast < base cfg.W ^ (b.words.length - 1) := by
      have := val_lt (W := cfg.W) (l := b.words.dropLast) (fun x hx => hb.words x (List.dropLast_subset _ hx))
      rwa [List.length_dropLast] at this
    have hB0 : 0 < B := by rw [hB]; exact Nat.mul_pos (Nat.succ_pos _) hP
    have hNB : val cfg.W b.words ≤ B := by rw [hB, e]; nlinarith
    have hB2 : B ≤ 2 * val cfg.W b.words := by
      rw [hB, e]
      have : base cfg.W ^ (b.words.length - 1) * 1 ≤ base cfg.W ^ (b.words.length - 1) * b.words.getLast hnil :=
        Nat.mul_le_mul_left _ (by omega)
      nlinarith
    have hBq : (0 : ℚ) < B := by exact_mod_cast hB0
    refine ⟨1 - (val cfg.W b.words : ℚ) / B, ?_, ?_, fun t _ => ?_⟩
    · rw [sub_nonneg, div_le_one hBq]; exact_mod_cast hNB
    · have : (1 : ℚ) / 2 ≤ (val cfg.W b.words : ℚ) / B := by
        rw [div_le_div_iff₀ (by norm_num) hBq]
        have : (B : ℚ) ≤ 2 * val cfg.W b.words := by exact_mod_cast hB2
        linarith
      linarith
    · have hlen := hb.len
      have ea := Buffer.allocate_ok (cfg := cfg) (n := b.words.length) (by omega)
      obtain ⟨c, ec, hc1, hc2, hc3⟩ := Buffer.pushZeros_spec (cfg := cfg)
        (b := ⟨[], allocCap cfg b.words.length⟩) (n := b.words.length)
        ⟨by simp [IsWords], by simp⟩ (by simpa using le_allocCap (by omega))
      have hof : ∀ x, ∃ u : UBig, x < val cfg.W b.words →
          UBig.ofBuffer cfg ⟨toWords cfg.W b.words.length x, c.cap⟩ = .ok u ∧ u.WF cfg ∧ u.value cfg = x := by
        intro x
        by_cases hx : x < val cfg.W b.words
        · have hOK : Buffer.OK cfg ⟨toWords cfg.W b.words.length x, c.cap⟩ :=
            ⟨toWords_isWords _ _ _, by
              have := hc1.fits; rw [hc2] at this; simpa [toWords_length] using this⟩
          obtain ⟨u, h1, h2, h3⟩ := (yields_ofBuffer hv hOK (val_toWords (lt_trans hx (val_lt hb.words)))).1
            ((UBig.WF.fits hv hr).mono hx.le)
          exact ⟨u, fun _ => ⟨h1, h2, h3⟩⟩
        · exact ⟨.small 0, fun h => absurd h hx⟩
      choose h hh using hof
      refine ⟨h, fun x hx => (hh x hx).2, ?_⟩
      unfold UBig.uniform UBig.uniformLarge
      rw [assertR_true hne]
      simp only [Draw.ofR_ok_bind, ea, ec]
      refine (uniformLoop_spec hb.words hnil h0 hB t (by rw [hc2]; simp)).map rfl fun x hx => ?_
      simp only [(hh x hx).1, Draw.ofR_ok_bind]

/-- A distribution with a given range and offset. -/
theorem UniformUBig.sample_spec {cfg : Cfg} (hv : cfg.Valid) {d : UniformUBig} (hr : d.range.WF cfg)
    (ho : d.offset.WF cfg) (h0 : 0 < d.range.value cfg)
    (hf : Fits cfg (d.offset.value cfg + (d.range.value cfg - 1))) :
    ∃ q : ℚ, 0 ≤ q ∧ q ≤ 1 / 2 ∧ ∀ t, 1 ≤ t → ∃ h : Nat → UBig,
      (∀ x < d.range.value cfg, (h x).WF cfg ∧ (h x).value cfg = d.offset.value cfg + x) ∧
      (d.sample cfg t).UniformBelow (q ^ t) (d.range.value cfg) h := by
  obtain ⟨q, h1, h2, h3⟩ := UBig.uniform_spec hv hr h0
  refine ⟨q, h1, h2, fun t ht => ?_⟩
  obtain ⟨h, g1, g2⟩ := h3 t ht
  have hex : ∀ x, ∃ u : UBig, x < d.range.value cfg →
      UBig.add cfg .val .ref (h x) d.offset = .ok u ∧ u.WF cfg ∧ u.value cfg = d.offset.value cfg + x := by
    intro x
    by_cases hx : x < d.range.value cfg
    · obtain ⟨u, e1, e2, e3⟩ := (UBig.add_spec hv .val .ref (g1 x hx).1 ho).1
        (hf.mono (by rw [(g1 x hx).2]; omega))
      exact ⟨u, fun _ => ⟨e1, e2, by rw [e3, (g1 x hx).2, Nat.add_comm]⟩⟩
    · exact ⟨.small 0, fun h => absurd h hx⟩
  choose k hk using hex
  refine ⟨k, fun x hx => (hk x hx).2, ?_⟩
  unfold UniformUBig.sample
  refine g2.map rfl fun x hx => ?_
  simp only [(hk x hx).1, Draw.ofR_ok_bind]

theorem UniformIBig.sample_spec {cfg : Cfg} (hv : cfg.Valid) {d : UniformIBig} (hr : d.range.WF cfg)
    (ho : d.offset.WF cfg) (h0 : 0 < d.range.value cfg)
    (hf : ∀ x < d.range.value cfg, Fits cfg (d.offset.value cfg + x).natAbs) :
    ∃ q : ℚ, 0 ≤ q ∧ q ≤ 1 / 2 ∧ ∀ t, 1 ≤ t → ∃ h : Nat → IBig,
      (∀ x < d.range.value cfg, (h x).WF cfg ∧ (h x).value cfg = d.offset.value cfg + x) ∧
      (d.sample cfg t).UniformBelow (q ^ t) (d.range.value cfg) h := by
  obtain ⟨q, h1, h2, h3⟩ := UBig.uniform_spec hv hr h0
  refine ⟨q, h1, h2, fun t ht => ?_⟩
  obtain ⟨h, g1, g2⟩ := h3 t ht
  have hex : ∀ x, ∃ u : IBig, x < d.range.value cfg →
      IBig.add cfg .val .ref (.ofUBig (h x)) d.offset = .ok u ∧ u.WF cfg ∧ u.value cfg = d.offset.value cfg + x := by
    intro x
    by_cases hx : x < d.range.value cfg
    · obtain ⟨k1, k2⟩ := IBig.ofUBig_spec hv (g1 x hx).1
      obtain ⟨u, e1, e2, e3⟩ := (IBig.add_spec hv .val .ref k1 ho).1
        (by rw [k2, (g1 x hx).2, Int.add_comm]; exact hf x hx)
      exact ⟨u, fun _ => ⟨e1, e2, by rw [e3, k2, (g1 x hx).2, Int.add_comm]⟩⟩
    · exact ⟨⟨.pos, .small 0⟩, fun h => absurd h hx⟩
  choose k hk using hex
  refine ⟨k, fun x hx => (hk x hx).2, ?_⟩
  unfold UniformIBig.sample
  refine g2.map rfl fun x hx => ?_
  simp only [(hk x hx).1, Draw.ofR_ok_bind]

/-! ### Constructors -/

theorem UniformUBig.new_spec {cfg : Cfg} (hv : cfg.Valid) {low high : UBig} (hl : low.WF cfg) (hh : high.WF cfg) :
    (low.value cfg < high.value cfg → Returns (UniformUBig.new cfg low high) fun d => d.range.WF cfg ∧
      d.offset.WF cfg ∧ d.range.value cfg = high.value cfg - low.value cfg ∧
      d.offset.value cfg = low.value cfg) ∧
    (low.value cfg = high.value cfg → UniformUBig.new cfg low high = .error .emptyRange) ∧
    (high.value cfg < low.value cfg → UniformUBig.new cfg low high = .error .negativeUBig) := by
  obtain ⟨h1, h2⟩ := UBig.sub_spec hv .ref .ref hh hl
  have hfit : Fits cfg (high.value cfg - low.value cfg) := (UBig.WF.fits hv hh).mono (by omega)
  refine ⟨fun h => ?_, fun h => ?_, fun h => ?_⟩
  · obtain ⟨r, e, hr, hrv⟩ := (h1 h.le).1 hfit
    have hne : ¬r.beq (.small 0) = true := by rw [UBig.beq_zero hv hr]; omega
    unfold UniformUBig.new
    rw [e]
    simp only [bind, Except.bind, if_neg hne]
    refine Returns.bind (UBig.clone_spec hl) ?_
    rintro c ⟨hc, hcv⟩
    exact returns_ok.mpr ⟨hr, hc, hrv, hcv⟩
  · obtain ⟨r, e, hr, hrv⟩ := (h1 h.le).1 hfit
    have hne : r.beq (.small 0) = true := by rw [UBig.beq_zero hv hr]; omega
    unfold UniformUBig.new
    rw [e]
    simp only [bind, Except.bind, if_pos hne]
  · unfold UniformUBig.new
    rw [h2 h]; rfl

theorem UniformUBig.newInclusive_spec {cfg : Cfg} (hv : cfg.Valid) {low high : UBig} (hl : low.WF cfg)
    (hh : high.WF cfg) :
    (low.value cfg ≤ high.value cfg → Fits cfg (high.value cfg - low.value cfg + 1) →
      Returns (UniformUBig.newInclusive cfg low high) fun d => d.range.WF cfg ∧
      d.offset.WF cfg ∧ d.range.value cfg = high.value cfg - low.value cfg + 1 ∧
      d.offset.value cfg = low.value cfg) ∧
    (low.value cfg ≤ high.value cfg → ¬Fits cfg (high.value cfg - low.value cfg + 1) →
      UniformUBig.newInclusive cfg low high = .error .tooLarge) ∧
    (high.value cfg < low.value cfg → UniformUBig.newInclusive cfg low high = .error .negativeUBig) := by
  obtain ⟨h1, h2⟩ := UBig.sub_spec hv .ref .ref hh hl
  have hfit : Fits cfg (high.value cfg - low.value cfg) := (UBig.WF.fits hv hh).mono (by omega)
  have hone : (UBig.small 1).WF cfg := by
    show 1 < 2 ^ cfg.W
    exact Nat.one_lt_two_pow (by have := hv.W1; omega)
  refine ⟨fun h hf => ?_, fun h hf => ?_, fun h => ?_⟩
  · obtain ⟨r, e, hr, hrv⟩ := (h1 h).1 hfit
    obtain ⟨s, e2, hs, hsv⟩ := (UBig.add_spec hv .val .val hr hone).1 (by rw [hrv]; exact hf)
    unfold UniformUBig.newInclusive
    rw [e]
    simp only [bind, Except.bind]
    rw [e2]
    simp only
    refine Returns.bind (UBig.clone_spec hl) ?_
    rintro c ⟨hc, hcv⟩
    exact returns_ok.mpr ⟨hs, hc, by rw [hsv, hrv]; rfl, hcv⟩
  · obtain ⟨r, e, hr, hrv⟩ := (h1 h).1 hfit
    have e2 := (UBig.add_spec hv .val .val hr hone).2 (by rw [hrv]; exact hf)
    unfold UniformUBig.newInclusive
    rw [e]
    simp only [bind, Except.bind]
    rw [e2]
  · unfold UniformUBig.newInclusive
    rw [h2 h]; rfl

theorem UniformIBig.ofRange_spec {cfg : Cfg} (hv : cfg.Valid) {r low : IBig} (hr : r.WF cfg) (hl : low.WF cfg) :
    (0 < r.value cfg → Returns (UniformIBig.ofRange cfg r low) fun d => d.range.WF cfg ∧ d.offset.WF cfg ∧
      (d.range.value cfg : Int) = r.value cfg ∧ d.offset.value cfg = low.value cfg) ∧
    (r.value cfg ≤ 0 → UniformIBig.ofRange cfg r low = .error .emptyRange) := by
  obtain ⟨z, ez, hz, hzv⟩ := IBig.fromUnsigned_spec hv (b := 8) (by unfold PBits; omega) (x := 0) (by norm_num)
  have hc := IBig.cmp_spec hv hr hz
  rw [hzv] at hc
  unfold UniformIBig.ofRange
  rw [ez]
  simp only [bind, Except.bind]
  rw [hc]
  simp only
  refine ⟨fun h => ?_, fun h => ?_⟩
  · rw [if_neg (by simpa using compare_gt_iff_gt.mpr h)]
    obtain ⟨u, eu, hu, huv⟩ := IBig.unsignedAbs_spec .val hr
    rw [eu]
    simp only
    refine Returns.bind (IBig.clone_spec hl) ?_
    rintro c ⟨hc, hcv, -⟩
    exact returns_ok.mpr ⟨hu, hc, by rw [huv]; omega, hcv⟩
  · rw [if_pos (by intro e; have := compare_gt_iff_gt.mp e; simp at this; omega)]

theorem UniformIBig.new_spec {cfg : Cfg} (hv : cfg.Valid) {low high : IBig} (hl : low.WF cfg) (hh : high.WF cfg) :
    (low.value cfg < high.value cfg → Fits cfg (high.value cfg - low.value cfg).natAbs →
      Returns (UniformIBig.new cfg low high) fun d => d.range.WF cfg ∧ d.offset.WF cfg ∧
      (d.range.value cfg : Int) = high.value cfg - low.value cfg ∧ d.offset.value cfg = low.value cfg) ∧
    (high.value cfg ≤ low.value cfg → Fits cfg (high.value cfg - low.value cfg).natAbs →
      UniformIBig.new cfg low high = .error .emptyRange) ∧
    (¬Fits cfg (high.value cfg - low.value cfg).natAbs → UniformIBig.new cfg low high = .error .tooLarge) := by
  obtain ⟨h1, h2⟩ := IBig.sub_spec hv .ref .ref hh hl
  unfold UniformIBig.new
  refine ⟨fun h hf => ?_, fun h hf => ?_, fun hf => ?_⟩
  · obtain ⟨r, e, hr, hrv⟩ := h1 hf
    rw [e, ← hrv]
    exact (UniformIBig.ofRange_spec hv hr hl).1 (by omega)
  · obtain ⟨r, e, hr, hrv⟩ := h1 hf
    rw [e]
    exact (UniformIBig.ofRange_spec hv hr hl).2 (by omega)
  · rw [h2 hf]; rfl

theorem UniformIBig.newInclusive_spec {cfg : Cfg} (hv : cfg.Valid) {low high : IBig} (hl : low.WF cfg)
    (hh : high.WF cfg) (hfit : Fits cfg (high.value cfg - low.value cfg).natAbs) :
    (low.value cfg ≤ high.value cfg → Fits cfg (high.value cfg - low.value cfg + 1).natAbs →
      Returns (UniformIBig.newInclusive cfg low high) fun d => d.range.WF cfg ∧ d.offset.WF cfg ∧
      (d.range.value cfg : Int) = high.value cfg - low.value cfg + 1 ∧ d.offset.value cfg = low.value cfg) ∧
    (high.value cfg < low.value cfg → UniformIBig.newInclusive cfg low high = .error .emptyRange) ∧
    (¬Fits cfg (high.value cfg - low.value cfg + 1).natAbs →
      UniformIBig.newInclusive cfg low high = .error .tooLarge) := by
  obtain ⟨h1, -⟩ := IBig.sub_spec hv .ref .ref hh hl
  obtain ⟨r, e, hr, hrv⟩ := h1 hfit
  obtain ⟨z, ez, hz, hzv⟩ := IBig.fromUnsigned_spec hv (b := 8) (by unfold PBits; omega) (x := 1) (by norm_num)
  obtain ⟨g1, g2⟩ := IBig.add_spec hv .val .val hr hz
  rw [hrv, hzv] at g1 g2
  unfold UniformIBig.newInclusive
  rw [e]
  simp only [bind, Except.bind]
  rw [ez]
  simp only
  refine ⟨fun h hf => ?_, fun h => ?_, fun hf => ?_⟩
  · obtain ⟨s, e2, hs, hsv⟩ := g1 hf
    rw [e2]
    simp only
    have := (UniformIBig.ofRange_spec hv hs hl).1 (by rw [hsv]; push_cast; omega)
    rw [hsv] at this
    exact_mod_cast this
  · obtain ⟨s, e2, hs, hsv⟩ := g1 (hfit.mono (by push_cast; omega))
    rw [e2]
    exact (UniformIBig.ofRange_spec hv hs hl).2 (by rw [hsv]; push_cast; omega)
  · rw [g2 hf]

end Ibig
