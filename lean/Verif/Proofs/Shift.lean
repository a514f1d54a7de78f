import Verif.Proofs.Basic
import Verif.Model.Shift
namespace Ibig

theorem base_split {W s : Nat} (h : s ≤ W) : base W = 2 ^ s * 2 ^ (W - s) := by
  unfold base; rw [← pow_add]; congr 1; omega

/-- `hi·2^s | lo = hi·2^s + lo` for `lo < 2^s` -/
theorem mul_pow_or {s x c : Nat} (h : c < 2 ^ s) : (2 ^ s * x ||| c) = 2 ^ s * x + c :=
  (Nat.two_pow_add_eq_or_of_lt h x).symm

theorem shlLoop_spec {W s : Nat} (hs : s ≤ W) {l : List Nat} {c : Nat} (hl : IsWords W l)
    (hc : c < 2 ^ s) :
    (shlLoop W s l c).1.length = l.length ∧ IsWords W (shlLoop W s l c).1 ∧
    (shlLoop W s l c).2 < 2 ^ s ∧
    val W (shlLoop W s l c).1 + (shlLoop W s l c).2 * base W ^ l.length = val W l * 2 ^ s + c := by
  induction l generalizing c with
  | nil => simp [shlLoop, hc]
  | cons w ws ih =>
    simp only [isWords_cons] at hl
    have hb := base_split hs
    have hp : 0 < 2 ^ s := Nat.two_pow_pos s
    have hq : 0 < 2 ^ (W - s) := Nat.two_pow_pos (W - s)
    simp only [shlLoop, splitDoubleWord]
    have hcarry : w * 2 ^ s / base W < 2 ^ s := by
      rw [Nat.div_lt_iff_lt_mul (base_pos W)]
      rw [Nat.mul_comm]
      exact Nat.mul_lt_mul_of_pos_left hl.1 hp
    obtain ⟨h1, h2, h3, h4⟩ := ih hl.2 hcarry
    have hlow : w * 2 ^ s % base W = 2 ^ s * (w % 2 ^ (W - s)) := by
      rw [hb, Nat.mul_comm w, Nat.mul_mod_mul_left]
    have hor : (w * 2 ^ s % base W ||| c) = w * 2 ^ s % base W + c := by
      rw [hlow]; exact mul_pow_or hc
    have hdm := Nat.div_add_mod (w * 2 ^ s) (base W)
    refine ⟨by simp [h1], ?_, h3, ?_⟩
    · rw [hor, isWords_cons]
      refine ⟨?_, h2⟩
      rw [hlow]
      have : w % 2 ^ (W - s) < 2 ^ (W - s) := Nat.mod_lt _ hq
      calc 2 ^ s * (w % 2 ^ (W - s)) + c < 2 ^ s * (w % 2 ^ (W - s)) + 2 ^ s := by omega
        _ = 2 ^ s * (w % 2 ^ (W - s) + 1) := by ring
        _ ≤ 2 ^ s * 2 ^ (W - s) := Nat.mul_le_mul_left _ this
        _ = base W := hb.symm
    · rw [hor]
      simp only [val_cons, List.length_cons, pow_succ]
      generalize (shlLoop W s ws (w * 2 ^ s / base W)).1 = r at *
      generalize (shlLoop W s ws (w * 2 ^ s / base W)).2 = k at *
      zify at *
      linear_combination (base W : Int) * h4 + hdm

theorem shlInPlace_spec {W s : Nat} (hs : s < W) {l : List Nat} (hl : IsWords W l) :
    Returns (shlInPlace W l s) fun p => p.1.length = l.length ∧ IsWords W p.1 ∧ p.2 < 2 ^ s ∧
      val W p.1 + p.2 * base W ^ l.length = val W l * 2 ^ s := by
  unfold shlInPlace
  refine Returns.bind (returns_assertR hs) fun _ _ => ?_
  split
  · rename_i h; subst h
    simp [hl]
  · simp only [returns_ok]
    exact shlLoop_spec hs.le hl (Nat.two_pow_pos s)

theorem shrLoop_spec {W s : Nat} (hs : s ≤ W) {l : List Nat} (hl : IsWords W l) :
    (shrLoop W s l).1.length = l.length ∧ IsWords W (shrLoop W s l).1 ∧
    ∃ low, low < 2 ^ s ∧ (shrLoop W s l).2 = 2 ^ (W - s) * low ∧
      val W (shrLoop W s l).1 * 2 ^ s + low = val W l := by
  induction l with
  | nil => simp [shrLoop]
  | cons w ws ih =>
    simp only [isWords_cons] at hl
    obtain ⟨h1, h2, low, h3, h4, h5⟩ := ih hl.2
    have hb := base_split hs
    have hp : 0 < 2 ^ s := Nat.two_pow_pos s
    have hq : 0 < 2 ^ (W - s) := Nat.two_pow_pos (W - s)
    simp only [shrLoop, splitDoubleWord, doubleWord, Nat.zero_add]
    have hdiv : base W * w / 2 ^ s = 2 ^ (W - s) * w := by
      rw [hb, Nat.mul_assoc, Nat.mul_div_cancel_left _ hp]
    have hnw : 2 ^ (W - s) * w / base W = w / 2 ^ s := by
      rw [hb, Nat.mul_comm (2 ^ s), Nat.mul_div_mul_left _ _ hq]
    have hnc : 2 ^ (W - s) * w % base W = 2 ^ (W - s) * (w % 2 ^ s) := by
      rw [hb, Nat.mul_comm (2 ^ s), Nat.mul_mod_mul_left]
    have hlt : w / 2 ^ s < 2 ^ (W - s) := by
      rw [Nat.div_lt_iff_lt_mul hp, Nat.mul_comm, ← hb]; exact hl.1
    have hor : (w / 2 ^ s ||| 2 ^ (W - s) * low) = 2 ^ (W - s) * low + w / 2 ^ s := by
      rw [Nat.or_comm]; exact mul_pow_or hlt
    have hdm := Nat.div_add_mod w (2 ^ s)
    rw [hdiv, hnw, hnc, h4, hor]
    refine ⟨by simp [h1], ?_, w % 2 ^ s, Nat.mod_lt _ hp, rfl, ?_⟩
    · rw [isWords_cons]
      refine ⟨?_, h2⟩
      calc 2 ^ (W - s) * low + w / 2 ^ s < 2 ^ (W - s) * low + 2 ^ (W - s) := by omega
        _ = 2 ^ (W - s) * (low + 1) := by ring
        _ ≤ 2 ^ (W - s) * 2 ^ s := Nat.mul_le_mul_left _ h3
        _ = base W := by rw [hb]; ring
    · simp only [val_cons]
      generalize (shrLoop W s ws).1 = r at *
      rw [← h5]
      have hb' : (base W : Int) = 2 ^ s * 2 ^ (W - s) := by exact_mod_cast hb
      zify at *
      rw [hb']
      linear_combination hdm

theorem shrInPlace_spec {W s : Nat} (hs : s < W) {l : List Nat} (hl : IsWords W l) :
    Returns (shrInPlace W l s) fun p => p.1.length = l.length ∧ IsWords W p.1 ∧ p.2 < 2 ^ s ∧
      val W p.1 * 2 ^ s + p.2 = val W l := by
  unfold shrInPlace
  refine Returns.bind (returns_assertR hs) fun _ _ => ?_
  split
  · rename_i h; subst h
    simp [hl]
  · obtain ⟨h1, h2, low, h3, h4, h5⟩ := shrLoop_spec hs.le hl
    simp only [returns_ok]
    rw [h4, Nat.mul_div_cancel_left _ (Nat.two_pow_pos _)]
    exact ⟨h1, h2, h3, h5⟩

end Ibig
