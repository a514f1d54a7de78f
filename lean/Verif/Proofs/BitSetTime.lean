import Verif.Model.BitSetTime
import Verif.Spec.BitSet
import Verif.Proofs.MulOpsTime
import Verif.Proofs.AccumulateOps
import Verif.Proofs.BitCount
import Verif.Proofs.PowTime
import Verif.Proofs.ConvertTime
/-!
The amortized cost of setting and clearing bits (for C82).
-/
namespace Ibig.Timed.Exact

theorem UBig.withBitWordSlow_result (cfg : Cfg) (w n : Nat) :
    (UBig.withBitWordSlow cfg w n).result = Ibig.UBig.withBitWordSlow cfg w n := by
  unfold UBig.withBitWordSlow Ibig.UBig.withBitWordSlow
  refine result_bind (result_pass _ _) (fun _ => ?_)
  refine result_bind (result_pass _ _) (fun _ => ?_)
  refine result_bind (result_pass _ _) (fun _ => ?_)
  refine result_bind (result_pass _ _) (fun _ => ?_)
  exact result_bind (result_pass _ _) (fun _ => UBig.ofBuffer_result _ _)

theorem UBig.withBitLarge_result (cfg : Cfg) (b : Buffer) (n : Nat) :
    (UBig.withBitLarge cfg b n).result = Ibig.UBig.withBitLarge cfg b n := by
  unfold UBig.withBitLarge Ibig.UBig.withBitLarge
  refine result_ite (fun _ => ?_) (fun _ => ?_)
  · refine result_bind (result_pass _ _) (fun _ => ?_)
    exact result_bind (result_pass _ _) (fun _ => UBig.ofBuffer_result _ _)
  · refine result_bind (Buffer.ensureCapacity_result _ _ _) (fun _ => ?_)
    refine result_bind (result_pass _ _) (fun _ => ?_)
    refine result_bind (result_pass _ _) (fun _ => ?_)
    exact result_bind (result_pass _ _) (fun _ => UBig.ofBuffer_result _ _)

theorem UBig.setBit_result (cfg : Cfg) (x : UBig) (n : Nat) :
    (UBig.setBit cfg x n).result = Ibig.UBig.setBit cfg x n := by
  refine (result_bind_ok (a := ()) rfl _).trans ?_
  cases x
  · exact result_ite (fun _ => rfl) (fun _ => UBig.withBitWordSlow_result _ _ _)
  · exact UBig.withBitLarge_result _ _ _

theorem UBig.withoutBitLarge_result (cfg : Cfg) (b : Buffer) (n : Nat) :
    (UBig.withoutBitLarge cfg b n).result = Ibig.UBig.withoutBitLarge cfg b n := by
  unfold UBig.withoutBitLarge Ibig.UBig.withoutBitLarge
  refine result_ite (fun _ => ?_) (fun _ => UBig.ofBuffer_result _ _)
  refine result_bind (result_pass _ _) (fun _ => ?_)
  exact result_bind (result_pass _ _) (fun _ => UBig.ofBuffer_result _ _)

theorem UBig.clearBit_result (cfg : Cfg) (x : UBig) (n : Nat) :
    (UBig.clearBit cfg x n).result = Ibig.UBig.clearBit cfg x n := by
  refine (result_bind_ok (a := ()) rfl _).trans ?_
  cases x
  · exact result_ite (fun _ => rfl) (fun _ => rfl)
  · exact UBig.withoutBitLarge_result _ _ _

/-! ### The cost -/

variable {cfg : Cfg} {c : Nat}

theorem sat_push (d : Buffer) (w : Nat) :
    Sat (Timed.Buffer.push d w) fun e k => k = 1 ∧ e.words = d.words ++ [w] ∧ e.cap = d.cap := by
  refine sat_pass fun e he => ?_
  unfold Ibig.Buffer.push at he
  by_cases hp : d.len < d.cap
  · rw [assertR_true hp] at he
    cases he
    exact ⟨rfl, rfl, rfl⟩
  · unfold Ibig.assertR at he; rw [if_neg hp] at he; cases he

theorem extend_ok_words {ws : List Nat} : ∀ {d e : Buffer}, Ibig.Buffer.extend d ws = .ok e →
    e.words = d.words ++ ws ∧ e.cap = d.cap := by
  induction ws with
  | nil => intro d e h; cases h; simp
  | cons w ws ih =>
    intro d e h
    unfold Ibig.Buffer.extend Ibig.Buffer.push at h
    by_cases hp : d.len < d.cap
    · rw [assertR_true hp] at h
      obtain ⟨h1, h2⟩ := ih (d := { d with words := d.words ++ [w] }) h
      exact ⟨by rw [h1]; simp, h2⟩
    · unfold Ibig.assertR at h; rw [if_neg hp] at h; cases h

theorem count_set_le (c i w : Nat) (l : List Nat) : (l.set i w).count c ≤ l.count c + 1 := by
  induction l generalizing i with
  | nil => simp
  | cons a l ih =>
    cases i with
    | zero =>
      simp only [List.set_cons_zero, List.count_cons]
      split_ifs <;> omega
    | succ i =>
      simp only [List.set_cons_succ, List.count_cons]
      have := ih i
      omega

theorem sat_setR (l : List Nat) (i w : Nat) :
    Sat (setR l i w) fun r k => k = 1 ∧ r.length = l.length ∧ r.count c ≤ l.count c + 1 := by
  refine sat_pass fun r hr => ?_
  unfold Ibig.setR at hr
  split at hr
  · cases hr
    exact ⟨rfl, List.length_set, count_set_le _ _ _ _⟩
  · cases hr

/-- Changing one word. -/
theorem sat_change (hs : ∀ n, cfg.spare n = 0) {b : Buffer} (hm : b.cap ≤ cfg.maxCap) (i : Nat) (f : Nat → Nat) :
    Sat (do
      let w ← getR b.words i
      let ws ← setR b.words i (f w)
      UBig.ofBuffer cfg { b with words := ws }) fun z k => k + potU cfg c z ≤ potB cfg c b + 7 := by
  refine Sat.bind (Q := fun _ k => k = 1) (sat_pass fun _ _ => rfl) ?_
  rintro w k rfl
  refine Sat.bind (sat_setR (c := c) _ _ _) ?_
  rintro ws k ⟨rfl, h1, h2⟩
  refine (sat_ofBuffer (c := c) hs (b := { b with words := ws }) hm).mono fun z k hk => ?_
  have : 0 + potB cfg c { b with words := ws } ≤ potB cfg c b + 1 := potB_mono (by simpa using h2) h1 rfl
  omega

theorem sat_withBitLarge (hs : ∀ n, cfg.spare n = 0) {b : Buffer} (hm : b.cap ≤ cfg.maxCap) (hf : b.words.length ≤ b.cap)
    (n : Nat) : Sat (UBig.withBitLarge cfg b n) fun z k =>
      k + potU cfg c z ≤ potB cfg c b + 30 * (n / cfg.W + 1 - b.words.length) + 16 := by
  unfold UBig.withBitLarge
  refine sat_ite (fun h => (sat_change (c := c) hs hm _ _).mono fun z k hk => by omega) (fun h => ?_)
  have hlen : b.len = b.words.length := rfl
  rw [hlen] at h
  obtain ⟨g, hg⟩ : ∃ g, n / cfg.W + 1 = b.words.length + g := ⟨n / cfg.W + 1 - b.words.length, by omega⟩
  have hg1 : 1 ≤ g := by omega
  have hn : n / cfg.W + 1 - b.words.length = g := by omega
  rw [hn]
  refine Sat.bind (Q := fun a k => a.words = b.words ∧ a.cap ≤ cfg.maxCap ∧
    k + pot cfg (b.words.count c + g) (b.words.length + g) a.cap ≤ potB cfg c b + 28 * g + 6) ?_ ?_
  · unfold Buffer.ensureCapacity
    refine Sat.bind (Q := fun _ k => k = 1) (sat_tick rfl) ?_
    rintro _ k rfl
    refine sat_ite (fun h => ?_) (fun h => sat_pure ⟨rfl, hm, ?_⟩)
    · refine (sat_reallocate hs b _).mono ?_
      rintro a m ⟨rfl, h1, h2, h3, h4⟩
      refine ⟨h1, by omega, ?_⟩
      rw [hg] at h2 h4 h
      unfold potB pot
      rw [h2]
      split_ifs <;> omega
    · unfold potB pot
      split_ifs <;> omega
  · rintro a k ⟨h1, h2, h3⟩
    refine Sat.bind (Q := fun d l => l = 1 ∧ d = g - 1) (sat_pass fun d hd => ⟨rfl, ?_⟩) ?_
    · unfold Ibig.ckSub at hd
      have : a.len = b.words.length := by rw [Buffer.len, h1]
      split at hd
      · cases hd; omega
      · cases hd
    rintro d l ⟨rfl, rfl⟩
    refine Sat.bind (Q := fun e l => l = g ∧ e.words = b.words ++ List.replicate (g - 1) 0 ∧ e.cap = a.cap)
      (sat_pass fun e he => ?_) ?_
    · unfold Ibig.Buffer.pushZeros at he
      rcases hr : Ibig.ckSub a.cap a.len with er | r
      · rw [hr] at he; cases he
      · rw [hr] at he
        by_cases hp : g - 1 ≤ r
        · replace he : (do Ibig.assertR (g - 1 ≤ r); .ok { a with words := a.words ++ List.replicate (g - 1) 0 } : R Buffer) = .ok e := he
          rw [assertR_true hp] at he
          cases he
          exact ⟨by omega, by rw [h1], rfl⟩
        · replace he : (do Ibig.assertR (g - 1 ≤ r); .ok { a with words := a.words ++ List.replicate (g - 1) 0 } : R Buffer) = .ok e := he
          unfold Ibig.assertR at he; rw [if_neg hp] at he; cases he
    rintro e l ⟨hlg, h4, h5⟩
    refine Sat.bind (sat_push _ _) ?_
    rintro u l' ⟨rfl, h6, h7⟩
    refine (sat_ofBuffer (c := c) hs (b := u) (by omega)).mono fun z m hz => ?_
    have hp : potB cfg c u ≤ pot cfg (b.words.count c + g) (b.words.length + g) a.cap := by
      have hw : u.words = b.words ++ (List.replicate (g - 1) 0 ++ [2 ^ (n % cfg.W)]) := by rw [h6, h4, List.append_assoc]
      have hl : (List.replicate (g - 1) 0 ++ [2 ^ (n % cfg.W)]).length = g := by
        rw [List.length_append, List.length_replicate, List.length_singleton]; omega
      have hc := List.count_le_length (a := c) (l := List.replicate (g - 1) 0 ++ [2 ^ (n % cfg.W)])
      unfold potB pot
      rw [hw, List.length_append, List.count_append, hl, h7, h5]
      omega
    omega

theorem sat_withBitWordSlow (hs : ∀ n, cfg.spare n = 0) (w n : Nat) : Sat (UBig.withBitWordSlow cfg w n) fun z k =>
      k + potU cfg c z ≤ 30 * (n / cfg.W + 1 - 1) + 40 := by
  unfold UBig.withBitWordSlow
  generalize n / cfg.W = q
  refine Sat.bind sat_assert ?_
  rintro _ k ⟨-, rfl⟩
  refine Sat.bind (Q := fun d k => k = 1 ∧ d.words = [] ∧ d.cap = min (q + 1 + (q + 1) / 8 + 2) cfg.maxCap)
    (sat_pass fun d hd => ?_) ?_
  · by_cases h : q + 1 ≤ cfg.maxLen + 4
    · rw [Buffer.allocate_ok h] at hd
      cases hd
      refine ⟨rfl, rfl, ?_⟩
      show allocCap cfg _ = _
      unfold allocCap Cfg.maxCap; rw [hs]; omega
    · rw [Buffer.allocate_err (by omega)] at hd; cases hd
  rintro d k ⟨rfl, h1, h2⟩
  refine Sat.bind (sat_push _ _) ?_
  rintro e k ⟨rfl, h3, h4⟩
  refine Sat.bind (Q := fun u k => k = q - 1 + 1 ∧ u.words = e.words ++ List.replicate (q - 1) 0 ∧ u.cap = e.cap)
    (sat_pass fun u hu => ⟨by rw [List.length_replicate], extend_ok_words hu⟩) ?_
  rintro u k ⟨rfl, h5, h6⟩
  refine Sat.bind (sat_push _ _) ?_
  rintro v k ⟨rfl, h7, h8⟩
  refine (sat_ofBuffer (c := c) hs (b := v) (by omega)).mono fun z m hz => ?_
  have hl : v.words.length = q - 1 + 2 := by
    rw [h7, h5, h3, h1]
    simp
  have hc := List.count_le_length (a := c) (l := v.words)
  have hp : potB cfg c v ≤ 11 * (q - 1 + 2) + 9 := by
    unfold potB pot
    rw [hl, h8, h6, h4, h2]
    split_ifs <;> omega
  omega

theorem sat_setBit (hs : ∀ n, cfg.spare n = 0) {x : UBig} (hx : x.WF cfg) (n : Nat) :
    Sat (UBig.setBit cfg x n) fun z k => k + potU cfg c z ≤ potU cfg c x + 30 * (n / cfg.W + 1 - x.len) + 41 := by
  unfold UBig.setBit
  refine Sat.bind (Q := fun _ k => k = 1) (sat_tick rfl) ?_
  rintro _ k rfl
  cases x with
  | small w =>
    refine sat_ite (fun _ => sat_pure ?_) (fun _ => (sat_withBitWordSlow (c := c) hs w n).mono fun z k hk => ?_)
    · show 1 + 0 + 0 ≤ _
      omega
    · have e : (UBig.small w).len = 1 := rfl
      rw [e]
      omega
  | large b =>
    refine (sat_withBitLarge (c := c) hs (cap_le hs hx).2 (Buffer.WF.fits hx) n).mono fun z k hk => ?_
    have e : (UBig.large b).len = b.words.length := rfl
    have e' : potU cfg c (.large b) = potB cfg c b := rfl
    rw [e, e']
    omega

theorem sat_clearBit (hs : ∀ n, cfg.spare n = 0) {x : UBig} (hx : x.WF cfg) (n : Nat) :
    Sat (UBig.clearBit cfg x n) fun z k => k + potU cfg c z ≤ potU cfg c x + 8 := by
  unfold UBig.clearBit
  refine Sat.bind (Q := fun _ k => k = 1) (sat_tick rfl) ?_
  rintro _ k rfl
  cases x with
  | small w =>
    refine sat_ite (fun _ => sat_pure ?_) (fun _ => sat_pure ?_)
    · show 1 + 0 + 0 ≤ _
      omega
    · show 1 + 0 + 0 ≤ _
      omega
  | large b =>
    have e' : potU cfg c (.large b) = potB cfg c b := rfl
    rw [e']
    show Sat (UBig.withoutBitLarge cfg b n) _
    unfold UBig.withoutBitLarge
    refine sat_ite (fun h => (sat_change (c := c) hs (cap_le hs hx).2 _ _).mono fun z k hk => by omega)
      (fun h => (sat_ofBuffer (c := c) hs (cap_le hs hx).2).mono fun z k hk => by omega)

/-! ### Sequences -/

theorem steps_of_result {α : Type} {x : Timed α} {y : R α} {a : α} (h : x.result = y) (hy : y = .ok a) :
    ∃ k, x = .ok (a, k) := by
  rw [hy] at h
  revert h
  rcases x with er | ⟨b, l⟩
  · intro h; cases h
  · intro h; cases h; exact ⟨l, rfl⟩

theorem putAll_cons {x y z : UBig} {p : Bool × Nat} {ps : List (Bool × Nat)} {k l : Nat}
    (h : UBig.putBit cfg x p = .ok (y, k)) (h' : putAll cfg y ps = .ok (z, l)) : putAll cfg x (p :: ps) = .ok (z, k + l) := by
  show Timed.bind _ (fun x => putAll cfg x ps) = _
  rw [h]
  simp only [Timed.bind, h']
  rfl

theorem lt_of_bits {m x n i : Nat} (h : ∀ j, m.testBit j = (decide (j = i) || x.testBit j)) (hx : x < 2 ^ n) (hi : i < n) :
    m < 2 ^ n := by
  refine Nat.lt_pow_two_of_testBit _ fun j hj => ?_
  rw [h, Nat.testBit_lt_two_pow (lt_of_lt_of_le hx (Nat.pow_le_pow_right (by norm_num) hj))]
  simp
  omega

theorem le_len_of_le (hv : cfg.Valid) {z : UBig} (hz : z.WF cfg) {n : Nat} (h : 2 ^ (n * cfg.W) ≤ z.value cfg) : n + 1 ≤ z.len := by
  cases z with
  | small w =>
    have h1 : w < 2 ^ cfg.W := hz
    have h2 : 2 ^ (n * cfg.W) ≤ w := h
    have h3 : n * cfg.W < cfg.W := (Nat.pow_lt_pow_iff_right (by norm_num : 1 < 2)).mp (lt_of_le_of_lt h2 h1)
    have h4 : n = 0 := by
      rcases Nat.eq_zero_or_pos n with h | h
      · exact h
      · exfalso; have := Nat.mul_le_mul_right cfg.W h; omega
    show n + 1 ≤ 1
    omega
  | large b =>
    have h1 := val_lt (Buffer.WF.words hz)
    have h2 : 2 ^ (n * cfg.W) ≤ val cfg.W b.words := h
    have h3 : base cfg.W ^ b.words.length = 2 ^ (b.words.length * cfg.W) := by
      unfold base; rw [← pow_mul, mul_comm]
    have h4 : n * cfg.W < b.words.length * cfg.W := by
      refine (Nat.pow_lt_pow_iff_right (by norm_num : 1 < 2)).mp ?_
      rw [← h3]; exact lt_of_le_of_lt h2 h1
    exact Nat.lt_of_mul_lt_mul_right h4

theorem len_mono (hv : cfg.Valid) {x z : UBig} (hx : x.WF cfg) (hz : z.WF cfg) (h : x.value cfg ≤ z.value cfg) : x.len ≤ z.len := by
  cases x with
  | small w =>
    have : 0 + 1 ≤ z.len := by
      cases z with
      | small w => exact le_rfl
      | large b => have := Buffer.WF.two hz; show 1 ≤ b.words.length; omega
    exact this
  | large b =>
    have h1 := val_top_ge (W := cfg.W) (List.ne_nil_of_length_pos (by have := Buffer.WF.two hx; omega)) (Buffer.WF.top hx)
    have h3 : base cfg.W ^ (b.words.length - 1) = 2 ^ ((b.words.length - 1) * cfg.W) := by
      unfold base; rw [← pow_mul, mul_comm]
    have := le_len_of_le hv hz (n := b.words.length - 1) (by rw [← h3]; exact le_trans h1 h)
    show b.words.length ≤ _
    omega

theorem putAll_set (hv : cfg.Valid) (hs : ∀ n, cfg.spare n = 0) {n : Nat} (hn : n ≤ cfg.maxLen) {ps : List Nat}
    (hp : ∀ i ∈ ps, i < n * cfg.W) {x : UBig} (hx : x.WF cfg) (hxn : x.value cfg < 2 ^ (n * cfg.W)) :
    ∃ z k, putAll cfg x (ps.map fun i => (true, i)) = .ok (z, k) ∧ z.WF cfg ∧
      (∀ i, (z.value cfg).testBit i = bitAfter i ((x.value cfg).testBit i) (ps.map fun i => (true, i))) ∧
      k + potU cfg 0 z ≤ potU cfg 0 x + 30 * (n - x.len) + 41 * ps.length := by
  induction ps generalizing x with
  | nil => exact ⟨x, 0, rfl, hx, fun i => rfl, by simp⟩
  | cons i ps ih =>
    obtain ⟨m, hm, hy⟩ := Ibig.UBig.setBit_spec hv hx i
    have hi : i < n * cfg.W := hp i (by simp)
    have hmn := lt_of_bits hm hxn hi
    obtain ⟨u, e, hu, huv⟩ := hy.1 (lt_of_lt_of_le hmn (Nat.pow_le_pow_right (by norm_num) (Nat.mul_le_mul_right _ hn)))
    obtain ⟨l, hl⟩ := steps_of_result (UBig.setBit_result cfg x i) e
    have hc := sat_setBit (c := 0) hs hx i u l hl
    obtain ⟨z, k, hz, h3, h4, h5⟩ := ih (fun j hj => hp j (by simp [hj])) hu (by rw [huv]; exact hmn)
    refine ⟨z, l + k, putAll_cons hl hz, h3, fun j => ?_, ?_⟩
    · rw [h4, huv, hm]
      show _ = bitAfter j (if i = j then true else _) _
      congr 1
      by_cases h : i = j
      · simp [h]
      · simp [h, Ne.symm h]
    · have hle : x.value cfg ≤ u.value cfg := by
        rw [huv]
        have : m = x.value cfg ||| 2 ^ i := Nat.eq_of_testBit_eq fun j => by rw [hm, testBit_or_two_pow]
        rw [this]; exact Nat.left_le_or
      have hge : 2 ^ (i / cfg.W * cfg.W) ≤ u.value cfg := by
        rw [huv]
        refine le_trans (Nat.pow_le_pow_right (by norm_num) (Nat.div_mul_le_self i cfg.W)) ?_
        exact Nat.ge_two_pow_of_testBit (by rw [hm]; simp)
      have h6 := le_len_of_le hv hu hge
      have h7 := len_mono hv hx hu hle
      have h8 : i / cfg.W < n := (Nat.div_lt_iff_lt_mul (by have := hv.W16; omega)).mpr hi
      rw [List.length_cons]
      omega

theorem clearBit_ok (hv : cfg.Valid) {x : UBig} (hx : x.WF cfg) (i : Nat) : ∃ u, Ibig.UBig.clearBit cfg x i = .ok u ∧ u.WF cfg := by
  by_cases h : i < cfg.W ∨ base cfg.W ≤ x.value cfg
  · obtain ⟨u, h1, h2, -⟩ := Ibig.UBig.clearBit_spec hv hx h
    exact ⟨u, h1, h2⟩
  · cases x with
    | small w =>
      refine ⟨UBig.default, ?_, Nat.two_pow_pos _⟩
      show (if i < cfg.W then _ else _) = _
      rw [if_neg (by omega)]
    | large b =>
      exfalso
      have h1 := val_top_ge (W := cfg.W) (List.ne_nil_of_length_pos (by have := Buffer.WF.two hx; omega)) (Buffer.WF.top hx)
      have h2 : base cfg.W ^ 1 ≤ base cfg.W ^ (b.words.length - 1) :=
        Nat.pow_le_pow_right Nat.one_le_two_pow (by have := Buffer.WF.two hx; omega)
      have h3 : (UBig.large b).value cfg = val cfg.W b.words := rfl
      rw [pow_one] at h2
      omega

theorem putAll_clear (hv : cfg.Valid) (hs : ∀ n, cfg.spare n = 0) {ps : List Nat} {x : UBig} (hx : x.WF cfg) :
    ∃ z k, putAll cfg x (ps.map fun i => (false, i)) = .ok (z, k) ∧ z.WF cfg ∧
      k + potU cfg 0 z ≤ potU cfg 0 x + 8 * ps.length := by
  induction ps generalizing x with
  | nil => exact ⟨x, 0, rfl, hx, by simp⟩
  | cons i ps ih =>
    obtain ⟨u, e, hu⟩ := clearBit_ok hv hx i
    obtain ⟨l, hl⟩ := steps_of_result (UBig.clearBit_result cfg x i) e
    have hc := sat_clearBit (c := 0) hs hx i u l hl
    obtain ⟨z, k, hz, h3, h5⟩ := ih hu
    refine ⟨z, l + k, putAll_cons hl hz, h3, ?_⟩
    rw [List.length_cons]
    omega

theorem putAll_mixed (hv : cfg.Valid) (hs : ∀ n, cfg.spare n = 0) {n : Nat} (hn1 : 1 ≤ n) (hn : n + 1 ≤ cfg.maxLen)
    {ps : List (Bool × Nat)} (hp : ∀ p ∈ ps, p.2 < n * cfg.W) {x : UBig} (hx : x.WF cfg)
    (hxn : x.value cfg < 2 ^ ((n + 1) * cfg.W)) (hnx : 2 ^ (n * cfg.W) ≤ x.value cfg) :
    ∃ z k, putAll cfg x ps = .ok (z, k) ∧ z.WF cfg ∧
      (∀ i, (z.value cfg).testBit i = bitAfter i ((x.value cfg).testBit i) ps) ∧
      k + potU cfg 0 z ≤ potU cfg 0 x + 41 * ps.length := by
  induction ps generalizing x with
  | nil => exact ⟨x, 0, rfl, hx, fun i => rfl, by simp⟩
  | cons p ps ih =>
    obtain ⟨v, i⟩ := p
    have hi : i < n * cfg.W := hp (v, i) (by simp)
    have hlen := le_len_of_le hv hx hnx
    have hdiv : i / cfg.W < n := (Nat.div_lt_iff_lt_mul (by have := hv.W16; omega)).mpr hi
    obtain ⟨t, ht, hti⟩ : ∃ t, (x.value cfg).testBit t = true ∧ n * cfg.W ≤ t := by
      obtain ⟨t, h1, h2⟩ := Nat.exists_ge_and_testBit_of_ge_two_pow hnx
      exact ⟨t, h2, h1⟩
    have key : ∃ u l, UBig.putBit cfg x (v, i) = .ok (u, l) ∧ u.WF cfg ∧
        (∀ j, (u.value cfg).testBit j = if i = j then v else (x.value cfg).testBit j) ∧
        l + potU cfg 0 u ≤ potU cfg 0 x + 41 := by
      cases v with
      | true =>
        obtain ⟨m, hm, hy⟩ := Ibig.UBig.setBit_spec hv hx i
        have hmn := lt_of_bits hm hxn (lt_of_lt_of_le hi (Nat.mul_le_mul_right _ (Nat.le_succ n)))
        obtain ⟨u, e, hu, huv⟩ := hy.1 (lt_of_lt_of_le hmn (Nat.pow_le_pow_right (by norm_num) (Nat.mul_le_mul_right _ hn)))
        obtain ⟨l, hl⟩ := steps_of_result (UBig.setBit_result cfg x i) e
        have hc := sat_setBit (c := 0) hs hx i u l hl
        refine ⟨u, l, hl, hu, fun j => ?_, by omega⟩
        rw [huv, hm]
        by_cases h : i = j
        · simp [h]
        · simp [h, Ne.symm h]
      | false =>
        obtain ⟨u, e, hu, hb⟩ := Ibig.UBig.clearBit_spec hv hx (n := i) (Or.inr (le_trans (by
          show 2 ^ cfg.W ≤ _
          exact Nat.pow_le_pow_right (by norm_num) (Nat.le_mul_of_pos_left _ hn1)) hnx))
        obtain ⟨l, hl⟩ := steps_of_result (UBig.clearBit_result cfg x i) e
        have hc := sat_clearBit (c := 0) hs hx i u l hl
        refine ⟨u, l, hl, hu, fun j => ?_, by omega⟩
        rw [hb]
        by_cases h : i = j
        · simp [h]
        · simp [h, Ne.symm h]
    obtain ⟨u, l, hl, hu, hb, hc⟩ := key
    have hun : u.value cfg < 2 ^ ((n + 1) * cfg.W) := by
      refine Nat.lt_pow_two_of_testBit _ fun j hj => ?_
      have : n * cfg.W ≤ (n + 1) * cfg.W := Nat.mul_le_mul_right _ (Nat.le_succ n)
      rw [hb, if_neg (by omega)]
      exact Nat.testBit_lt_two_pow (lt_of_lt_of_le hxn (Nat.pow_le_pow_right (by norm_num) hj))
    have hnu : 2 ^ (n * cfg.W) ≤ u.value cfg := by
      refine le_trans (Nat.pow_le_pow_right (by norm_num) hti) (Nat.ge_two_pow_of_testBit ?_)
      rw [hb, if_neg (by omega)]; exact ht
    obtain ⟨z, k, hz, h3, h4, h5⟩ := ih (fun j hj => hp j (by simp [hj])) hu hun hnu
    refine ⟨z, l + k, putAll_cons hl hz, h3, fun j => ?_, ?_⟩
    · rw [h4, hb]; rfl
    · rw [List.length_cons]; omega

end Ibig.Timed.Exact
