import Verif.Proofs.CountedText
import Verif.Props.FmtTime
import Verif.Props.ShiftTime
/-!
C60-C67: the counting functions count.  An upper bound on the number of steps says nothing if the steps are not counted.
Here are lower bounds on the same numbers: a function that walks over words or characters counts at least one step for
each of them, and schoolbook multiplication and division count at least one step for each pair of words.
-/
namespace Ibig

/-- a number of exactly `n` words is large and has `n` words -/
theorem UBig.of_words {cfg : Cfg} (hv : cfg.Valid) {a : UBig} (ha : a.WF cfg) {n : Nat} (hn : 2 ≤ n)
    (h1 : 2 ^ ((n - 1) * cfg.W) ≤ a.value cfg) (h2 : a.value cfg < 2 ^ (n * cfg.W)) :
    ∃ b : Buffer, a = .large b ∧ b.words.length = n := by
  have hl := Timed.UBig.len_le hv ha (by omega) h2
  have hlt := lt_of_le_of_lt h1 (UBig.value_lt_len ha)
  have hW : 0 < cfg.W := Timed.one_le_W hv
  have h3 := (Nat.pow_lt_pow_iff_right (by norm_num : 1 < 2)).mp hlt
  have h4 := (Nat.mul_lt_mul_right hW).mp h3
  cases a with
  | small w =>
    have : (UBig.small w).len = 1 := rfl
    omega
  | large b => exact ⟨b, rfl, by change b.words.length ≤ n at hl; change n - 1 < b.words.length at h4; omega⟩

/-- C60: multiplying numbers of exactly `n` and `m` words (at least two each) takes at least `n m` steps if one of them
has at most 24 words, and always at least `n + m` steps. -/
theorem C60_counts {cfg : Cfg} (hv : cfg.Valid) (o1 o2 : Own) {a b : UBig} (ha : a.WF cfg) (hb : b.WF cfg)
    {n m : ℕ} (hn : 2 ≤ n) (hm : 2 ≤ m) (han : 2 ^ ((n - 1) * cfg.W) ≤ a.value cfg ∧ a.value cfg < 2 ^ (n * cfg.W))
    (hbm : 2 ^ ((m - 1) * cfg.W) ≤ b.value cfg ∧ b.value cfg < 2 ^ (m * cfg.W)) {c : UBig} {k : ℕ}
    (h : Timed.UBig.mul cfg o1 o2 a b = .ok (c, k)) :
    (min n m ≤ 24 → n * m ≤ k) ∧ n + m ≤ k := by
  obtain ⟨x, rfl, hx⟩ := UBig.of_words hv ha hn han.1 han.2
  obtain ⟨y, rfl, hy⟩ := UBig.of_words hv hb hm hbm.1 hbm.2
  have := Timed.sat_mul cfg o1 o2 x y c k h
  rw [hx, hy] at this
  refine ⟨fun hs => ?_, by omega⟩
  unfold Timed.mulLeast at this
  rw [if_pos (show min n m ≤ mulMaxLenSimple from hs)] at this
  omega

/-- The product of numbers of 300 and 100 words takes at least 400 steps. -/
example {c : UBig} {k : ℕ} (h : Timed.UBig.mul cfg64 .ref .val exLong exMid = .ok (c, k)) : 400 ≤ k :=
  (C60_counts cfg64_valid .ref .val exLong_wf exMid_wf (n := 300) (m := 100) (by norm_num) (by norm_num)
    ⟨by decide +kernel, by decide +kernel⟩ ⟨by decide +kernel, by decide +kernel⟩ h).2

/-- C61: dividing a number of exactly `n` words by one of exactly `m` words, where `2 ≤ m ≤ n`, takes at least `n - m`
steps, and at least `(n - m) m` steps if `m` is at most 32 or `n - m` is less than 32. -/
theorem C61_counts {cfg : Cfg} (hv : cfg.Valid) (o1 o2 : Own) {a b : UBig} (ha : a.WF cfg) (hb : b.WF cfg)
    {n m : ℕ} (hm : 2 ≤ m) (hmn : m ≤ n) (han : 2 ^ ((n - 1) * cfg.W) ≤ a.value cfg ∧ a.value cfg < 2 ^ (n * cfg.W))
    (hbm : 2 ^ ((m - 1) * cfg.W) ≤ b.value cfg ∧ b.value cfg < 2 ^ (m * cfg.W)) {k : ℕ}
    (h : (∃ q, Timed.UBig.div cfg o1 o2 a b = .ok (q, k)) ∨ (∃ r, Timed.UBig.rem cfg o1 o2 a b = .ok (r, k)) ∨
      (∃ p, Timed.UBig.divRem cfg o1 o2 a b = .ok (p, k))) :
    n - m ≤ k ∧ (m ≤ 32 ∨ n - m < 32 → (n - m) * m ≤ k) := by
  obtain ⟨x, rfl, hx⟩ := UBig.of_words hv ha (hm.trans hmn) han.1 han.2
  obtain ⟨y, rfl, hy⟩ := UBig.of_words hv hb hm hbm.1 hbm.2
  have hle : y.len ≤ x.len := by
    show y.words.length ≤ x.words.length
    omega
  rw [← hx, ← hy]
  rcases h with ⟨q, h⟩ | ⟨r, h⟩ | ⟨p, h⟩
  · exact Timed.sat_div cfg o1 o2 x y hle q k h
  · exact Timed.sat_rem cfg o1 o2 x y hle r k h
  · exact Timed.sat_divRem cfg o1 o2 x y hle p k h

/-- Dividing 300 words by 100 words takes at least 200 steps. -/
example {p : UBig × UBig} {k : ℕ} (h : Timed.UBig.divRem cfg64 .ref .val exLong exMid = .ok (p, k)) : 200 ≤ k :=
  (C61_counts cfg64_valid .ref .val exLong_wf exMid_wf (n := 300) (m := 100) (by norm_num) (by norm_num)
    ⟨by decide +kernel, by decide +kernel⟩ ⟨by decide +kernel, by decide +kernel⟩ (.inr (.inr ⟨p, h⟩))).1

/-- C62: adding numbers of exactly `n` and `m` words (at least two each) takes at least `min(n, m)` steps; subtracting
them takes at least `m` steps. -/
theorem C62_counts {cfg : Cfg} (hv : cfg.Valid) (o1 o2 : Own) {a b : UBig} (ha : a.WF cfg) (hb : b.WF cfg)
    {n m : ℕ} (hn : 2 ≤ n) (hm : 2 ≤ m) (han : 2 ^ ((n - 1) * cfg.W) ≤ a.value cfg ∧ a.value cfg < 2 ^ (n * cfg.W))
    (hbm : 2 ^ ((m - 1) * cfg.W) ≤ b.value cfg ∧ b.value cfg < 2 ^ (m * cfg.W)) {c : UBig} {k : ℕ} :
    (Timed.UBig.add cfg o1 o2 a b = .ok (c, k) → min n m ≤ k) ∧
    (Timed.UBig.sub cfg o1 o2 a b = .ok (c, k) → m ≤ k) := by
  obtain ⟨x, rfl, hx⟩ := UBig.of_words hv ha hn han.1 han.2
  obtain ⟨y, rfl, hy⟩ := UBig.of_words hv hb hm hbm.1 hbm.2
  rw [← hx, ← hy]
  exact ⟨fun h => Timed.sat_add cfg o1 o2 x y c k h, fun h => Timed.sat_sub cfg o1 o2 x y c k h⟩

example {c : UBig} {k : ℕ} (h : Timed.UBig.add cfg64 .ref .val exLong exMid = .ok (c, k)) : 100 ≤ k :=
  (C62_counts cfg64_valid .ref .val exLong_wf exMid_wf (n := 300) (m := 100) (by norm_num) (by norm_num)
    ⟨by decide +kernel, by decide +kernel⟩ ⟨by decide +kernel, by decide +kernel⟩).1 h

/-- C63: raising a number of at least 3 to a power `e` of at least 3 takes at least as many steps as `e` has bits. -/
theorem C63_counts {cfg : Cfg} {x : UBig} (hx : x.WF cfg) (h3 : 3 ≤ x.value cfg) {e : ℕ} (he : 3 ≤ e)
    (hU : e < 2 ^ cfg.U) {c : UBig} {k : ℕ} (h : Timed.UBig.pow cfg x e = .ok (c, k)) : Nat.size e ≤ k :=
  Timed.sat_pow cfg hx h3 he hU c k h

example {c : UBig} {k : ℕ} (h : Timed.UBig.pow cfg64 exMid 1000 = .ok (c, k)) : 10 ≤ k :=
  (show 10 ≤ Nat.size 1000 by decide +kernel).trans
    (C63_counts exMid_wf (by decide +kernel) (by norm_num) (by decide +kernel) h)

/-- C64: reading a text that is accepted takes at least as many steps as the text has characters. -/
theorem C64_counts (cfg : Cfg) (s : List Nat) {k : ℕ} :
    (∀ r v, Timed.UBig.fromStrRadix cfg s r = .ok (.ok v, k) → s.length ≤ k) ∧
    (∀ r v, Timed.IBig.fromStrRadix cfg s r = .ok (.ok v, k) → s.length ≤ k) ∧
    (∀ v, Timed.UBig.fromStrWithRadixPrefix cfg s = .ok (.ok v, k) → s.length ≤ k) ∧
    (∀ v, Timed.IBig.fromStrWithRadixPrefix cfg s = .ok (.ok v, k) → s.length ≤ k) :=
  ⟨fun r v h => Timed.sat_uFromStrRadix cfg s r _ k h v rfl, fun r v h => Timed.sat_iFromStrRadix cfg s r _ k h v rfl,
   fun v h => Timed.sat_uPrefix cfg s _ k h v rfl, fun v h => Timed.sat_iPrefix cfg s _ k h v rfl⟩

/-- Reading a text of 200 digits takes at least 200 steps. -/
example {v : UBig} {k : ℕ} (h : Timed.UBig.fromStrRadix cfg64 (List.replicate 200 55) 10 = .ok (.ok v, k)) : 200 ≤ k :=
  List.length_replicate (n := 200) (a := 55) ▸ (C64_counts cfg64 (List.replicate 200 55)).1 10 v h

/-- C65: writing a text takes at least as many steps as the text has characters. -/
theorem C65_counts (cfg : Cfg) (be : Bool) (f : FmtFlags) (x : UBig) (y : IBig) {text : List Nat} {k : ℕ} :
    (∀ t, Timed.UBig.fmt cfg be t x f = .ok (text, k) → text.length ≤ k) ∧
    (∀ t, Timed.IBig.fmt cfg be t y f = .ok (text, k) → text.length ≤ k) ∧
    (∀ r, Timed.UBig.inRadixFmt cfg be x r f = .ok (text, k) → text.length ≤ k) ∧
    (∀ r, Timed.IBig.inRadixFmt cfg be y r f = .ok (text, k) → text.length ≤ k) := by
  refine ⟨fun t h => Timed.sat_fmtFull _ _ _ _ _ _ _ _ _ _ h, fun t h => Timed.sat_fmtFull _ _ _ _ _ _ _ _ _ _ h,
    fun r h => ?_, fun r h => ?_⟩
  · exact (Timed.Sat.bind (Timed.sat_any _) fun _ l _ => (Timed.sat_fmtFull cfg be .pos x r [] _ f).mono
      fun t m hm => (Nat.le_add_left_of_le hm : t.length ≤ l + m)) text k h
  · exact (Timed.Sat.bind (Timed.sat_any _) fun _ l _ => (Timed.sat_fmtFull cfg be y.sign y.mag r [] _ f).mono
      fun t m hm => (Nat.le_add_left_of_le hm : t.length ≤ l + m)) text k h

/-- The hexadecimal digits of a number of 300 words. -/
example {text : List Nat} {k : ℕ} (h : Timed.UBig.fmt cfg64 false .lowerHex exLong .default = .ok (text, k)) :
    text.length ≤ k := (C65_counts cfg64 false .default exLong exNegB).1 .lowerHex h

/-- C67: bitwise operators on numbers of exactly `n` and `m` words (at least two each) take at least `min(n, m)`
steps. -/
theorem C67_counts {cfg : Cfg} (hv : cfg.Valid) (o1 o2 : Own) {a b : UBig} (ha : a.WF cfg) (hb : b.WF cfg)
    {n m : ℕ} (hn : 2 ≤ n) (hm : 2 ≤ m) (han : 2 ^ ((n - 1) * cfg.W) ≤ a.value cfg ∧ a.value cfg < 2 ^ (n * cfg.W))
    (hbm : 2 ^ ((m - 1) * cfg.W) ≤ b.value cfg ∧ b.value cfg < 2 ^ (m * cfg.W)) {c : UBig} {k : ℕ}
    (h : Timed.UBig.bitand cfg o1 o2 a b = .ok (c, k) ∨ Timed.UBig.bitor cfg o1 o2 a b = .ok (c, k) ∨
      Timed.UBig.bitxor cfg o1 o2 a b = .ok (c, k)) : min n m ≤ k := by
  obtain ⟨x, rfl, hx⟩ := UBig.of_words hv ha hn han.1 han.2
  obtain ⟨y, rfl, hy⟩ := UBig.of_words hv hb hm hbm.1 hbm.2
  rw [← hx, ← hy]
  rcases h with h | h | h
  · exact Timed.sat_bitand cfg o1 o2 x y c k h
  · exact Timed.sat_bitop _ cfg o1 o2 x y c k h
  · exact Timed.sat_bitop _ cfg o1 o2 x y c k h

example {c : UBig} {k : ℕ} (h : Timed.UBig.bitxor cfg64 .ref .val exLong exMid = .ok (c, k)) : 100 ≤ k :=
  C67_counts cfg64_valid .ref .val exLong_wf exMid_wf (n := 300) (m := 100) (by norm_num) (by norm_num)
    ⟨by decide +kernel, by decide +kernel⟩ ⟨by decide +kernel, by decide +kernel⟩ (.inr (.inr h))

end Ibig
