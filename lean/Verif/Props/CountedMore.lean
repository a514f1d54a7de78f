import Verif.Proofs.CountedMore
import Verif.Props.Counted
import Verif.Props.ModularTime
import Verif.Props.SerdeTime
import Verif.Spec.ExamplesModular
/-!
C68, C69, C77, C79: the counting functions count, as in Props/Counted.lean.
-/
namespace Ibig

/-- C68: the greatest common divisor of numbers of exactly `n` and `m` words (at least two each) takes at least `n + m`
steps. -/
theorem C68_counts {cfg : Cfg} (hv : cfg.Valid) {a b : UBig} (ha : a.WF cfg) (hb : b.WF cfg)
    {n m : ℕ} (hn : 2 ≤ n) (hm : 2 ≤ m) (han : 2 ^ ((n - 1) * cfg.W) ≤ a.value cfg ∧ a.value cfg < 2 ^ (n * cfg.W))
    (hbm : 2 ^ ((m - 1) * cfg.W) ≤ b.value cfg ∧ b.value cfg < 2 ^ (m * cfg.W)) {c : UBig} {k : ℕ}
    (h : Timed.UBig.gcd cfg a b = .ok (c, k)) : n + m ≤ k := by
  obtain ⟨x, rfl, hx⟩ := UBig.of_words hv ha hn han.1 han.2
  obtain ⟨y, rfl, hy⟩ := UBig.of_words hv hb hm hbm.1 hbm.2
  rw [← hx, ← hy]
  exact Timed.sat_gcd cfg _ _ c k h

example {c : UBig} {k : ℕ} (h : Timed.UBig.gcd cfg64 exLong exMid = .ok (c, k)) : 400 ≤ k :=
  C68_counts cfg64_valid exLong_wf exMid_wf (n := 300) (m := 100) (by norm_num) (by norm_num)
    ⟨by decide +kernel, by decide +kernel⟩ ⟨by decide +kernel, by decide +kernel⟩ h

/-- C69: in a ring with a modulus of exactly `n` words (at least two), reading a residue, negation, addition and
subtraction take at least `n` steps; multiplication takes at least `n` steps, and `n²` steps if `n ≤ 24`; and raising to
the power `e` takes at least so many steps for every bit of `e` except one. -/
theorem C69_counts {cfg : Cfg} (hv : cfg.Valid) {r : Ring} {N n : ℕ} (hr : IsRing cfg r N) (hn : 2 ≤ n)
    (hN : 2 ^ ((n - 1) * cfg.W) ≤ N ∧ N < 2 ^ (n * cfg.W)) {x y : Modulo} {i j : ℕ} (hx : Elem cfg r x i)
    (hy : Elem cfg r y j) :
    (∀ c k, Timed.Modulo.residue cfg x = .ok (c, k) → n ≤ k) ∧
    (∀ c k, Timed.Modulo.neg cfg.W x = .ok (c, k) → n ≤ k) ∧
    (∀ o o' c k, Timed.Modulo.add cfg.W o o' x y = .ok (c, k) → n ≤ k) ∧
    (∀ o o' c k, Timed.Modulo.sub cfg.W o o' x y = .ok (c, k) → n ≤ k) ∧
    (∀ o o' c k, Timed.Modulo.mul cfg o o' x y = .ok (c, k) → n ≤ k ∧ (n ≤ 24 → n * n ≤ k)) ∧
    (∀ e : UBig, e.WF cfg → ∀ c k, Timed.Modulo.pow cfg x e = .ok (c, k) →
      (Nat.size (e.value cfg) - 1) * n ≤ k ∧ (n ≤ 24 → (Nat.size (e.value cfg) - 1) * (n * n) ≤ k)) := by
  obtain ⟨l, hl, hw⟩ := Timed.elem_words hv hr hn hN.1 hN.2
  obtain ⟨v, rfl, hv1, hv2⟩ := hw x i hx
  obtain ⟨w, rfl, hw1, hw2⟩ := hw y j hy
  have hg := Timed.size_le_mulLeast n
  refine ⟨fun c k h => hv2 ▸ Timed.sat_residue cfg v c k h, fun c k h => hv2 ▸ Timed.sat_neg cfg.W v c k h,
    fun o o' c k h => ?_, fun o o' c k h => hw2 ▸ Timed.sat_msub cfg.W o o' v w c k h, fun o o' c k h => ?_,
    fun e he c k h => ?_⟩
  · have := Timed.sat_madd cfg.W o o' v w c k h
    rwa [hv2, hw2, Nat.min_self] at this
  · have := Timed.sat_mmul cfg o o' v w (hw1.trans hv1.symm) c k h
    rw [hv1, hl] at this
    exact ⟨hg.1.trans this, fun h' => (hg.2 h').trans this⟩
  · have := Timed.sat_mpowLarge hv v he c k h
    rw [hv1, hl] at this
    exact ⟨(Nat.mul_le_mul_left _ hg.1).trans this, fun h' => (Nat.mul_le_mul_left _ (hg.2 h')).trans this⟩

/-- Raising an element modulo `2^64 + 5` to the power `exLong`, a number of 300 words. -/
example {c : Modulo} {k : ℕ} (h : Timed.Modulo.pow cfg64 exEl2 exLong = .ok (c, k)) :
    (Nat.size (exLong.value cfg64) - 1) * (2 * 2) ≤ k :=
  ((C69_counts cfg64_valid exRing2_is (n := 2) (by norm_num) ⟨by decide +kernel, by decide +kernel⟩ exEl2_is
    exEl2'_is).2.2.2.2.2 exLong exLong_wf c k h).2 (by norm_num)

/-- C69: in a ring with a modulus of one word, raising to the power `e` takes at least one step for every bit of `e`
except one. -/
theorem C69_counts_word {cfg : Cfg} (hv : cfg.Valid) {r : Ring} {N : ℕ} (hr : IsRing cfg r N) (hN : N < 2 ^ cfg.W)
    {x : Modulo} {i : ℕ} (hx : Elem cfg r x i) {e : UBig} (he : e.WF cfg) {c : Modulo} {k : ℕ}
    (h : Timed.Modulo.pow cfg x e = .ok (c, k)) : Nat.size (e.value cfg) - 1 ≤ k := by
  have ho := hr.ok hv
  obtain ⟨-, ⟨s, -, -, rfl⟩ | ⟨l, v, -, h1, rfl, -⟩⟩ := elem_cases ho hx
  · exact Timed.sat_mpowSmall hv _ he c k h
  · have h2 := h1.two
    have h3 := (Timed.sz_large hv.W1 h1 (n := 1) (by rwa [Nat.one_mul])).2
    omega

example {c : Modulo} {k : ℕ} (h : Timed.Modulo.pow cfg64 exEl1 exLong = .ok (c, k)) :
    Nat.size (exLong.value cfg64) - 1 ≤ k :=
  C69_counts_word cfg64_valid exRing1_is (by norm_num [cfg64]) exEl1_is exLong_wf h

/-- C77: making a number from bytes takes at least one step for every word of the bytes; the bytes of a number of exactly
`n` words (at least two) take at least `n` steps. -/
theorem C77_counts {cfg : Cfg} (hv : cfg.Valid) :
    (∀ (bytes : List ℕ) c k, Timed.UBig.fromLeBytes cfg bytes = .ok (c, k) ∨
      Timed.UBig.fromBeBytes cfg bytes = .ok (c, k) → bytes.length ≤ cfg.W / 8 * k) ∧
    (∀ {a : UBig} {n : ℕ}, a.WF cfg → 2 ≤ n → 2 ^ ((n - 1) * cfg.W) ≤ a.value cfg → a.value cfg < 2 ^ (n * cfg.W) →
      ∀ c k, Timed.UBig.toLeBytes cfg a = .ok (c, k) ∨ Timed.UBig.toBeBytes cfg a = .ok (c, k) → n ≤ k) := by
  refine ⟨fun bytes c k h => ?_, fun {a n} ha hn h1 h2 c k h => ?_⟩
  · rcases h with h | h
    · exact Timed.sat_fromLeBytes cfg bytes c k h
    · exact Timed.sat_fromBeBytes cfg bytes c k h
  · obtain ⟨x, rfl, hx⟩ := UBig.of_words hv ha hn h1 h2
    rw [← hx]
    rcases h with h | h
    · exact Timed.sat_toLeBytes cfg x c k h
    · exact Timed.sat_toBeBytes cfg x c k h

/-- Reading 800 bytes takes at least 100 steps. -/
example {c : UBig} {k : ℕ} (h : Timed.UBig.fromBeBytes cfg64 (List.replicate 800 7) = .ok (c, k)) : 100 ≤ k := by
  have := (C77_counts cfg64_valid).1 (List.replicate 800 7) c k (.inr h)
  rw [List.length_replicate] at this
  change 800 ≤ 8 * k at this
  omega

example {c : List ℕ} {k : ℕ} (h : Timed.UBig.toBeBytes cfg64 exLong = .ok (c, k)) : 300 ≤ k :=
  (C77_counts cfg64_valid).2 (n := 300) exLong_wf (by norm_num) (by decide +kernel) (by decide +kernel) c k (.inr h)

/-- C79: serializing a number of exactly `n` words (at least two) takes at least `n` steps; deserializing takes at least
one step for every element. -/
theorem C79_counts {cfg : Cfg} (hv : cfg.Valid) :
    (∀ {a : UBig} {n : ℕ}, a.WF cfg → 2 ≤ n → 2 ^ ((n - 1) * cfg.W) ≤ a.value cfg → a.value cfg < 2 ^ (n * cfg.W) →
      ∀ c k, Timed.UBig.serialize cfg a = .ok (c, k) → n ≤ k) ∧
    (∀ (hint : Option ℕ) (es : List ℕ) c k, Timed.UBig.deserialize cfg hint es = .ok (c, k) → es.length ≤ k) := by
  refine ⟨fun {a n} ha hn h1 h2 c k h => ?_, fun hint es c k h => Timed.sat_deserialize cfg hint es c k h⟩
  obtain ⟨x, rfl, hx⟩ := UBig.of_words hv ha hn h1 h2
  rw [← hx]
  refine Timed.sat_serialize ?_ (.large x) c k h
  unfold wordsPerU64
  rcases hv.word with h | h | h <;> rw [h] <;> norm_num

example {c : ℕ × List ℕ} {k : ℕ} (h : Timed.UBig.serialize cfg64 exLong = .ok (c, k)) : 300 ≤ k :=
  (C79_counts cfg64_valid).1 (n := 300) exLong_wf (by norm_num) (by decide +kernel) (by decide +kernel) c k h

end Ibig
