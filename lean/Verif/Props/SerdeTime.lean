import Verif.Proofs.SerdeTime
import Verif.Props.ConvertTime
import Verif.Props.Serde
/-!
C79: the time of serialisation and deserialisation.

`Timed.UBig.serialize`, … (Model/SerdeTime.lean) run the functions and count steps, like `Timed.UBig.mul` (C60).
-/
namespace Ibig

/-- C79: counting steps does not change what serialisation and deserialisation return. -/
theorem C79_same_result (cfg : Cfg) :
    (∀ a : UBig, (Timed.UBig.serialize cfg a).result = a.serialize cfg) ∧
    (∀ a : IBig, (Timed.IBig.serialize cfg a).result = a.serialize cfg) ∧
    ∀ hint es, (Timed.UBig.deserialize cfg hint es).result = UBig.deserialize cfg hint es ∧
      ∀ s, (Timed.IBig.deserialize cfg s hint es).result = IBig.deserialize cfg s hint es :=
  ⟨Timed.UBig.serialize_result cfg, Timed.IBig.serialize_result cfg, fun hint es =>
    ⟨Timed.UBig.deserialize_result cfg hint es, fun s => Timed.IBig.deserialize_result cfg s hint es⟩⟩

theorem words_per_u64 {cfg : Cfg} (hv : cfg.Valid) : 1 ≤ wordsPerU64 cfg.W := by
  rcases hv.word with h | h | h <;> rw [h] <;> decide

/-- C79: serialising a number of `n` words takes at most `3 n + 1` steps, or `3 n + 2` with a sign. -/
theorem C79_serialize {cfg : Cfg} (hv : cfg.Valid) {n : ℕ} (hn : 1 ≤ n) :
    (∀ a : UBig, a.WF cfg → a.value cfg < 2 ^ (n * cfg.W) →
      ∃ r k, Timed.UBig.serialize cfg a = .ok (r, k) ∧ a.serialize cfg = .ok r ∧ k ≤ 3 * n + 1) ∧
    (∀ a : IBig, a.WF cfg → (a.value cfg).natAbs < 2 ^ (n * cfg.W) →
      ∃ r k, Timed.IBig.serialize cfg a = .ok (r, k) ∧ a.serialize cfg = .ok r ∧ k ≤ 3 * n + 2) := by
  have key : ∀ a : UBig, a.WF cfg → a.value cfg < 2 ^ (n * cfg.W) →
      Takes (Timed.UBig.serialize cfg a) (3 * n + 1) (fun _ => True) := fun a ha han => by
    have hl := Timed.UBig.len_le hv ha hn han
    exact (Timed.takes_serialize (words_per_u64 hv) a).mono (by omega) fun _ h => h
  constructor
  · intro a ha han
    have h1 := C31_ubig_serialize hv ha
    obtain ⟨k, hk, h⟩ := Timed.bounded (key a ha han) (Timed.UBig.serialize_result cfg a) (le_refl _) _ h1
    exact ⟨_, k, hk, h1, h⟩
  · intro a ha han
    obtain ⟨s, len, es, h1, -⟩ := C31_ibig_round_trip hv hv ha
    have hm : a.mag.value cfg < 2 ^ (n * cfg.W) := by rwa [IBig.natAbs_value] at han
    have ht : Takes (Timed.IBig.serialize cfg a) (3 * n + 2) (fun _ => True) := by
      refine Takes.bind Timed.takes_tick (by omega) (fun _ M hM _ => ?_)
      exact Takes.bind (key a.mag ha.1 hm) (by omega) (fun _ _ _ _ => Takes.pure trivial)
    obtain ⟨k, hk, h⟩ := Timed.bounded ht (Timed.IBig.serialize_result cfg a) (le_refl _) _ h1
    exact ⟨_, k, hk, h1, h⟩

/-- Numbers of 300 words. -/
example := (C79_serialize cfg64_valid (n := 300) (by norm_num)).1 exLong exLong_wf (by decide +kernel)
example := (C79_serialize cfg64_valid (n := 2) (by norm_num)).2 exNegA exNegA_wf (by decide +kernel)

/-- C79: reading a number from a sequence of `n` 64-bit words, announced or not, takes at most
`n (5 k + 2) + 34` steps, one more with a sign; `k` is the number of words of the build in 64 bits. -/
theorem C79_deserialize (cfg : Cfg) (hint : Option Nat) (es : List Nat) :
    (∀ c, UBig.deserialize cfg hint es = .ok c → ∃ t, Timed.UBig.deserialize cfg hint es = .ok (c, t) ∧
      t ≤ es.length * (5 * (64 / cfg.W) + 2) + 34) ∧
    ∀ s c, IBig.deserialize cfg s hint es = .ok c → ∃ t, Timed.IBig.deserialize cfg s hint es = .ok (c, t) ∧
      t ≤ es.length * (5 * (64 / cfg.W) + 2) + 35 := by
  refine ⟨Timed.bounded (Timed.takes_deserialize cfg hint es) (Timed.UBig.deserialize_result cfg hint es) (le_refl _),
    fun s => Timed.bounded (P := fun _ => True) ?_ (Timed.IBig.deserialize_result cfg s hint es) (le_refl _)⟩
  refine Takes.bind Timed.takes_tick (by omega) (fun _ M hM _ => ?_)
  refine Takes.bind (Timed.takes_deserialize cfg hint es) ?_ (fun _ _ _ _ => Takes.pure trivial)
  show es.length * (5 * (64 / cfg.W) + 2) + 34 ≤ M
  omega

/-- A number of 300 words is sent and read back on the same build: in at most `900 + 1` and `2100 + 34` steps. -/
example : ∃ len es k c t, Timed.UBig.serialize cfg64 exLong = .ok ((len, es), k) ∧ k ≤ 901 ∧
    Timed.UBig.deserialize cfg64 (some len) es = .ok (c, t) ∧ c.value cfg64 = exLong.value cfg64 ∧
    t ≤ es.length * 7 + 34 := by
  obtain ⟨⟨len, es⟩, k, h1, h2, h3⟩ :=
    (C79_serialize cfg64_valid (n := 300) (by norm_num)).1 exLong exLong_wf (by decide +kernel)
  obtain ⟨len', es', g1, g2⟩ := C31_ubig_same_build cfg64_valid exLong_wf
  obtain ⟨rfl, rfl⟩ : len = len' ∧ es = es' := by
    rw [h2] at g1
    injection g1 with g; injection g with ga gb
    exact ⟨ga, gb⟩
  obtain ⟨c, hc, -, hcv⟩ := g2 (some len) (.inr rfl)
  obtain ⟨t, ht, ht'⟩ := (C79_deserialize cfg64 (some len) es).1 c hc
  exact ⟨len, es, k, c, t, h1, h3, ht, hcv, ht'⟩

/-! Exact numbers of steps: the counting functions do count. -/
example : (Timed.UBig.serialize cfg64 exLong).steps = some 901 := by decide +kernel
example : (Timed.UBig.serialize cfg16 (bigOf [1, 2, 3, 4, 5])).steps = some 13 := by decide +kernel
example : (Timed.IBig.serialize cfg64 exNegA).steps = some 8 := by decide +kernel
example : (Timed.UBig.deserialize cfg64 (some 3) [1, 2, 3]).steps = some 23 := by decide +kernel
example : (Timed.UBig.deserialize cfg64 none [1, 2, 3]).steps = some 25 := by decide +kernel
example : (Timed.UBig.deserialize cfg16 (some 2) [1, 2]).steps = some 47 := by decide +kernel
example : (Timed.UBig.deserialize cfg16 none [1, 2]).steps = some 48 := by decide +kernel
example : (Timed.IBig.deserialize cfg16 .neg (some 1) [5]).steps = some 35 := by decide +kernel

end Ibig
