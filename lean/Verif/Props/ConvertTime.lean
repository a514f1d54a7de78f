import Verif.Proofs.ConvertCost
import Verif.Props.ShiftTime
import Verif.Props.Bits
import Verif.Props.Prim
import Verif.Props.Bytes
import Verif.Props.Float
/-!
C77: the time of conversions and of functions for single bits.

`Timed.UBig.fromLeBytes`, … (Model/ConvertTime.lean) run the functions and count steps, like `Timed.UBig.mul` (C60).
-/
namespace Ibig

/-- C77: counting steps does not change what the conversions from and to bytes and primitive integers return. -/
theorem C77_same_result_conversions (cfg : Cfg) :
    (∀ l : List Nat, (Timed.UBig.fromLeBytes cfg l).result = UBig.fromLeBytes cfg l ∧
      (Timed.UBig.fromBeBytes cfg l).result = UBig.fromBeBytes cfg l) ∧
    (∀ a : UBig, (Timed.UBig.toLeBytes cfg a).result = UBig.toLeBytes cfg a ∧
      (Timed.UBig.toBeBytes cfg a).result = UBig.toBeBytes cfg a) ∧
    (∀ t z, (Timed.UBig.tryFromPrim cfg t z).result = UBig.tryFromPrim cfg t z ∧
      (Timed.IBig.fromPrim cfg t z).result = IBig.fromPrim cfg t z) ∧
    (∀ t, (∀ a : UBig, (Timed.UBig.tryToPrim cfg a t).result = a.tryToPrim cfg t) ∧
      ∀ a : IBig, (Timed.IBig.tryToPrim cfg a t).result = a.tryToPrim cfg t) :=
  ⟨fun l => ⟨Timed.UBig.fromLeBytes_result cfg l, Timed.UBig.fromBeBytes_result cfg l⟩,
   fun a => ⟨Timed.UBig.toLeBytes_result cfg a, Timed.UBig.toBeBytes_result cfg a⟩,
   fun t z => ⟨Timed.UBig.tryFromPrim_result cfg t z, Timed.IBig.fromPrim_result cfg t z⟩,
   fun t => ⟨fun a => Timed.UBig.tryToPrim_result cfg a t, fun a => Timed.IBig.tryToPrim_result cfg a t⟩⟩

/-- C77: counting steps does not change what the conversions to floats and the functions for bits return. -/
theorem C77_same_result_bits (cfg : Cfg) (o : Own) (c : FloatCode) (f : FloatFmt) :
    (∀ a : IBig, (Timed.IBig.toFloat cfg c f a).result = IBig.toFloat cfg c f a) ∧
    ∀ a : UBig, (Timed.UBig.toFloat cfg c f a).result = UBig.toFloat cfg c f a ∧
      (∀ n, (Timed.UBig.bit cfg a n).result = UBig.bit cfg a n ∧
        (Timed.UBig.setBit cfg a n).result = UBig.setBit cfg a n ∧
        (Timed.UBig.clearBit cfg a n).result = UBig.clearBit cfg a n) ∧
      (Timed.UBig.bitLenT cfg a).result = UBig.bitLen cfg a ∧
      (Timed.UBig.isPowerOfTwo a).result = UBig.isPowerOfTwo a ∧
      (Timed.UBig.nextPowerOfTwo cfg o a).result = UBig.nextPowerOfTwo cfg o a :=
  ⟨fun a => Timed.IBig.toFloat_result cfg c f a, fun a => ⟨Timed.UBig.toFloat_result cfg c f a,
    fun n => ⟨Timed.UBig.bit_result cfg a n, Timed.UBig.setBit_result cfg a n, Timed.UBig.clearBit_result cfg a n⟩,
    Timed.UBig.bitLenT_result cfg a, Timed.UBig.isPowerOfTwo_result a, Timed.UBig.nextPowerOfTwo_result cfg o a⟩⟩

/-- C77: reading a number from bytes that fill at most `n` words takes at most `4 n + 5` steps. -/
theorem C77_from_bytes {cfg : Cfg} (hv : cfg.Valid) {l : List Nat} {n : ℕ} (hn : 8 * l.length ≤ n * cfg.W) (c : UBig) :
    (UBig.fromLeBytes cfg l = .ok c → ∃ k, Timed.UBig.fromLeBytes cfg l = .ok (c, k) ∧ k ≤ 4 * n + 5) ∧
    (UBig.fromBeBytes cfg l = .ok c → ∃ k, Timed.UBig.fromBeBytes cfg l = .ok (c, k) ∧ k ≤ 4 * n + 5) := by
  have h2 := Timed.word_bytes hv
  have h3 : l.length ≤ n * (cfg.W / 8) := by
    have h4 : cfg.W = 8 * (cfg.W / 8) := by rcases hv.word with h | h | h <;> rw [h]
    have h5 : n * cfg.W = 8 * (n * (cfg.W / 8)) := by
      calc n * cfg.W = n * (8 * (cfg.W / 8)) := by rw [← h4]
        _ = 8 * (n * (cfg.W / 8)) := by ring
    omega
  exact ⟨Timed.bounded (Timed.takes_fromLeBytes (by omega) l h3) (Timed.UBig.fromLeBytes_result cfg l) (le_refl _) c,
    Timed.bounded (Timed.takes_fromBeBytes (by omega) l h3) (Timed.UBig.fromBeBytes_result cfg l) (le_refl _) c⟩

/-- 1001 bytes: 126 words. -/
example (c : UBig) := C77_from_bytes cfg64_valid (l := List.replicate 1001 7) (n := 126) (by rw [List.length_replicate]; decide) c

/-- C77: writing the bytes of a number of `n` words takes at most `n + 5` steps. -/
theorem C77_to_bytes {cfg : Cfg} (hv : cfg.Valid) {a : UBig} (ha : a.WF cfg) {n : ℕ} (hn : 1 ≤ n)
    (han : a.value cfg < 2 ^ (n * cfg.W)) :
    (∃ l k, Timed.UBig.toLeBytes cfg a = .ok (l, k) ∧ UBig.toLeBytes cfg a = .ok l ∧ k ≤ n + 5) ∧
    (∃ l k, Timed.UBig.toBeBytes cfg a = .ok (l, k) ∧ UBig.toBeBytes cfg a = .ok l ∧ k ≤ n + 5) := by
  have hl := Timed.UBig.len_le hv ha hn han
  obtain ⟨l, h1, h2, -⟩ := C17_to_bytes hv ha
  obtain ⟨k, hk, h3⟩ := Timed.bounded (M := n + 5) (Timed.takes_toLeBytes cfg a) (Timed.UBig.toLeBytes_result cfg a)
    (by omega) l h1
  obtain ⟨k', hk', h3'⟩ := Timed.bounded (M := n + 5) (Timed.takes_toBeBytes cfg a) (Timed.UBig.toBeBytes_result cfg a)
    (by omega) l.reverse h2
  exact ⟨⟨l, k, hk, h1, h3⟩, ⟨l.reverse, k', hk', h2, h3'⟩⟩

/-- 300 words. -/
example := C77_to_bytes cfg64_valid exLong_wf (n := 300) (by norm_num) (by decide +kernel)

theorem PTy.Valid.size {t : PTy} (ht : t.Valid) : (match t with | .u b => b | .i b => b) ≤ 128 := by
  cases t <;> simp [PTy.Valid] at ht <;> dsimp only <;> omega

/-- C77: conversions between numbers and primitive integers take at most 37 steps, however long the number. -/
theorem C77_primitive {cfg : Cfg} (hv : cfg.Valid) {t : PTy} (ht : t.Valid) :
    (∀ z c, UBig.tryFromPrim cfg t z = .ok c → ∃ k, Timed.UBig.tryFromPrim cfg t z = .ok (c, k) ∧ k ≤ 37) ∧
    (∀ z c, IBig.fromPrim cfg t z = .ok c → ∃ k, Timed.IBig.fromPrim cfg t z = .ok (c, k) ∧ k ≤ 37) ∧
    (∀ (a : UBig) c, a.tryToPrim cfg t = .ok c → ∃ k, Timed.UBig.tryToPrim cfg a t = .ok (c, k) ∧ k ≤ 10) ∧
    (∀ (a : IBig) c, a.tryToPrim cfg t = .ok c → ∃ k, Timed.IBig.tryToPrim cfg a t = .ok (c, k) ∧ k ≤ 10) := by
  have hw : 1 ≤ cfg.W / 8 := by have := Timed.word_bytes hv; omega
  have hs := ht.size
  refine ⟨fun z => Timed.bounded (P := fun _ => True) (N := 37) ?_ (Timed.UBig.tryFromPrim_result cfg t z) (le_refl _),
    fun z => Timed.bounded (P := fun _ => True) (N := 37) ?_ (Timed.IBig.fromPrim_result cfg t z) (le_refl _),
    fun a => Timed.bounded (P := fun _ => True) (N := 10) ?_ (Timed.UBig.tryToPrim_result cfg a t) (le_refl _),
    fun a => Timed.bounded (P := fun _ => True) (N := 10) ?_ (Timed.IBig.tryToPrim_result cfg a t) (le_refl _)⟩
  · cases t with
    | u b =>
      exact Takes.bind (Timed.takes_fromUnsignedLoop hw b _ (Timed.bytes_le hv hs)) (by omega)
        (fun _ _ _ _ => Takes.pure trivial)
    | i b =>
      refine Takes.ite (fun _ => ?_) (fun _ => Takes.pure trivial)
      exact Takes.bind (Timed.takes_fromUnsignedLoop hw b _ (Timed.bytes_le hv hs)) (by omega)
        (fun _ _ _ _ => Takes.pure trivial)
  · cases t with
    | u b =>
      exact Takes.bind (Timed.takes_fromUnsignedLoop hw b _ (Timed.bytes_le hv hs)) (by omega)
        (fun _ _ _ _ => Takes.pure trivial)
    | i b =>
      exact Takes.bind (Timed.takes_fromUnsignedLoop hw b _ (Timed.bytes_le hv hs)) (by omega)
        (fun _ _ _ _ => Takes.pure trivial)
  · cases t with
    | u b =>
      exact Takes.bind (Timed.takes_tryToUnsignedLoop b a (Timed.words_le hv hs)) (by omega)
        (fun _ _ _ _ => Takes.pure trivial)
    | i b => exact Timed.takes_tryToSignedLoop b a (Timed.words_le hv hs)
  · obtain ⟨s, m⟩ := a
    cases t with
    | u b =>
      cases s
      · exact Takes.bind (Timed.takes_tryToUnsignedLoop b m (Timed.words_le hv hs)) (by omega)
          (fun _ _ _ _ => Takes.pure trivial)
      · exact Takes.pure trivial
    | i b =>
      refine Takes.bind (Timed.takes_tryToUnsignedLoop b m (Timed.words_le hv hs)) (by omega) (fun u _ _ _ => ?_)
      cases u <;> exact Takes.pure trivial

/-- `i128`. -/
example := C77_primitive cfg16_valid (t := .i 128) (by simp [PTy.Valid])

/-- C77: conversions to `f32` take at most 104 steps and to `f64` at most 384, however long the number. -/
theorem C77_float {cfg : Cfg} (hv : cfg.Valid) :
    (∀ a : UBig, a.WF cfg →
      (∃ b k, Timed.UBig.toFloat cfg code32 f32 a = .ok (b, k) ∧ a.toF32 cfg = .ok b ∧ k ≤ 104) ∧
      (∃ b k, Timed.UBig.toFloat cfg code64 f64 a = .ok (b, k) ∧ a.toF64 cfg = .ok b ∧ k ≤ 384)) ∧
    (∀ a : IBig, a.WF cfg →
      (∃ b k, Timed.IBig.toFloat cfg code32 f32 a = .ok (b, k) ∧ a.toF32 cfg = .ok b ∧ k ≤ 104) ∧
      (∃ b k, Timed.IBig.toFloat cfg code64 f64 a = .ok (b, k) ∧ a.toF64 cfg = .ok b ∧ k ≤ 384)) := by
  have h16 : 16 ≤ cfg.W := by rcases hv.word with h | h | h <;> rw [h] <;> norm_num
  have h32 : code32.maxLen ≤ 8 * cfg.W := by show 128 ≤ _; omega
  have h64 : code64.maxLen ≤ 64 * cfg.W := by show 1024 ≤ _; omega
  refine ⟨fun a ha => ?_, fun a ha => ?_⟩
  · obtain ⟨⟨b, h1, -⟩, c, h2, -⟩ := C19_ubig_to_float hv ha
    obtain ⟨k, hk, h3⟩ := Timed.bounded (M := 104) (Timed.takes_toFloat hv code32 f32 ha (by norm_num) h32 (by decide))
      (Timed.UBig.toFloat_result cfg code32 f32 a) (by norm_num) b h1
    obtain ⟨l, hl, h4⟩ := Timed.bounded (M := 384) (Timed.takes_toFloat hv code64 f64 ha (by norm_num) h64 (by decide))
      (Timed.UBig.toFloat_result cfg code64 f64 a) (by norm_num) c h2
    exact ⟨⟨b, k, hk, h1, h3⟩, ⟨c, l, hl, h2, h4⟩⟩
  · obtain ⟨⟨b, h1, -⟩, c, h2, -⟩ := C19_ibig_to_float hv ha
    obtain ⟨k, hk, h3⟩ := Timed.bounded (M := 104) (Timed.takes_itoFloat hv code32 f32 ha (by norm_num) h32 (by decide))
      (Timed.IBig.toFloat_result cfg code32 f32 a) (by norm_num) _ h1
    obtain ⟨l, hl, h4⟩ := Timed.bounded (M := 384) (Timed.takes_itoFloat hv code64 f64 ha (by norm_num) h64 (by decide))
      (Timed.IBig.toFloat_result cfg code64 f64 a) (by norm_num) _ h2
    exact ⟨⟨_, k, hk, h1, h3⟩, ⟨_, l, hl, h2, h4⟩⟩

/-- A number of 300 words. -/
example := (C77_float cfg64_valid).1 _ exLong_wf

/-- C77: `bit` takes at most one step and `bit_len` at most three, however long the number. -/
theorem C77_bit {cfg : Cfg} (hv : cfg.Valid) {a : UBig} (ha : a.WF cfg) :
    (∀ n, ∃ k, Timed.UBig.bit cfg a n = .ok ((a.value cfg).testBit n, k) ∧ k ≤ 1) ∧
    (∃ m k, Timed.UBig.bitLenT cfg a = .ok (m, k) ∧ UBig.bitLen cfg a = .ok m ∧ k ≤ 3) := by
  refine ⟨fun n => Timed.bounded (Timed.takes_bit cfg a n) (Timed.UBig.bit_result cfg a n) (le_refl _) _
    (UBig.bit_spec hv ha n), ?_⟩
  obtain ⟨k, hk, h⟩ := Timed.bounded (Timed.takes_bitLenT cfg a) (Timed.UBig.bitLenT_result cfg a) (le_refl _) _
    (UBig.bitLen_spec hv ha)
  exact ⟨_, k, hk, UBig.bitLen_spec hv ha, h⟩

/-- A number of 300 words. -/
example := C77_bit cfg64_valid exLong_wf

/-- C77: for a number of `n` words, `set_bit(i)` takes at most `2 n + 3 (i / W) + 11` steps, `clear_bit` at most
`2 n + 4`, `is_power_of_two` at most `n + 3` and `next_power_of_two` at most `5 n + 10`. -/
theorem C77_bits {cfg : Cfg} (hv : cfg.Valid) (o : Own) {a : UBig} (ha : a.WF cfg) {n : ℕ} (hn : 1 ≤ n)
    (han : a.value cfg < 2 ^ (n * cfg.W)) :
    (∀ i c, UBig.setBit cfg a i = .ok c →
      ∃ k, Timed.UBig.setBit cfg a i = .ok (c, k) ∧ k ≤ 2 * n + 3 * (i / cfg.W) + 11) ∧
    (∀ i c, UBig.clearBit cfg a i = .ok c → ∃ k, Timed.UBig.clearBit cfg a i = .ok (c, k) ∧ k ≤ 2 * n + 4) ∧
    (∃ r k, Timed.UBig.isPowerOfTwo a = .ok (r, k) ∧ UBig.isPowerOfTwo a = .ok r ∧ k ≤ n + 3) ∧
    (∀ c, UBig.nextPowerOfTwo cfg o a = .ok c →
      ∃ k, Timed.UBig.nextPowerOfTwo cfg o a = .ok (c, k) ∧ k ≤ 5 * n + 10) := by
  have hl := Timed.UBig.len_le hv ha hn han
  refine ⟨fun i => Timed.bounded (Timed.takes_setBit cfg a i) (Timed.UBig.setBit_result cfg a i) (by omega),
    fun i => Timed.bounded (Timed.takes_clearBit cfg a i) (Timed.UBig.clearBit_result cfg a i) (by omega), ?_,
    Timed.bounded (Timed.takes_nextPowerOfTwo hv o ha) (Timed.UBig.nextPowerOfTwo_result cfg o a) (by omega)⟩
  obtain ⟨r, h1, -⟩ := UBig.isPowerOfTwo_spec hv ha
  obtain ⟨k, hk, h⟩ := Timed.bounded (M := n + 3) (Timed.takes_isPowerOfTwo a) (Timed.UBig.isPowerOfTwo_result a)
    (by omega) r h1
  exact ⟨r, k, hk, h1, h⟩

/-- A number of 300 words. -/
example := C77_bits cfg64_valid .ref exLong_wf (n := 300) (by norm_num) (by decide +kernel)

/-! Exact numbers of steps: the counting functions do count. -/
example : (Timed.UBig.fromLeBytes cfg16 [1, 2, 3, 4, 5]).steps = some 17 := by decide +kernel
example : (Timed.UBig.fromBeBytes cfg16 [1, 2, 3, 4, 5]).steps = some 17 := by decide +kernel
example : (Timed.UBig.toLeBytes cfg64 exLong).steps = some 304 := by decide +kernel
example : (Timed.UBig.toBeBytes cfg64 exLong).steps = some 303 := by decide +kernel
example : (Timed.IBig.fromPrim cfg16 (.u 128) (2 ^ 128 - 1)).steps = some 37 := by decide +kernel
example : (Timed.UBig.tryToPrim cfg64 exA (.u 128)).steps = some 4 := by decide +kernel
example : (Timed.UBig.toFloat cfg64 code64 f64 exA).steps = some 15 := by decide +kernel
example : (Timed.UBig.toFloat cfg64 code64 f64 exLong).steps = some 5 := by decide +kernel
example : (Timed.UBig.bit cfg64 exLong 10000).steps = some 1 := by decide +kernel
example : (Timed.UBig.setBit cfg64 exA 1000).steps = some 53 := by decide +kernel
example : (Timed.UBig.clearBit cfg64 exA 100).steps = some 8 := by decide +kernel
example : (Timed.UBig.isPowerOfTwo exA).steps = some 4 := by decide +kernel
example : (Timed.UBig.nextPowerOfTwo cfg64 .ref exA).steps = some 19 := by decide +kernel

end Ibig
