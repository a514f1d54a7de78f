import Verif.Proofs.ModularCost
import Verif.Props.ShiftTime
import Verif.Props.Modular
import Verif.Spec.ExamplesModular
/-!
C69: how long modular arithmetic takes.

`Timed.Modulo.mul`, … (Model/ModularTime.lean) run the functions and count steps, like `Timed.UBig.mul` (C60).
`n` is the number of words of the modulus `N`: `N < 2^(n W)`.
-/
namespace Ibig

/-- C69: counting steps does not change what the functions return. -/
theorem C69_same_result (cfg : Cfg) (o o' : Own) :
    (∀ addr n, (Timed.Ring.new cfg addr n).result = Ring.new cfg addr n) ∧
    (∀ r : Ring, (Timed.Ring.modulus cfg r).result = r.modulus cfg ∧
      (∀ x, (Timed.Ring.fromUBig cfg r o x).result = r.fromUBig cfg o x) ∧
      (∀ x, (Timed.Ring.fromIBig cfg r o x).result = r.fromIBig cfg o x)) ∧
    (∀ x : Modulo, (Timed.Modulo.residue cfg x).result = x.residue cfg ∧
      (Timed.Modulo.neg cfg.W x).result = Modulo.neg cfg.W x ∧
      (Timed.Modulo.inverse cfg x).result = x.inverse cfg ∧
      (∀ y, (Timed.Modulo.add cfg.W o o' x y).result = Modulo.add cfg.W o o' x y ∧
        (Timed.Modulo.sub cfg.W o o' x y).result = Modulo.sub cfg.W o o' x y ∧
        (Timed.Modulo.mul cfg o o' x y).result = Modulo.mul cfg o o' x y ∧
        (Timed.Modulo.div cfg x y).result = Modulo.div cfg x y) ∧
      (∀ e, (Timed.Modulo.pow cfg x e).result = x.pow cfg e) ∧
      (∀ e, (Timed.Modulo.powSigned cfg x e).result = x.powSigned cfg e)) :=
  ⟨Timed.Ring.new_result cfg,
   fun r => ⟨Timed.Ring.modulus_result cfg r, Timed.Ring.fromUBig_result cfg r o, Timed.Ring.fromIBig_result cfg r o⟩,
   fun x => ⟨Timed.Modulo.residue_result cfg x, Timed.Modulo.neg_result cfg.W x, Timed.Modulo.inverse_result cfg x,
    fun y => ⟨Timed.Modulo.add_result cfg.W o o' x y, Timed.Modulo.sub_result cfg.W o o' x y,
      Timed.Modulo.mul_result cfg o o' x y, Timed.Modulo.div_result cfg x y⟩,
    Timed.Modulo.pow_result cfg x, Timed.Modulo.powSigned_result cfg x⟩⟩

/-- `Timed.bounded` for a real bound. -/
theorem Timed.costsBounded {α : Type} {x : Timed α} {y : R α} {B C : ℝ} {P : α → Prop} (h : Costs x B P)
    (hr : x.result = y) (hB : B = C) : ∀ c, y = .ok c → ∃ k, x = .ok (c, k) ∧ (k : ℝ) ≤ C := by
  intro c hc
  obtain ⟨k, hk⟩ := Timed.of_result (hr.trans hc)
  exact ⟨k, hk, hB ▸ (h c k hk).1⟩

/-- C69: creating a ring with a modulus of `n` words takes at most `2 n + 7` steps. -/
theorem C69_new {cfg : Cfg} (hv : cfg.Valid) (addr : Nat) {m : UBig} (hm : m.WF cfg) {n : ℕ} (hn : 1 ≤ n)
    (hmn : m.value cfg < 2 ^ (n * cfg.W)) :
    ∀ r, Ring.new cfg addr m = .ok r → ∃ k, Timed.Ring.new cfg addr m = .ok (r, k) ∧ k ≤ 2 * n + 7 :=
  Timed.bounded (Timed.takes_ringNew hv addr m) (Timed.Ring.new_result cfg addr m)
    (by have := Timed.UBig.len_le hv hm hn hmn; omega)

/-- A modulus of 300 words. -/
example := C69_new cfg64_valid 1000 exLong_wf (n := 300) (by norm_num) (by decide +kernel)

/-- C69: in a ring whose modulus has `n` words, reading the modulus or a residue takes at most `4 n + 6` steps,
negation at most `4 n + 8`, and addition and subtraction at most `5 n + 10`. -/
theorem C69_linear {cfg : Cfg} (hv : cfg.Valid) {r : Ring} {N n : ℕ} (hr : IsRing cfg r N)
    (hN : N < 2 ^ (n * cfg.W)) :
    (∀ c, r.modulus cfg = .ok c → ∃ k, Timed.Ring.modulus cfg r = .ok (c, k) ∧ k ≤ 4 * n + 6) ∧
    (∀ {x : Modulo} {i : ℕ}, Elem cfg r x i →
      (∀ c, x.residue cfg = .ok c → ∃ k, Timed.Modulo.residue cfg x = .ok (c, k) ∧ k ≤ 4 * n + 6) ∧
      (∀ c, Modulo.neg cfg.W x = .ok c → ∃ k, Timed.Modulo.neg cfg.W x = .ok (c, k) ∧ k ≤ 4 * n + 8)) ∧
    (∀ {x y : Modulo} {i j : ℕ}, Elem cfg r x i → Elem cfg r y j → ∀ o o' : Own,
      (∀ c, Modulo.add cfg.W o o' x y = .ok c →
        ∃ k, Timed.Modulo.add cfg.W o o' x y = .ok (c, k) ∧ k ≤ 5 * n + 10) ∧
      (∀ c, Modulo.sub cfg.W o o' x y = .ok c →
        ∃ k, Timed.Modulo.sub cfg.W o o' x y = .ok (c, k) ∧ k ≤ 5 * n + 10)) := by
  have ho := hr.ok hv
  refine ⟨Timed.bounded (Timed.takes_ringModulus (n := n) ?_) (Timed.Ring.modulus_result cfg r) le_rfl,
    fun {x i} hx => ?_, fun {x y i j} hx hy o o' => ?_⟩
  · rcases r with ⟨addr, s | l⟩
    · intro l h
      cases h
    · rintro l ⟨⟩
      exact (Timed.sz_large hv.W1 ho hN).2
  · have hs := Timed.sz_elem hv.W1 ho hN hx
    exact ⟨Timed.bounded (Timed.takes_residue hs) (Timed.Modulo.residue_result cfg x) le_rfl,
      Timed.bounded (Timed.takes_mneg hs) (Timed.Modulo.neg_result cfg.W x) le_rfl⟩
  · have hs := Timed.sz_elem hv.W1 ho hN hx
    have ht := Timed.sz_elem hv.W1 ho hN hy
    exact ⟨Timed.bounded (Timed.takes_madd o o' hs ht) (Timed.Modulo.add_result cfg.W o o' x y) le_rfl,
      Timed.bounded (Timed.takes_msub o o' hs ht) (Timed.Modulo.sub_result cfg.W o o' x y) le_rfl⟩

/-- Elements modulo `2^64 + 5`. -/
example := (C69_linear cfg64_valid exRing2_is (n := 2) (by decide +kernel)).2.2 exEl2_is exEl2'_is .ref .val

/-- C69: bringing a number of `m` words into a ring whose modulus has `n` words takes at most
`195 (m + 1) n^0.47 + 5 m + 7 n + 49` steps. -/
theorem C69_from {cfg : Cfg} (hv : cfg.Valid) {r : Ring} {N n m : ℕ} (hr : IsRing cfg r N) (hn : 1 ≤ n)
    (hN : N < 2 ^ (n * cfg.W)) (hm : 1 ≤ m) (o : Own) :
    (∀ {x : UBig}, x.WF cfg → x.value cfg < 2 ^ (m * cfg.W) → ∀ c, r.fromUBig cfg o x = .ok c →
      ∃ k, Timed.Ring.fromUBig cfg r o x = .ok (c, k) ∧
        (k : ℝ) ≤ 195 * (m + 1) * (n : ℝ) ^ (0.47 : ℝ) + 5 * m + 7 * n + 49) ∧
    (∀ {x : IBig}, x.WF cfg → |x.value cfg| < 2 ^ (m * cfg.W) → ∀ c, r.fromIBig cfg o x = .ok c →
      ∃ k, Timed.Ring.fromIBig cfg r o x = .ok (c, k) ∧
        (k : ℝ) ≤ 195 * (m + 1) * (n : ℝ) ^ (0.47 : ℝ) + 5 * m + 7 * n + 49) := by
  have ho := hr.ok hv
  rw [show (0.47 : ℝ) = 47 / 100 by norm_num]
  refine ⟨fun {x} hx hxm => Timed.costsBounded ((Timed.from_steps hv ho hn hN o hx hm hxm).mono ?_ fun _ h => h)
      (Timed.Ring.fromUBig_result cfg r o x) rfl,
    fun {x} hx hxm => Timed.costsBounded (Timed.fromI_steps hv ho hn hN o hx hm (x.mag_lt m hxm))
      (Timed.Ring.fromIBig_result cfg r o x) rfl⟩
  have : (0 : ℝ) ≤ n := Nat.cast_nonneg n
  linarith

/-- 300 words modulo `2^64 + 5`. -/
example := (C69_from cfg64_valid exRing2_is (n := 2) (m := 300) (by norm_num) (by decide +kernel) (by norm_num) .ref).1
  exLong_wf (by decide +kernel)

/-- C69: a multiplication in a ring whose modulus has `n` words takes at most `430 n^1.47` steps. -/
theorem C69_mul {cfg : Cfg} (hv : cfg.Valid) {r : Ring} {N n : ℕ} (hr : IsRing cfg r N) (hn : 1 ≤ n)
    (hN : N < 2 ^ (n * cfg.W)) {x y : Modulo} {i j : ℕ} (hx : Elem cfg r x i) (hy : Elem cfg r y j) (o o' : Own) :
    ∀ c, Modulo.mul cfg o o' x y = .ok c →
      ∃ k, Timed.Modulo.mul cfg o o' x y = .ok (c, k) ∧ (k : ℝ) ≤ 430 * (n : ℝ) ^ (1.47 : ℝ) := by
  rw [show (1.47 : ℝ) = 147 / 100 by norm_num]
  have ho := hr.ok hv
  exact Timed.costsBounded (P := fun _ => True) (fun z t h =>
    ⟨Timed.mmul_steps hn o o' (Timed.sz_elem hv.W1 ho hN hx) (Timed.sz_elem hv.W1 ho hN hy) h, trivial⟩)
    (Timed.Modulo.mul_result cfg o o' x y) rfl

/-- C69: in a ring whose modulus has `n` words (of `W` bits), an inverse takes at most `1115 n² W` steps and a
division at most `1145 n² W` steps. -/
theorem C69_inverse_div {cfg : Cfg} (hv : cfg.Valid) {r : Ring} {N n : ℕ} (hr : IsRing cfg r N) (hn : 1 ≤ n)
    (hN : N < 2 ^ (n * cfg.W)) {x y : Modulo} {i j : ℕ} (hx : Elem cfg r x i) (hy : Elem cfg r y j) :
    (∀ c, x.inverse cfg = .ok c → ∃ k, Timed.Modulo.inverse cfg x = .ok (c, k) ∧ k ≤ 1115 * n ^ 2 * cfg.W) ∧
    (∀ c, Modulo.div cfg x y = .ok c → ∃ k, Timed.Modulo.div cfg x y = .ok (c, k) ∧ k ≤ 1145 * n ^ 2 * cfg.W) :=
  ⟨Timed.bounded (Timed.takes_minverse hv (hr.ok hv) hn hN hx) (Timed.Modulo.inverse_result cfg x) le_rfl,
   Timed.bounded (Timed.takes_mdiv hv (hr.ok hv) hn hN hx hy) (Timed.Modulo.div_result cfg x y) le_rfl⟩

/-- Elements modulo `2^64 + 5`. -/
example := C69_inverse_div cfg64_valid exRing2_is (n := 2) (by norm_num) (by decide +kernel) exEl2_is exEl2'_is

/-- C69: a power with an exponent of `L` bits takes at most `1250 L n^1.47` steps: two and a half multiplications for
each bit of the exponent. -/
theorem C69_pow {cfg : Cfg} (hv : cfg.Valid) {r : Ring} {N n L : ℕ} (hr : IsRing cfg r N) (hn : 1 ≤ n)
    (hN : N < 2 ^ (n * cfg.W)) {x : Modulo} {i : ℕ} (hx : Elem cfg r x i) {e : UBig} (he : e.WF cfg) (hL : 1 ≤ L)
    (heL : e.value cfg < 2 ^ L) :
    ∀ c, x.pow cfg e = .ok c →
      ∃ k, Timed.Modulo.pow cfg x e = .ok (c, k) ∧ (k : ℝ) ≤ 1250 * L * (n : ℝ) ^ (1.47 : ℝ) := by
  rw [show (1.47 : ℝ) = 147 / 100 by norm_num]
  exact Timed.costsBounded (P := fun _ => True)
    (fun z t h => ⟨Timed.mpow_steps hv (hr.ok hv) hn hN hx he hL heL h, trivial⟩)
    (Timed.Modulo.pow_result cfg x e) rfl

/-- C69: `pow_signed` takes an inverse and a power. -/
theorem C69_pow_signed {cfg : Cfg} (hv : cfg.Valid) {r : Ring} {N n L : ℕ} (hr : IsRing cfg r N) (hn : 1 ≤ n)
    (hN : N < 2 ^ (n * cfg.W)) {x : Modulo} {i : ℕ} (hx : Elem cfg r x i) {e : IBig} (he : e.WF cfg) (hL : 1 ≤ L)
    (heL : |e.value cfg| < 2 ^ L) :
    ∀ c, x.powSigned cfg e = .ok c → ∃ k, Timed.Modulo.powSigned cfg x e = .ok (c, k) ∧
      (k : ℝ) ≤ 1250 * L * (n : ℝ) ^ (1.47 : ℝ) + 1115 * n ^ 2 * cfg.W := by
  rw [show (1.47 : ℝ) = 147 / 100 by norm_num]
  have h : e.mag.value cfg < 2 ^ L := by
    rw [← IBig.natAbs_value (cfg := cfg) e]
    rw [Int.abs_eq_natAbs] at heL
    exact_mod_cast heL
  exact Timed.costsBounded (P := fun _ => True)
    (fun z t hz => ⟨Timed.mpowSigned_steps hv (hr.ok hv) hn hN hx he hL h hz, trivial⟩)
    (Timed.Modulo.powSigned_result cfg x e) rfl

/-- `11^(-(2^64 + 5))` modulo `2^64 + 5`. -/
example := C69_pow_signed cfg64_valid exRing2_is (n := 2) (L := 65) (by norm_num) (by decide +kernel) exEl2'_is
  exNegB_wf (by norm_num) (by decide +kernel)

/-- The steps counted modulo 10007 and modulo `2^64 + 5` (two words): creating the ring and bringing in 5; in addition a
product; in addition `5^(2^128 - 1)`; in addition an inverse. -/
example :
    (do let r ← Timed.Ring.new cfg64 1000 (.small 10007); Timed.Ring.fromUBig cfg64 r .ref (.small 5)).steps = some 6 ∧
    (do let r ← Timed.Ring.new cfg64 1000 exB; Timed.Ring.fromUBig cfg64 r .ref (.small 5)).steps = some 66 ∧
    (do let r ← Timed.Ring.new cfg64 1000 exB; let a ← Timed.Ring.fromUBig cfg64 r .ref (.small 5)
        Timed.Modulo.mul cfg64 .ref .ref a a).steps = some 144 ∧
    (do let r ← Timed.Ring.new cfg64 1000 exB; let a ← Timed.Ring.fromUBig cfg64 r .ref (.small 5)
        Timed.Modulo.pow cfg64 a exA).steps = some 12590 ∧
    (do let r ← Timed.Ring.new cfg64 1000 exB; let a ← Timed.Ring.fromUBig cfg64 r .ref (.small 5)
        Timed.Modulo.inverse cfg64 a).steps = some 919 := by decide +kernel

/-- The hypotheses hold modulo `2^64 + 5`, and the operations return. -/
example : ∃ r x, IsRing cfg64 r (2 ^ 64 + 5) ∧ Elem cfg64 r x 7 ∧ 2 ^ 64 + 5 < 2 ^ (2 * cfg64.W) ∧
    (∃ y k, x.pow cfg64 exA = .ok y ∧ Timed.Modulo.pow cfg64 x exA = .ok (y, k) ∧
      (k : ℝ) ≤ 1250 * (128 : ℕ) * ((2 : ℕ) : ℝ) ^ (1.47 : ℝ)) ∧
    (∃ y k, Modulo.mul cfg64 .ref .val x x = .ok y ∧ Timed.Modulo.mul cfg64 .ref .val x x = .ok (y, k) ∧
      (k : ℝ) ≤ 430 * ((2 : ℕ) : ℝ) ^ (1.47 : ℝ)) := by
  obtain ⟨r, -, -, hr, -⟩ := (C27_new cfg64_valid 2000 exB_wf).1 (by decide +kernel)
  have hval : exB.value cfg64 = 2 ^ 64 + 5 := by decide +kernel
  rw [hval] at hr
  obtain ⟨x, i, -, hx, hi⟩ := (C27_from_primitive cfg64_valid hr (t := .u 8) (Or.inl rfl) (z := 7)
    (by norm_num [PTy.InRange])).1
  obtain rfl : i = 7 := by omega
  have hN : 2 ^ 64 + 5 < 2 ^ (2 * cfg64.W) := by decide +kernel
  refine ⟨r, x, hr, hx, hN, ?_, ?_⟩
  · have hb : bitLen (exA.value cfg64) = 128 := by decide +kernel
    have hF : Fits cfg64 ((2 ^ 64 + 5) ^ (bitLen (exA.value cfg64) + 6)) := by
      rw [hb]
      exact lt_of_lt_of_le (show (2 ^ 64 + 5) ^ 134 < 2 ^ 8710 by decide +kernel)
        (Nat.pow_le_pow_right (by norm_num) (by decide +kernel))
    obtain ⟨y, hy, -⟩ := (C29_pow cfg64_valid hr hx exA_wf).resolve_right (fun h => h.2 hF)
    obtain ⟨k, h1, h2⟩ := C69_pow cfg64_valid hr (by norm_num) hN hx exA_wf (L := 128) (by norm_num)
      (by decide +kernel) y hy
    exact ⟨y, k, hy, h1, h2⟩
  · have hF : Fits cfg64 ((2 ^ 64 + 5) * (2 ^ 64 + 5)) :=
      lt_of_lt_of_le (show (2 ^ 64 + 5) * (2 ^ 64 + 5) < 2 ^ 130 by norm_num)
        (Nat.pow_le_pow_right (by norm_num) (by decide +kernel))
    obtain ⟨y, hy, -⟩ := (C27_mul cfg64_valid hr .ref .val hx hx).resolve_right (fun h => h.2 hF)
    obtain ⟨k, h1, h2⟩ := C69_mul cfg64_valid hr (by norm_num) hN hx hx .ref .val y hy
    exact ⟨y, k, hy, h1, h2⟩

end Ibig
