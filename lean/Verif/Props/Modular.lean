import Verif.Proofs.ModularPow
import Verif.Proofs.GcdLimit
import Verif.Proofs.ModularLimit
import Verif.Spec.Examples
import Verif.Spec.ExamplesModular
/-!
# Properties C27-C30: modular rings

`IsRing cfg r n`: `r` was returned by `ModuloRing::new(&n)`.
`Elem cfg r x k`: `x` is a value of the ring object `r` with residue `k` (`Spec/Modular.lean`).
-/
namespace Ibig

/-- C27: `ModuloRing::new(n)` succeeds exactly when `n ≠ 0`; `modulus()` gives back `n`. -/
theorem C27_new {cfg : Cfg} (hv : cfg.Valid) (addr : Nat) {m : UBig} (hm : m.WF cfg) :
    (m.value cfg ≠ 0 → ∃ r, Ring.new cfg addr m = .ok r ∧ r.addr = addr ∧ IsRing cfg r (m.value cfg) ∧
      ∃ c, r.modulus cfg = .ok c ∧ c.WF cfg ∧ c.value cfg = m.value cfg) ∧
    (m.value cfg = 0 → Ring.new cfg addr m = .error .divideByZero) := by
  refine ⟨fun h0 => ?_, Ring.new_zero addr hm⟩
  obtain ⟨r, e, h1, h2⟩ := Ring.new_spec hv addr hm h0
  exact ⟨r, e, h1, ⟨m, hm, rfl, by rw [h1]; exact e⟩, Ring.modulus_spec hv h2⟩

/-- C27: an element is one residue in `[0, n)`, which `residue()` returns. -/
theorem C27_residue {cfg : Cfg} (hv : cfg.Valid) {r : Ring} {n : Nat} (hr : IsRing cfg r n) {x : Modulo}
    {k : Nat} (hx : Elem cfg r x k) :
    k < n ∧ ∃ c, x.residue cfg = .ok c ∧ c.WF cfg ∧ c.value cfg = k :=
  ⟨(elem_cases (hr.ok hv) hx).1, Modulo.residue_spec hv (hr.ok hv) hx⟩

/-- The element `2^64 + 2` of the ring modulo `2^64 + 5`. -/
example := C27_residue cfg64_valid exRing2_is exEl2_is

/-- C27: `ring.from(x)` for a `UBig` is `x mod n`, for every number that the ring accepts; every other number is
rejected with "number too large".  (The crate shifts the number left first; see `Accepts`.  Only numbers within a
word of the size limit are not accepted, and none if the modulus has one word.) -/
theorem C27_from_ubig {cfg : Cfg} (hv : cfg.Valid) {r : Ring} {n : Nat} (hr : IsRing cfg r n) (o : Own)
    {x : UBig} (hx : x.WF cfg) :
    (Accepts cfg n (x.value cfg) → ∃ m, r.fromUBig cfg o x = .ok m ∧ Elem cfg r m (x.value cfg % n)) ∧
    (¬ Accepts cfg n (x.value cfg) → r.fromUBig cfg o x = .error .tooLarge) :=
  Ring.fromUBig_exact hv (hr.ok hv) o hx

/-- `2^128 - 1` modulo `2^64 + 5`. -/
example := (C27_from_ubig cfg64_valid exRing2_is .ref exA_wf).1
  (Or.inr (fitsEx 200 (by decide +kernel) (by decide)))

/-- C27: `ring.from(x)` for an `IBig` is `x mod n` in `[0, n)`, also for negative `x`, under the same
condition. -/
theorem C27_from_ibig {cfg : Cfg} (hv : cfg.Valid) {r : Ring} {n : Nat} (hr : IsRing cfg r n) (o : Own)
    {x : IBig} (hx : x.WF cfg) :
    (Accepts cfg n (x.value cfg).natAbs →
      ∃ m k, r.fromIBig cfg o x = .ok m ∧ Elem cfg r m k ∧ (k : Int) = x.value cfg % n) ∧
    (¬ Accepts cfg n (x.value cfg).natAbs → r.fromIBig cfg o x = .error .tooLarge) := by
  have hpos := (hr.ok hv).pos
  obtain ⟨h1, h2⟩ := Ring.fromIBig_exact hv (hr.ok hv) o hx
  refine ⟨fun h => ?_, h2⟩
  obtain ⟨m, e, h⟩ := h1 h
  exact ⟨m, _, e, h, Int.toNat_of_nonneg (Int.emod_nonneg _ (by omega))⟩

/-- `-(2^128 - 1)` modulo `2^64 + 5`. -/
example := (C27_from_ibig cfg64_valid exRing2_is .val exNegA_wf).1
  (Or.inr (fitsEx 200 (by decide +kernel) (by decide)))

/-- Every number at least a word below the size limit is accepted. -/
theorem C27_accepts {cfg : Cfg} (hv : cfg.Valid) (n : Nat) {x : Nat} (h : Fits cfg (x * 2 ^ cfg.W)) :
    Accepts cfg n x := accepts_of_fits hv h

/-- Every ring accepts `2^128 - 1`. -/
example (n : Nat) := C27_accepts cfg64_valid n (x := exA.value cfg64) (fitsEx 200 (by decide +kernel) (by decide))

/-- C27: `ring.from(x)` for primitive integers and `bool` never panics. -/
theorem C27_from_primitive {cfg : Cfg} (hv : cfg.Valid) {r : Ring} {n : Nat} (hr : IsRing cfg r n) {t : PTy}
    (ht : t.Valid) {z : Int} (hz : t.InRange z) :
    (∃ m k, r.fromPrim cfg t z = .ok m ∧ Elem cfg r m k ∧ (k : Int) = z % n) ∧
    ∀ b : Bool, ∃ m, r.fromBool cfg b = .ok m ∧ Elem cfg r m ((if b then 1 else 0) % n) := by
  have hpos := (hr.ok hv).pos
  refine ⟨?_, fun b => ?_⟩
  · rcases t with b | b
    · have hb : PBits b := ht
      obtain ⟨h0, h1⟩ := hz
      obtain ⟨x, e, x1, x2⟩ := UBig.fromUnsigned_ok hv hb (x := z.toNat) (by
        have : ((z.toNat : Nat) : Int) < ((2 ^ b : Nat) : Int) := by
          rw [Int.toNat_of_nonneg h0]; push_cast; exact h1
        exact_mod_cast this)
      simp only [Ring.fromPrim]
      rw [e]
      have hlt : x.value cfg ≤ 2 ^ 128 := by
        rw [x2]
        have h2 : (2 : Nat) ^ b ≤ 2 ^ 128 := Nat.pow_le_pow_right (by norm_num) hb.le
        have : ((z.toNat : Nat) : Int) < ((2 ^ b : Nat) : Int) := by
          rw [Int.toNat_of_nonneg h0]; push_cast; exact h1
        have : z.toNat < 2 ^ b := by exact_mod_cast this
        omega
      rcases Ring.fromUBig_spec hv (hr.ok hv) .val x1 with ⟨m, e, h⟩ | ⟨-, h⟩
      · refine ⟨m, _, e, h, ?_⟩
        rw [x2]; push_cast; rw [Int.toNat_of_nonneg h0]
      · exact absurd (fits_prim hv hlt) h
    · have hb : PBits b := ht
      obtain ⟨x, e, x1, x2⟩ := IBig.fromSigned_spec hv hb hz
      simp only [Ring.fromPrim]
      rw [e]
      have hlt : (x.value cfg).natAbs ≤ 2 ^ 128 := by
        rw [x2]
        obtain ⟨h0, h1⟩ := hz
        have h2 : (2 : Int) ^ (b - 1) ≤ 2 ^ 128 := pow_le_pow_right₀ (by norm_num) (by have := hb.le; omega)
        omega
      rcases Ring.fromIBig_spec hv (hr.ok hv) .val x1 with ⟨m, e, h⟩ | ⟨-, h⟩
      · refine ⟨m, _, e, h, ?_⟩
        rw [Int.toNat_of_nonneg (Int.emod_nonneg _ (by omega)), x2]
      · exact absurd (fits_prim hv hlt) h
  · obtain ⟨x, e, x1, x2⟩ := UBig.fromUnsigned_ok hv (Or.inl rfl : PBits 8) (x := b.toNat)
      (by cases b <;> simp)
    unfold Ring.fromBool UBig.fromBool
    rw [e]
    have hx2 : x.value cfg = if b then 1 else 0 := by rw [x2]; cases b <;> rfl
    rcases Ring.fromUBig_spec hv (hr.ok hv) .val x1 with ⟨m, e, h⟩ | ⟨-, h⟩
    · exact ⟨m, e, by rwa [hx2] at h⟩
    · exact absurd (fits_prim hv (by rw [hx2]; cases b <;> norm_num)) h

/-- C27: negation, addition, subtraction and comparison of elements of one ring act on the residues as
in `ℤ/n`, and never panic. `o1`, `o2` say which operands are passed by value and which by reference. -/
theorem C27_add_sub_neg_eq {cfg : Cfg} (hv : cfg.Valid) {r : Ring} {n : Nat} (hr : IsRing cfg r n)
    (o1 o2 : Own) {x y : Modulo} {j k : Nat} (hx : Elem cfg r x j) (hy : Elem cfg r y k) :
    (∃ m i, x.neg cfg.W = .ok m ∧ Elem cfg r m i ∧ (i : Int) = -(j : Int) % n) ∧
    (∃ m i, Modulo.add cfg.W o1 o2 x y = .ok m ∧ Elem cfg r m i ∧ (i : Int) = ((j : Int) + k) % n) ∧
    (∃ m i, Modulo.sub cfg.W o1 o2 x y = .ok m ∧ Elem cfg r m i ∧ (i : Int) = ((j : Int) - k) % n) ∧
    (∃ b, Modulo.eq x y = .ok b ∧ (b = true ↔ j = k)) := by
  have hok := hr.ok hv
  have hpos := hok.pos
  have hnn : ∀ z : Int, ((z % n).toNat : Int) = z % n := fun z =>
    Int.toNat_of_nonneg (Int.emod_nonneg _ (by omega))
  obtain ⟨a, ea, ha⟩ := Modulo.neg_spec hok hx
  obtain ⟨b, eb, hb⟩ := Modulo.add_spec hok o1 o2 hx hy
  obtain ⟨c, ec, hc⟩ := Modulo.sub_spec hok o1 o2 hx hy
  exact ⟨⟨a, _, ea, ha, hnn _⟩, ⟨b, _, eb, hb, hnn _⟩, ⟨c, _, ec, hc, hnn _⟩, _,
    Modulo.eq_spec hok hx hy, decide_eq_true_iff⟩

/-- `2^64 + 2` and 11 modulo `2^64 + 5`. -/
example := C27_add_sub_neg_eq cfg64_valid exRing2_is .ref .val exEl2_is exEl2'_is

/-- C27: multiplication. (For moduli so long that their square does not fit in a number, the scratch
memory may exceed the address space, which is reported as exhausted memory.) -/
theorem C27_mul {cfg : Cfg} (hv : cfg.Valid) {r : Ring} {n : Nat} (hr : IsRing cfg r n)
    (o1 o2 : Own) {x y : Modulo} {j k : Nat} (hx : Elem cfg r x j) (hy : Elem cfg r y k) :
    (∃ m, Modulo.mul cfg o1 o2 x y = .ok m ∧ Elem cfg r m (j * k % n)) ∨
    (Modulo.mul cfg o1 o2 x y = .error .outOfMemory ∧ ¬ Fits cfg (n * n)) :=
  Modulo.mul_spec hv (hr.ok hv) o1 o2 hx hy

/-- `2^64 + 2` times 11 modulo `2^64 + 5`: there is an answer. -/
example := (C27_mul cfg64_valid exRing2_is .ref .val exEl2_is exEl2'_is).resolve_right
  fun h => h.2 (fitsEx 200 (by decide +kernel) (by decide))

/-- C27: on every build with a 64-bit `usize` (and with 16-bit words and a 32-bit `usize`) the exception in `C27_mul`
does not occur: multiplication in a ring never panics. -/
theorem C27_mul_room {spare : Nat → Nat} {cfg : Cfg} (hc : cfg ∈ builds spare)
    (hU : cfg.U = 64 ∨ cfg.W = 16 ∧ cfg.U = 32) {r : Ring} {n : Nat} (hr : IsRing cfg r n) (o1 o2 : Own) {x y : Modulo}
    {j k : Nat} (hx : Elem cfg r x j) (hy : Elem cfg r y k) :
    ∃ m, Modulo.mul cfg o1 o2 x y = .ok m ∧ Elem cfg r m (j * k % n) := by
  have hv := builds_valid cfg hc
  refine (C27_mul hv hr o1 o2 hx hy).resolve_right fun h => ?_
  obtain ⟨p, hp, rfl⟩ := List.mem_map.mp hc
  have h1 := (buildSizes_room p hp).1 hU
  have h2 : RM (2 ^ (p.2.1 - 1) ≤ (6 * p.2.2 + 13 * p.2.1) * (p.1 / 8))
      (Modulo.mul ⟨p.1, p.2.1, p.2.2, spare⟩ o1 o2 x y) fun _ => True := by
    unfold Modulo.mul
    split
    · exact Modulo.mulAssign_small hv (hr.ok hv) hy hx
    · exact Modulo.mulAssign_small hv (hr.ok hv) hx hy
  rcases h2 with ⟨m, e, -⟩ | ⟨-, e⟩
  · rw [e] at h; cases h.1
  · omega

/-- `2^64 + 2` times 11 modulo `2^64 + 5`, without any condition on the sizes. -/
example := C27_mul_room cfg64_real (Or.inl rfl) exRing2_is .ref .val exEl2_is exEl2'_is

/-- C27, at the size limit: on the remaining builds the exception is real. In the ring of the largest possible number
`n`, every multiplication, even of zero by zero, panics with "out of memory". -/
theorem C27_mul_limit {spare : Nat → Nat} {cfg : Cfg} (hc : cfg ∈ builds spare)
    (hU : ¬(cfg.U = 64 ∨ cfg.W = 16 ∧ cfg.U = 32)) (addr : Nat) :
    ∃ (r : Ring) (n : Nat), IsRing cfg r n ∧ n + 1 = 2 ^ (cfg.maxLen * cfg.W) ∧ (∀ j < 2 ^ 64, ∃ x, Elem cfg r x j) ∧
      ∀ (o1 o2 : Own) (x y : Modulo) (j k : Nat), Elem cfg r x j → Elem cfg r y k →
        Modulo.mul cfg o1 o2 x y = .error .outOfMemory := by
  have hv := builds_valid cfg hc
  obtain ⟨h1, h2⟩ := UBig.max_spec hv
  have hp : 2 ^ 65 ≤ 2 ^ (cfg.maxLen * cfg.W) := by
    have hL := hv.large
    have hW := hv.W16
    exact Nat.pow_le_pow_right (by norm_num) (by nlinarith)
  obtain ⟨r, -, -, hr, -⟩ := (C27_new hv addr h1).1 (by omega)
  have hbig : 2 ^ (cfg.U - 1) ≤ 6 * cfg.maxLen * (cfg.W / 8) := by
    obtain ⟨p, hpb, rfl⟩ := List.mem_map.mp hc
    exact (buildSizes_room p hpb).2 hU
  refine ⟨r, _, hr, h2, fun j hj => ?_, fun o1 o2 x y j k hx hy => ?_⟩
  · obtain ⟨m, i, -, hm, hi⟩ := (C27_from_primitive hv hr (t := .u 64) (by simp [PTy.Valid])
      (z := j) ⟨by omega, by norm_num; omega⟩).1
    rw [← Int.natCast_mod, Nat.mod_eq_of_lt (by omega)] at hi
    exact ⟨m, by rw [show j = i by omega]; exact hm⟩
  · unfold Modulo.mul
    split
    · exact Modulo.mulAssign_big hv hbig (hr.ok hv) h2 hy hx
    · exact Modulo.mulAssign_big hv hbig (hr.ok hv) h2 hx hy

/-- On a 32-bit build and on a 16-bit build. -/
example := C27_mul_limit cfg32_real (by decide) 1000
example := C27_mul_limit cfg16_real (by decide) 1000

/-- C27, end to end, through the public functions only: for a modulus whose square fits, and integers that the ring
accepts, `(ring.from(x) * ring.from(y) + ring.from(z)).residue()` is
`(x*y + z) mod n`. -/
theorem C27_ring_expression {cfg : Cfg} (hv : cfg.Valid) (addr : Nat) {m : UBig} (hm : m.WF cfg)
    (h0 : m.value cfg ≠ 0) (hn : Fits cfg (m.value cfg * m.value cfg)) {x y z : IBig} (hx : x.WF cfg)
    (hy : y.WF cfg) (hz : z.WF cfg) (fx : Accepts cfg (m.value cfg) (x.value cfg).natAbs)
    (fy : Accepts cfg (m.value cfg) (y.value cfg).natAbs) (fz : Accepts cfg (m.value cfg) (z.value cfg).natAbs) :
    ∃ c, (do
        let r ← Ring.new cfg addr m
        let a ← r.fromIBig cfg .ref x
        let b ← r.fromIBig cfg .ref y
        let c ← r.fromIBig cfg .ref z
        let p ← Modulo.mul cfg .ref .ref a b
        let s ← Modulo.add cfg.W .val .val p c
        s.residue cfg) = .ok c ∧ c.WF cfg ∧
      (c.value cfg : Int) = (x.value cfg * y.value cfg + z.value cfg) % m.value cfg := by
  obtain ⟨r, e, -, hr, -⟩ := (C27_new hv addr hm).1 h0
  rw [e]
  simp only [bind, Except.bind]
  obtain ⟨a, j, e, ha, hj⟩ := (C27_from_ibig hv hr .ref hx).1 fx
  rw [e]
  simp only
  obtain ⟨b, k, e, hb, hk⟩ := (C27_from_ibig hv hr .ref hy).1 fy
  rw [e]
  simp only
  obtain ⟨c, l, e, hc, hl⟩ := (C27_from_ibig hv hr .ref hz).1 fz
  rw [e]
  simp only
  rcases C27_mul hv hr .ref .ref ha hb with ⟨p, e, hp⟩ | ⟨-, h⟩
  swap
  · exact absurd hn h
  rw [e]
  simp only
  obtain ⟨-, ⟨s, i, e, hs, hi⟩, -⟩ := C27_add_sub_neg_eq hv hr .val .val hp hc
  rw [e]
  simp only
  obtain ⟨-, c, e, c1, c2⟩ := C27_residue hv hr hs
  refine ⟨c, e, c1, ?_⟩
  rw [c2, hi]
  push_cast
  rw [hj, hk, hl, ← Int.mul_emod, ← Int.add_emod]

/-- `-(2^128 - 1) * (2^64 + 5) - (2^64 + 5)` modulo `2^64 + 5`. -/
example := C27_ring_expression cfg64_valid 2000 exB_wf (by decide +kernel)
  (fitsEx 200 (by decide +kernel) (by decide)) exNegA_wf exPosB_wf exNegB_wf
  (Or.inr (fitsEx 200 (by decide +kernel) (by decide))) (Or.inr (fitsEx 200 (by decide +kernel) (by decide)))
  (Or.inr (fitsEx 200 (by decide +kernel) (by decide)))

/-- C28: `inverse` returns the inverse exactly when the residue is coprime to the modulus. (It may panic
with "number too large" only if twice the modulus exceeds the size limit.) -/
theorem C28_inverse {cfg : Cfg} (hv : cfg.Valid) {r : Ring} {n : Nat} (hr : IsRing cfg r n) {x : Modulo}
    {k : Nat} (hx : Elem cfg r x k) :
    (Nat.gcd k n = 1 ∧ ∃ m i, x.inverse cfg = .ok (some m) ∧ Elem cfg r m i ∧ k * i % n = 1 % n) ∨
    (Nat.gcd k n ≠ 1 ∧ x.inverse cfg = .ok none) ∨
    (x.inverse cfg = .error .tooLarge ∧ ¬ Fits cfg (2 * n)) := by
  rcases Modulo.inverse_spec hv (hr.ok hv) hx with ⟨o, e, ⟨hg, m, i, rfl, hm, hi⟩ | ⟨hg, rfl⟩⟩ | h
  · exact Or.inl ⟨hg, m, i, e, hm, hi⟩
  · exact Or.inr (Or.inl ⟨hg, e⟩)
  · exact Or.inr (Or.inr h)

/-- 11 modulo `2^64 + 5` has an inverse. -/
example : ∃ m i, exEl2'.inverse cfg64 = .ok (some m) ∧ Elem cfg64 exRing2 m i ∧ 11 * i % (2 ^ 64 + 5) = 1 := by
  rcases C28_inverse cfg64_valid exRing2_is exEl2'_is with h | h | h
  · exact h.2
  · exact absurd (by decide +kernel) h.1
  · exact absurd (fitsEx 200 (by decide +kernel) (by decide)) h.2

/-- C28, at the size limit: the exception is real. With the largest possible number as the modulus `n`, the element
`n - 1`, which is its own inverse, cannot be inverted: `inverse` panics with "number too large". -/
theorem C28_size_limit {cfg : Cfg} (hv : cfg.Valid) (addr : Nat) :
    ∃ (r : Ring) (n : Nat) (x : Modulo), IsRing cfg r n ∧ Elem cfg r x (n - 1) ∧ (n - 1) * (n - 1) % n = 1 % n ∧
      x.inverse cfg = .error .tooLarge := by
  obtain ⟨h1, h2⟩ := UBig.max_spec hv
  have h3 : cfg.W + 1 ≤ cfg.maxLen * cfg.W := by
    have := hv.large
    have := hv.W16
    nlinarith
  have h4 : 2 ^ (cfg.W + 1) ≤ 2 ^ (cfg.maxLen * cfg.W) := Nat.pow_le_pow_right (by norm_num) h3
  have h5 : 2 ≤ 2 ^ cfg.W := by
    calc 2 = 2 ^ 1 := rfl
      _ ≤ _ := Nat.pow_le_pow_right (by norm_num) hv.W1
  rw [pow_succ] at h4
  obtain ⟨r, -, -, hr, -⟩ := (C27_new hv addr h1).1 (by omega)
  obtain ⟨m, k, -, hm, hk⟩ := (C27_from_primitive hv hr (t := .i 8) (Or.inl rfl) (z := -1) (by constructor <;> norm_num)).1
  generalize hn : (UBig.max cfg).value cfg = n at *
  have hk' : k = n - 1 := by
    have h6 : (-1 : Int) % n = n - 1 := by
      rw [show (-1 : Int) = ((n : Int) - 1) + n * (-1) by ring, Int.add_mul_emod_self_left,
        Int.emod_eq_of_lt (by omega) (by omega)]
    omega
  subst hk'
  refine ⟨r, n, m, hr, hm, ?_, ?_⟩
  · obtain ⟨c, rfl⟩ : ∃ c, n = c + 2 := ⟨n - 2, by omega⟩
    rw [show c + 2 - 1 = c + 1 by omega, show (c + 1) * (c + 1) = 1 + (c + 2) * c by ring, Nat.add_mul_mod_self_left]
  · obtain ⟨hlt, ⟨s, e1, e2, rfl⟩ | ⟨l, v, e1, e2, rfl, e3⟩⟩ := elem_cases (hr.ok hv) hm
    · have h6 := e2.lt
      have h7 := Nat.le_mul_of_pos_right n (Nat.two_pow_pos s.shift)
      rw [← e2.eq] at h7
      rw [base_eq] at h6
      omega
    · refine bind_error_eq ?_
      unfold ModLarge.inverse ModLarge.residue RingLarge.getModulus
      refine (unshift_spec hv e3.words (e3.len.trans_le e2.len) e2.shift e3.eq).bind_error ?_
      rintro ua ⟨a1, a2⟩
      refine (unshift_spec hv e2.words e2.len e2.shift e2.eq).bind_error ?_
      rintro ub ⟨b1, b2⟩
      exact bind_error_eq (UBig.extendedGcd_limit hv a1 b1 (by omega) (by omega))

/-- On a 64-bit build. -/
example := C28_size_limit cfg64_valid 1000

/-- C28: `a / b` is the unique `c` with `c * b = a` when `b` is invertible, and panics otherwise. -/
theorem C28_div {cfg : Cfg} (hv : cfg.Valid) {r : Ring} {n : Nat} (hr : IsRing cfg r n) {x y : Modulo}
    {j k : Nat} (hx : Elem cfg r x j) (hy : Elem cfg r y k) :
    (Nat.gcd k n = 1 → (∃ m c, Modulo.div cfg x y = .ok m ∧ Elem cfg r m c ∧ c * k % n = j ∧
        ∀ d, d < n → d * k % n = j → d = c) ∨
      (Modulo.div cfg x y = .error .tooLarge ∧ ¬ Fits cfg (2 * n)) ∨
      (Modulo.div cfg x y = .error .outOfMemory ∧ ¬ Fits cfg (n * n))) ∧
    (Nat.gcd k n ≠ 1 → Modulo.div cfg x y = .error .notInvertible ∨
      (Modulo.div cfg x y = .error .tooLarge ∧ ¬ Fits cfg (2 * n))) :=
  Modulo.div_spec hv (hr.ok hv) hx hy

/-- `2^64 + 2` divided by 11 modulo `2^64 + 5`. -/
example := ((C28_div cfg64_valid exRing2_is exEl2_is exEl2'_is).1 (by decide +kernel)).resolve_right
  fun h => h.elim (fun h => h.2 (fitsEx 200 (by decide +kernel) (by decide)))
    fun h => h.2 (fitsEx 200 (by decide +kernel) (by decide))

/-- C29: `pow` is the power in the ring, for every exponent. (The table of powers and the scratch
memory can exceed the address space only if the modulus raised to six more than the length of the exponent
in bits does not fit in a number.) -/
theorem C29_pow {cfg : Cfg} (hv : cfg.Valid) {r : Ring} {n : Nat} (hr : IsRing cfg r n) {x : Modulo}
    {k : Nat} (hx : Elem cfg r x k) {e : UBig} (he : e.WF cfg) :
    (∃ m, x.pow cfg e = .ok m ∧ Elem cfg r m (k ^ e.value cfg % n)) ∨
    (x.pow cfg e = .error .outOfMemory ∧ ¬ Fits cfg (n ^ (bitLen (e.value cfg) + 6))) :=
  Modulo.pow_spec hv (hr.ok hv) hx he

/-- `(2^64 + 2)^(2^64 + 5)` modulo `2^64 + 5`: there is an answer. -/
example := (C29_pow cfg64_valid exRing2_is exEl2_is exB_wf).resolve_right
  fun h => h.2 (fitsEx 5000 (by decide +kernel) (by decide))

/-- C29: `pow_signed`: for `e ≥ 0` it is the power; for `e < 0` it is the inverse of the power `|e|`, and
it panics when the element is not invertible. -/
theorem C29_pow_signed {cfg : Cfg} (hv : cfg.Valid) {r : Ring} {n : Nat} (hr : IsRing cfg r n) {x : Modulo}
    {k : Nat} (hx : Elem cfg r x k) {e : IBig} (he : e.WF cfg) :
    (0 ≤ e.value cfg → (∃ m, x.powSigned cfg e = .ok m ∧ Elem cfg r m (k ^ (e.value cfg).toNat % n)) ∨
      (x.powSigned cfg e = .error .outOfMemory ∧ ¬ Fits cfg (n ^ (bitLen (e.value cfg).natAbs + 6)))) ∧
    (e.value cfg < 0 → Nat.gcd k n = 1 →
      (∃ m c, x.powSigned cfg e = .ok m ∧ Elem cfg r m c ∧ c * k ^ (e.value cfg).natAbs % n = 1 % n) ∨
      (x.powSigned cfg e = .error .tooLarge ∧ ¬ Fits cfg (2 * n)) ∨
      (x.powSigned cfg e = .error .outOfMemory ∧ ¬ Fits cfg (n ^ (bitLen (e.value cfg).natAbs + 6)))) ∧
    (e.value cfg < 0 → Nat.gcd k n ≠ 1 → x.powSigned cfg e = .error .notInvertible ∨
      (x.powSigned cfg e = .error .tooLarge ∧ ¬ Fits cfg (2 * n))) := by
  have hna := IBig.natAbs_value (cfg := cfg) e
  have hsg := IBig.value_nonneg_iff he
  unfold Modulo.powSigned
  refine ⟨fun h0 => ?_, fun h0 hg => ?_, fun h0 hg => ?_⟩
  · rw [hsg.mpr h0]
    have e1 : (e.value cfg).toNat = e.mag.value cfg := by omega
    rw [e1, hna]
    exact Modulo.pow_spec hv (hr.ok hv) hx he.mag
  · have hs : e.sign = .neg := by
      cases hc : e.sign
      · have := hsg.mp hc; omega
      · rfl
    rw [hs]
    simp only
    rcases C28_inverse hv hr hx with ⟨-, i, l, e1, hi, hl⟩ | ⟨h, -⟩ | ⟨e1, hq⟩
    · rw [e1]
      simp only [bind, Except.bind]
      rw [hna]
      rcases Modulo.pow_spec hv (hr.ok hv) hi he.mag with ⟨m, e2, hm⟩ | h
      · refine Or.inl ⟨m, _, e2, hm, ?_⟩
        rw [Nat.mod_mul_mod, ← mul_pow, Nat.mul_comm, Nat.pow_mod, hl, ← Nat.pow_mod, one_pow]
      · exact Or.inr (Or.inr h)
    · exact absurd hg h
    · rw [e1]; exact Or.inr (Or.inl ⟨rfl, hq⟩)
  · have hs : e.sign = .neg := by
      cases hc : e.sign
      · have := hsg.mp hc; omega
      · rfl
    rw [hs]
    simp only
    rcases C28_inverse hv hr hx with ⟨h, -⟩ | ⟨-, e1⟩ | ⟨e1, hq⟩
    · exact absurd h hg
    · rw [e1]; exact Or.inl rfl
    · rw [e1]; exact Or.inr ⟨rfl, hq⟩

/-- `11^(-(2^64 + 5))` modulo `2^64 + 5`. -/
example := ((C29_pow_signed cfg64_valid exRing2_is exEl2'_is exNegB_wf).2.1 (by decide +kernel)
  (by decide +kernel)).resolve_right
  fun h => h.elim (fun h => h.2 (fitsEx 200 (by decide +kernel) (by decide)))
    fun h => h.2 (fitsEx 5000 (by decide +kernel) (by decide))

/-- C30: combining or comparing elements of two different ring objects panics, even if the moduli are
equal. (Division computes the inverse of the divisor first, so it may panic for that reason instead.) -/
theorem C30_different_rings {cfg : Cfg} (hv : cfg.Valid) {r s : Ring} {n n' : Nat} (hr : IsRing cfg r n)
    (hs : IsRing cfg s n') (hne : r.addr ≠ s.addr) {x y : Modulo} {j k : Nat} (hx : Elem cfg r x j)
    (hy : Elem cfg s y k) (o1 o2 : Own) :
    Modulo.add cfg.W o1 o2 x y = .error .differentRings ∧
    Modulo.sub cfg.W o1 o2 x y = .error .differentRings ∧
    Modulo.mul cfg o1 o2 x y = .error .differentRings ∧
    Modulo.eq x y = .error .differentRings ∧
    (∃ p, Modulo.div cfg x y = .error p) ∧
    (Nat.gcd k n' = 1 → Fits cfg (2 * n') → Modulo.div cfg x y = .error .differentRings) := by
  have c1 : checkSameRing r.addr s.addr = .error .differentRings := if_neg hne
  have c2 : checkSameRing s.addr r.addr = .error .differentRings := if_neg (Ne.symm hne)
  have hmul : ∀ (o1 o2 : Own) {y : Modulo} {k : Nat}, Elem cfg s y k →
      Modulo.mul cfg o1 o2 x y = .error .differentRings := by
    intro o1 o2 y k hy
    obtain ⟨-, ⟨a, -, -, rfl⟩ | ⟨l, v, -, -, rfl, -⟩⟩ := elem_cases (hr.ok hv) hx <;>
      obtain ⟨-, ⟨a', -, -, rfl⟩ | ⟨l', v', -, -, rfl, -⟩⟩ := elem_cases (hs.ok hv) hy <;>
      cases o1 <;> cases o2 <;> simp [Modulo.mul, Modulo.mulAssign, c1, c2, bind, Except.bind]
  refine ⟨?_, ?_, hmul o1 o2 hy, ?_, ?_, ?_⟩
  · obtain ⟨-, ⟨a, -, -, rfl⟩ | ⟨l, v, -, -, rfl, -⟩⟩ := elem_cases (hr.ok hv) hx <;>
      obtain ⟨-, ⟨a', -, -, rfl⟩ | ⟨l', v', -, -, rfl, -⟩⟩ := elem_cases (hs.ok hv) hy <;>
      cases o1 <;> cases o2 <;> simp [Modulo.add, Modulo.addAssign, c1, c2, bind, Except.bind]
  · obtain ⟨-, ⟨a, -, -, rfl⟩ | ⟨l, v, -, -, rfl, -⟩⟩ := elem_cases (hr.ok hv) hx <;>
      obtain ⟨-, ⟨a', -, -, rfl⟩ | ⟨l', v', -, -, rfl, -⟩⟩ := elem_cases (hs.ok hv) hy <;>
      cases o1 <;> cases o2 <;>
      simp [Modulo.sub, Modulo.subAssign, Modulo.subSwap, c1, bind, Except.bind]
  · obtain ⟨-, ⟨a, -, -, rfl⟩ | ⟨l, v, -, -, rfl, -⟩⟩ := elem_cases (hr.ok hv) hx <;>
      obtain ⟨-, ⟨a', -, -, rfl⟩ | ⟨l', v', -, -, rfl, -⟩⟩ := elem_cases (hs.ok hv) hy <;>
      simp [Modulo.eq, c1, bind, Except.bind]
  · unfold Modulo.div
    rcases C28_inverse hv hs hy with ⟨-, m, i, e, hm, -⟩ | ⟨-, e⟩ | ⟨e, -⟩
    · rw [e]; exact ⟨_, hmul .ref .val hm⟩
    · rw [e]; exact ⟨_, rfl⟩
    · rw [e]; exact ⟨_, rfl⟩
  · intro hg hf
    unfold Modulo.div
    rcases C28_inverse hv hs hy with ⟨-, m, i, e, hm, -⟩ | ⟨h, -⟩ | ⟨-, h⟩
    · rw [e]; exact hmul .ref .val hm
    · exact absurd hg h
    · exact absurd hf h

/-- Elements of the rings modulo `2^64 + 5` and modulo 10007. -/
example := C30_different_rings cfg64_valid exRing2_is exRing1_is (by decide) exEl2_is exEl1_is .ref .val

/-- C30: within one ring object no operation reports different rings. -/
theorem C30_same_ring {cfg : Cfg} (hv : cfg.Valid) {r : Ring} {n : Nat} (hr : IsRing cfg r n)
    {x y : Modulo} {j k : Nat} (hx : Elem cfg r x j) (hy : Elem cfg r y k) (o1 o2 : Own) :
    (∃ m, Modulo.add cfg.W o1 o2 x y = .ok m) ∧
    (∃ m, Modulo.sub cfg.W o1 o2 x y = .ok m) ∧
    (∃ b, Modulo.eq x y = .ok b) ∧
    Modulo.mul cfg o1 o2 x y ≠ .error .differentRings ∧
    (Fits cfg (n * n) → ∃ m, Modulo.mul cfg o1 o2 x y = .ok m) ∧
    Modulo.div cfg x y ≠ .error .differentRings := by
  obtain ⟨-, ⟨a, i, ea, -⟩, ⟨b, i', eb, -⟩, ⟨c, ec, -⟩⟩ := C27_add_sub_neg_eq hv hr o1 o2 hx hy
  refine ⟨⟨a, ea⟩, ⟨b, eb⟩, ⟨c, ec⟩, ?_, ?_, ?_⟩
  · rcases C27_mul hv hr o1 o2 hx hy with ⟨m, e, -⟩ | ⟨e, -⟩ <;> rw [e] <;> simp
  · intro hf
    rcases C27_mul hv hr o1 o2 hx hy with ⟨m, e, -⟩ | ⟨-, h⟩
    · exact ⟨m, e⟩
    · exact absurd hf h
  · obtain ⟨h1, h2⟩ := C28_div hv hr hx hy
    by_cases hg : Nat.gcd k n = 1
    · rcases h1 hg with ⟨m, c, e, -⟩ | ⟨e, -⟩ | ⟨e, -⟩ <;> rw [e] <;> simp
    · rcases h2 hg with e | ⟨e, -⟩ <;> rw [e] <;> simp

/-- Two elements of the ring modulo `2^64 + 5`. -/
example := C30_same_ring cfg64_valid exRing2_is exEl2_is exEl2'_is .ref .val

/-- C35: `clone` and `clone_from` (whatever the destination held, of this or another ring) of an element give the
same element of the same ring. -/
theorem C35_modulo_clone {cfg : Cfg} {r : Ring} {x : Modulo} {k : Nat} (hx : Elem cfg r x k) :
    Elem cfg r x.clone k ∧ ∀ dst : Modulo, ∃ m, dst.cloneFrom x = .ok m ∧ Elem cfg r m k := by
  have hc : x.clone = x := by cases x <;> rfl
  rw [hc]
  refine ⟨hx, fun dst => ⟨x, ?_, hx⟩⟩
  unfold Modulo.cloneFrom
  split
  · rename_i d s
    unfold ModLarge.cloneFrom copyFromSlice
    split
    · rename_i hl
      rw [assertR_true hl]
      rfl
    · rfl
  · rw [hc]

/-- A two-word element over a one-word element. -/
example := (C35_modulo_clone exEl2_is).2 exEl1

/-- A ring on a 64-bit build, with a one-word modulus. -/
def exRing : R Ring := Ring.new cfg64 1000 (.small 10007)
/-- A ring with the two-word modulus `2^64 + 5`. -/
def exRingLarge : R Ring := Ring.new cfg64 2000 exB

/-- The hypotheses are met: both objects are rings, and have elements. -/
example : (∃ r, exRing = .ok r ∧ IsRing cfg64 r 10007 ∧ ∃ x, Elem cfg64 r x 5) ∧
    (∃ r, exRingLarge = .ok r ∧ IsRing cfg64 r (2 ^ 64 + 5) ∧ ∃ x, Elem cfg64 r x 7) := by
  constructor
  · obtain ⟨r, e, -, hr, -⟩ := (C27_new cfg64_valid 1000 (m := .small 10007)
      (show 10007 < base 64 by decide +kernel)).1 (by decide)
    refine ⟨r, e, hr, ?_⟩
    obtain ⟨m, k, -, h2, h3⟩ := (C27_from_primitive cfg64_valid hr (t := .u 8) (Or.inl rfl) (z := 5)
      (by norm_num [PTy.InRange])).1
    have : k = 5 := by
      rw [show (UBig.small 10007).value cfg64 = 10007 from rfl] at h3
      omega
    exact ⟨m, this ▸ h2⟩
  · obtain ⟨r, e, -, hr, -⟩ := (C27_new cfg64_valid 2000 exB_wf).1 (by decide +kernel)
    have hval : exB.value cfg64 = 2 ^ 64 + 5 := by decide +kernel
    rw [hval] at hr
    refine ⟨r, e, hr, ?_⟩
    obtain ⟨m, k, -, h2, h3⟩ := (C27_from_primitive cfg64_valid hr (t := .u 8) (Or.inl rfl) (z := 7)
      (by norm_num [PTy.InRange])).1
    have : k = 7 := by omega
    exact ⟨m, this ▸ h2⟩

/-- With a modulus of more than one word, the largest number of all is not accepted. -/
theorem ex_not_accepted {cfg : Cfg} (hW : cfg.W = 64) (hb : 1 ≤ cfg.maxLen * cfg.W) :
    ¬ Accepts cfg (2 ^ 64) (2 ^ (cfg.maxLen * cfg.W) - 1) := by
  have hs : spareBits cfg.W (2 ^ 64) = 63 := by
    rw [hW]
    unfold spareBits
    rw [Nat.size_pow]
  obtain ⟨k, hk⟩ : ∃ k, cfg.maxLen * cfg.W = k + 1 := ⟨cfg.maxLen * cfg.W - 1, by omega⟩
  have h1 := Nat.two_pow_pos k
  rintro (h | h)
  · rw [hW] at h; omega
  · rw [hs, Fits, hk, pow_succ] at h
    omega

example : ¬ Accepts cfg64 (2 ^ 64) (2 ^ (cfg64.maxLen * cfg64.W) - 1) :=
  ex_not_accepted rfl (by decide +kernel)

/-- `clone_from` between elements of rings of different sizes. -/
example : (do let r ← exRing; let s ← exRingLarge; let a ← r.fromPrim cfg64 (.u 8) 5
              let b ← s.fromPrim cfg64 (.u 8) 7; let c ← Modulo.cloneFrom a b; c.residue cfg64)
    = .ok (.small 7) := by decide +kernel

/-- `5 - (2^128 - 1)` and `5 * (2^128 - 1)` modulo 10007; `(-5)^(2^128 - 1)` and `5⁻¹` modulo `2^64 + 5`;
equality across rings. -/
example :
    (do let r ← exRing; let a ← r.fromPrim cfg64 (.u 8) 5; let b ← r.fromUBig cfg64 .ref exA
        let c ← Modulo.sub cfg64.W .val .val a b; c.residue cfg64) = .ok (.small 5296) ∧
    (do let r ← exRing; let a ← r.fromPrim cfg64 (.u 8) 5; let b ← r.fromUBig cfg64 .ref exA
        let c ← Modulo.mul cfg64 .val .val a b; c.residue cfg64) = .ok (.small 3566) ∧
    (do let r ← exRingLarge; let a ← r.fromPrim cfg64 (.i 8) (-5); let c ← a.pow cfg64 exA
        c.residue cfg64) = .ok (.small 10179151949964000151) ∧
    (do let r ← exRingLarge; let a ← r.fromPrim cfg64 (.u 8) 5; let i ← a.inverse cfg64
        (i.map (Modulo.residue cfg64)).getD (.error .unwrap)) = .ok (UBig.small 14757395258967641297) ∧
    (do let r ← exRing; let s ← exRingLarge; let a ← r.fromPrim cfg64 (.u 8) 5
        let b ← s.fromPrim cfg64 (.u 8) 5; Modulo.eq a b) = .error .differentRings := by decide +kernel

end Ibig
