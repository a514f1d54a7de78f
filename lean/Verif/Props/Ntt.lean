import Verif.Proofs.Ntt
import Verif.Spec.Examples
/-! # C47 (the tables of the number-theoretic transform): theorems

`wordSizes` lists the word sizes with the `MAX_ORDER` of each.  All the tables are finite constants of the source,
which the proofs check completely. -/
namespace Ibig

/-- The residue modulo the `j`-th prime of entry `i` of a table. -/
def nttEntry (W : Nat) (fields : List RingSmall) (table : List (List Nat)) (i j : Nat) : Option Nat :=
  match fields[j]?, table[i]? with
  | some f, some e =>
    match e[j]? with
    | some v => (f.residue W v).toOption
    | none => none
  | _, _ => none

/-- The claims of `C47_tables` in a form that can be evaluated. -/
def nttCheck (W order : Nat) (fields : List RingSmall) (roots inverse : List (List Nat)) : Bool :=
  decide (roots.length = order + 1) && decide (inverse.length = order + 1) &&
  (List.range 3).all fun j =>
    match (nttPrimes W)[j]? with
    | none => false
    | some q =>
      nttEntry W fields roots 0 j == some 1 && nttEntry W fields roots 1 j == some (q.prime - 1) &&
      ((List.range order).all fun i =>
        match nttEntry W fields roots i j, nttEntry W fields roots (i + 1) j with
        | some x, some y => x == y * y % q.prime
        | _, _ => false) &&
      (List.range (order + 1)).all fun i =>
        match nttEntry W fields roots i j, nttEntry W fields inverse i j with
        | some x, some y => x * y % q.prime == 1
        | _, _ => false

/-- All tables of one word size, checked. -/
def nttCheckAll (W order : Nat) : Bool :=
  match nttFields W, nttRoots W order, nttInverseRoots W order with
  | .ok f, .ok t, .ok u => nttCheck W order f t u
  | _, _, _ => false

theorem nttPrimes_prime : ∀ w ∈ wordSizes, ∀ q ∈ nttPrimes w.1, q.prime.Prime := by
  intro w hw q hq
  simp only [wordSizes, List.mem_cons, List.not_mem_nil, or_false] at hw
  rcases hw with rfl | rfl | rfl <;> simp [nttPrimes] at hq <;> rcases hq with rfl | rfl | rfl
  · exact prime_of_check (a := 11) (m := 12) (k := 3) (by decide +kernel)
  · exact prime_of_check (a := 3) (m := 12) (k := 10) (by decide +kernel)
  · exact prime_of_check (a := 17) (m := 12) (k := 15) (by decide +kernel)
  · exact prime_of_check (a := 5) (m := 27) (k := 24) (by decide +kernel)
  · exact prime_of_check (a := 3) (m := 27) (k := 26) (by decide +kernel)
  · exact prime_of_check (a := 3) (m := 27) (k := 29) (by decide +kernel)
  · exact prime_of_check (a := 3) (m := 57) (k := 95) (by decide +kernel)
  · exact prime_of_check (a := 5) (m := 57) (k := 108) (by decide +kernel)
  · exact prime_of_check (a := 7) (m := 57) (k := 123) (by decide +kernel)

theorem nttCheckAll_true : ∀ w ∈ wordSizes, nttCheckAll w.1 w.2 = true := by decide +kernel

/-- C47: for each word size there are three different primes, each of the form `k·2^MAX_ORDER + 1`, which fit
into a word. -/
theorem C47_primes : ∀ w ∈ wordSizes, (nttPrimes w.1).length = 3 ∧ (nttPrimes w.1).Nodup ∧
    ∀ q ∈ nttPrimes w.1, q.prime.Prime ∧ q.prime % 2 ^ w.2 = 1 ∧ q.prime < 2 ^ w.1 := by
  intro w hw
  have h : (nttPrimes w.1).length = 3 ∧ (nttPrimes w.1).Nodup ∧
      ∀ q ∈ nttPrimes w.1, q.prime % 2 ^ w.2 = 1 ∧ q.prime < 2 ^ w.1 := by
    have : ∀ w ∈ wordSizes, (nttPrimes w.1).length = 3 ∧ (nttPrimes w.1).Nodup ∧
      ∀ q ∈ nttPrimes w.1, q.prime % 2 ^ w.2 = 1 ∧ q.prime < 2 ^ w.1 := by decide +kernel
    exact this w hw
  exact ⟨h.1, h.2.1, fun q hq => ⟨nttPrimes_prime w hw q hq, h.2.2 q hq⟩⟩

/-- C47: the tables are computed without a panic, and for each order up to `MAX_ORDER` and each prime, the entry
of the table of roots has exactly the order `2^order`, and the entry of the other table is its inverse. -/
theorem C47_tables : ∀ w ∈ wordSizes, ∃ fields roots inverse,
    nttFields w.1 = .ok fields ∧ nttRoots w.1 w.2 = .ok roots ∧ nttInverseRoots w.1 w.2 = .ok inverse ∧
    roots.length = w.2 + 1 ∧ inverse.length = w.2 + 1 ∧
    ∀ i ≤ w.2, ∀ j q, (nttPrimes w.1)[j]? = some q →
      ∃ x y, nttEntry w.1 fields roots i j = some x ∧ nttEntry w.1 fields inverse i j = some y ∧
        orderOf (x : ZMod q.prime) = 2 ^ i ∧ (x : ZMod q.prime) * (y : ZMod q.prime) = 1 := by
  intro w hw
  have hc := nttCheckAll_true w hw
  obtain ⟨h3, -, hpr⟩ := C47_primes w hw
  unfold nttCheckAll at hc
  rcases e1 : nttFields w.1 with _ | f <;> rw [e1] at hc
  · cases hc
  rcases e2 : nttRoots w.1 w.2 with _ | t <;> rw [e2] at hc
  · cases hc
  rcases e3 : nttInverseRoots w.1 w.2 with _ | u <;> rw [e3] at hc
  · cases hc
  simp only at hc
  unfold nttCheck at hc
  rw [Bool.and_eq_true, Bool.and_eq_true, decide_eq_true_eq, decide_eq_true_eq, List.all_eq_true] at hc
  obtain ⟨⟨l1, l2⟩, hall⟩ := hc
  refine ⟨f, t, u, rfl, rfl, rfl, l1, l2, ?_⟩
  intro i hi j q hq
  have hj : j < 3 := by rw [← h3]; exact (List.getElem?_eq_some_iff.mp hq).1
  have hjc := hall j (List.mem_range.mpr hj)
  rw [hq] at hjc
  simp only [Bool.and_eq_true, beq_iff_eq, List.all_eq_true, List.mem_range] at hjc
  obtain ⟨⟨⟨c0, c1⟩, csq⟩, cinv⟩ := hjc
  have hqm := List.mem_of_getElem? hq
  obtain ⟨hprime, hmod, -⟩ := hpr q hqm
  have hp2 : 2 < q.prime := by
    have h2 := hprime.two_le
    rcases Nat.lt_or_eq_of_le h2 with h | h
    · exact h
    · exfalso
      have h12 : ∀ w ∈ wordSizes, 1 ≤ w.2 := by decide
      have : 2 ^ w.2 % 2 = 0 := Nat.mod_eq_zero_of_dvd (dvd_pow_self 2 (by have := h12 w hw; omega))
      have h2d : 2 ∣ 2 ^ w.2 := Nat.dvd_of_mod_eq_zero this
      rw [← h] at hmod
      have := Nat.mod_mod_of_dvd 2 h2d
      rw [hmod] at this
      omega
  have hord := orderOf_of_squares hp2 (fun i => (nttEntry w.1 f t i j).getD 0) w.2
    (by simp only [c0]; rfl) (fun _ => by simp only [c1]; rfl)
    (by
      intro k hk
      have := csq k hk
      rcases a1 : nttEntry w.1 f t k j with _ | x <;> rw [a1] at this
      · cases this
      rcases a2 : nttEntry w.1 f t (k + 1) j with _ | y <;> rw [a2] at this
      · cases this
      simp only [beq_iff_eq] at this
      simp only [a1, a2, Option.getD_some]
      exact this) i hi
  have hin := cinv i (Nat.lt_succ_of_le hi)
  rcases a1 : nttEntry w.1 f t i j with _ | x <;> rw [a1] at hin
  · cases hin
  rcases a2 : nttEntry w.1 f u i j with _ | y <;> rw [a2] at hin
  · cases hin
  simp only [beq_iff_eq] at hin
  simp only [a1, Option.getD_some] at hord
  refine ⟨x, y, rfl, rfl, hord, ?_⟩
  rw [← Nat.cast_mul, ← Nat.cast_one, ZMod.natCast_eq_natCast_iff, Nat.ModEq, hin,
    Nat.mod_eq_of_lt (by omega)]

/-- C47: on every build, a product that fits into `MAX_LEN` words is short enough for the largest transform, and
the sums of products of words in it are below the product of the three primes (so they are determined by their
three residues). -/
theorem C47_capacity : ∀ w ∈ wordSizes, ∀ U ∈ usizeSizes,
    maxLenOf w.1 U w.2 ≤ 2 ^ w.2 ∧
    maxLenOf w.1 U w.2 * ((2 ^ w.1 - 1) * (2 ^ w.1 - 1)) < ((nttPrimes w.1).map (·.prime)).prod := by
  decide +kernel

example : (64, 57) ∈ wordSizes ∧ (nttPrimes 64)[2]? = some ⟨0xf600000000000001, 0x1ed⟩ := by decide +kernel

end Ibig
