import Verif.Proofs.NttTool
import Verif.Props.Ntt
/-! The primes that the program finds for the word sizes of the crate. -/
namespace Ibig

/-- All primes below `2^W` of the form `k·2^MAX_ORDER + 1`, in increasing order. -/
def allNttPrimes (W : Nat) : List Nat :=
  if W = 16 then [0x3001, 0xa001, 0xf001]
  else if W = 32 then [0x78000001, 0x88000001, 0xc0000001, 0xd0000001, 0xe8000001]
  else if W = 64 then [0x3a00000000000001, 0x8e00000000000001, 0x9600000000000001, 0xbe00000000000001,
    0xd800000000000001, 0xf600000000000001]
  else []

theorem allNttPrimes_prime : ∀ w ∈ wordSizes, ∀ p ∈ allNttPrimes w.1, p.Prime := by
  intro w hw p hp
  simp only [wordSizes, List.mem_cons, List.not_mem_nil, or_false] at hw
  rcases hw with rfl | rfl | rfl <;> simp [allNttPrimes] at hp
  · rcases hp with rfl | rfl | rfl
    · exact prime_of_check (a := 11) (m := 12) (k := 3) (by decide +kernel)
    · exact prime_of_check (a := 3) (m := 12) (k := 10) (by decide +kernel)
    · exact prime_of_check (a := 17) (m := 12) (k := 15) (by decide +kernel)
  · rcases hp with rfl | rfl | rfl | rfl | rfl
    · exact prime_of_check (a := 31) (m := 27) (k := 15) (by decide +kernel)
    · exact prime_of_check (a := 3) (m := 27) (k := 17) (by decide +kernel)
    · exact prime_of_check (a := 5) (m := 27) (k := 24) (by decide +kernel)
    · exact prime_of_check (a := 3) (m := 27) (k := 26) (by decide +kernel)
    · exact prime_of_check (a := 3) (m := 27) (k := 29) (by decide +kernel)
  · rcases hp with rfl | rfl | rfl | rfl | rfl | rfl
    · exact prime_of_check (a := 3) (m := 57) (k := 29) (by decide +kernel)
    · exact prime_of_check (a := 3) (m := 57) (k := 71) (by decide +kernel)
    · exact prime_of_check (a := 7) (m := 57) (k := 75) (by decide +kernel)
    · exact prime_of_check (a := 3) (m := 57) (k := 95) (by decide +kernel)
    · exact prime_of_check (a := 5) (m := 57) (k := 108) (by decide +kernel)
    · exact prime_of_check (a := 7) (m := 57) (k := 123) (by decide +kernel)

theorem fermat_three {n : Nat} (hp : n.Prime) (h3 : 3 < n) (h64 : n < 2 ^ 64) : powMod n 64 3 (n - 1) = 1 := by
  haveI : Fact n.Prime := ⟨hp⟩
  rw [powMod_eq _ _ _ _ (by omega), ← pow_eq_one_iff (by omega)]
  refine ZMod.pow_card_sub_one_eq_one ?_
  rw [Ne, ZMod.natCast_eq_zero_iff]
  exact fun hd => absurd (Nat.le_of_dvd (by omega) hd) (by omega)

theorem nttSieve : ∀ w ∈ wordSizes, ∀ k < 2 ^ (w.1 - w.2), k = 0 ∨ k * 2 ^ w.2 + 1 ∈ allNttPrimes w.1 ∨
    powMod (k * 2 ^ w.2 + 1) 64 3 (k * 2 ^ w.2 + 1 - 1) ≠ 1 := by decide +kernel

theorem wordSizes_bounds : ∀ w ∈ wordSizes, 2 ≤ w.2 ∧ w.2 < w.1 ∧ w.1 ≤ 64 := by decide

theorem mem_allNttPrimes : ∀ w ∈ wordSizes, ∀ p, p ∈ nttCandidates w.1 w.2 ↔ p ∈ allNttPrimes w.1 := by
  intro w hw p
  obtain ⟨hb1, hb2, hb3⟩ := wordSizes_bounds w hw
  constructor
  · intro hp
    obtain ⟨h1, h2, h3⟩ := mem_nttCandidates.mp hp
    have hd := Nat.div_add_mod p (2 ^ w.2)
    rw [h3, Nat.mul_comm] at hd
    have hbit : 2 ^ w.1 = 2 ^ w.2 * 2 ^ (w.1 - w.2) := by rw [← pow_add]; congr 1; omega
    have hk : p / 2 ^ w.2 < 2 ^ (w.1 - w.2) := Nat.div_lt_of_lt_mul (by rw [← hbit]; exact h1)
    have h4 : 4 ≤ 2 ^ w.2 := by
      calc 4 = 2 ^ 2 := rfl
        _ ≤ 2 ^ w.2 := Nat.pow_le_pow_right (by norm_num) hb1
    have h64 : p < 2 ^ 64 := lt_of_lt_of_le h1 (Nat.pow_le_pow_right (by norm_num) hb3)
    rcases nttSieve w hw _ hk with h | h | h
    · rw [h, Nat.zero_mul] at hd
      rw [← hd] at h2
      exact absurd h2 Nat.not_prime_one
    · rwa [hd] at h
    · rw [hd] at h
      have : p / 2 ^ w.2 ≠ 0 := by
        intro h0
        rw [h0, Nat.zero_mul] at hd
        rw [← hd] at h2
        exact absurd h2 Nat.not_prime_one
      have h5 : 2 ^ w.2 ≤ p / 2 ^ w.2 * 2 ^ w.2 := Nat.le_mul_of_pos_left _ (Nat.pos_of_ne_zero this)
      exact absurd (fermat_three h2 (by omega) h64) h
  · intro hp
    rw [mem_nttCandidates]
    have h : ∀ w ∈ wordSizes, ∀ p ∈ allNttPrimes w.1, p < 2 ^ w.1 ∧ p % 2 ^ w.2 = 1 := by decide +kernel
    exact ⟨(h w hw p hp).1, allNttPrimes_prime w hw p hp, (h w hw p hp).2⟩

theorem nttCandidates_next : ∀ w ∈ wordSizes, (nttCandidates w.1 (w.2 + 1)).card < 3 := by
  intro w hw
  obtain ⟨hb1, hb2, -⟩ := wordSizes_bounds w hw
  have hsub : nttCandidates w.1 (w.2 + 1) ⊆ ((allNttPrimes w.1).filter fun p => p % 2 ^ (w.2 + 1) = 1).toFinset := by
    intro p hp
    rw [List.mem_toFinset, List.mem_filter]
    refine ⟨(mem_allNttPrimes w hw p).mp ((nttCandidates_step (by omega) hb2).mpr (Or.inl hp)), ?_⟩
    exact decide_eq_true (mem_nttCandidates.mp hp).2.2
  refine lt_of_le_of_lt (Finset.card_le_card hsub) ?_
  have : ∀ w ∈ wordSizes, ((allNttPrimes w.1).filter fun p => p % 2 ^ (w.2 + 1) = 1).toFinset.card < 3 := by
    decide +kernel
  exact this w hw

theorem nttCandidates_this : ∀ w ∈ wordSizes, 3 ≤ (nttCandidates w.1 w.2).card := by
  intro w hw
  have hsub : (allNttPrimes w.1).toFinset ⊆ nttCandidates w.1 w.2 := by
    intro p hp
    exact (mem_allNttPrimes w hw p).mpr (List.mem_toFinset.mp hp)
  refine le_trans ?_ (Finset.card_le_card hsub)
  have : ∀ w ∈ wordSizes, 3 ≤ (allNttPrimes w.1).toFinset.card := by decide +kernel
  exact this w hw

theorem nttCandidates_anti {bits a b : Nat} (h : a ≤ b) (h1 : 1 ≤ a) : nttCandidates bits b ⊆ nttCandidates bits a := by
  intro p hp
  obtain ⟨h2, h3, h4⟩ := mem_nttCandidates.mp hp
  refine mem_nttCandidates.mpr ⟨h2, h3, ?_⟩
  have := Nat.mod_mod_of_dvd p (Nat.pow_dvd_pow 2 h)
  rw [h4, Nat.mod_eq_of_lt] at this
  · exact this.symm
  · exact Nat.one_lt_two_pow (by omega)

theorem nttRootCheck : ∀ w ∈ wordSizes, ∀ q ∈ nttPrimes w.1, 1 ≤ q.root ∧
    powMod q.prime 64 q.root (2 ^ (w.2 - 1)) = q.prime - 1 ∧
    ∀ x < q.root, x = 0 ∨ powMod q.prime 64 x (2 ^ (w.2 - 1)) ≠ q.prime - 1 := by decide +kernel

theorem nttPrimes_root : ∀ w ∈ wordSizes, ∀ q ∈ nttPrimes w.1, IsLeastRoot q.prime w.2 q.root := by
  intro w hw q hq
  obtain ⟨h1, h2, h3⟩ := nttRootCheck w hw q hq
  obtain ⟨hb1, hb2, hb3⟩ := wordSizes_bounds w hw
  have hlt : 2 ^ (w.2 - 1) < 2 ^ 64 := Nat.pow_lt_pow_right (by norm_num) (by omega)
  refine ⟨h1, ?_, fun x hx hx2 => ?_⟩
  · rw [← powMod_eq _ 64 _ _ hlt]; exact h2
  · rw [← powMod_eq _ 64 _ _ hlt]
    rcases h3 x hx2 with h | h
    · omega
    · exact h

theorem IsLeastRoot.unique {p order r s : Nat} (hr : IsLeastRoot p order r) (hs : IsLeastRoot p order s) : r = s := by
  rcases Nat.lt_trichotomy r s with h | h | h
  · exact absurd hr.2.1 (hs.2.2 r hr.1 h)
  · exact h
  · exact absurd hs.2.1 (hr.2.2 s hs.1 h)

theorem sorted_unique : ∀ {l m : List Nat}, l.Pairwise (· < ·) → m.Pairwise (· < ·) → (∀ x, x ∈ l ↔ x ∈ m) → l = m := by
  intro l m hl hm h
  have hp : l.Perm m := (List.perm_ext_iff_of_nodup (hl.imp (fun h => Nat.ne_of_lt h))
    (hm.imp (fun h => Nat.ne_of_lt h))).mpr h
  exact hp.eq_of_pairwise (fun a b _ _ h1 h2 => by omega) hl hm

end Ibig
