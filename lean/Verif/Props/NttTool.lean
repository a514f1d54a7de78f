import Verif.Proofs.NttTable
import Verif.Spec.Examples
import Verif.Spec.ExamplesModular
/-! # C57 (the program which found the constants of the number-theoretic transform): theorems -/
namespace Ibig

/-- C57: `is_prime(mult, order)` never panics; whatever random numbers are drawn, an answer is right; it answers
`true` as soon as a generator modulo a prime is drawn, and `false` as soon as a witness against a number that is not
prime is drawn. -/
theorem C57_is_prime {cfg : Cfg} (hv : cfg.Valid) (addr : Nat) {mult : UBig} (hm : mult.WF cfg)
    (hm1 : 1 ≤ mult.value cfg) {order : Nat} (ho1 : 1 ≤ order) (ho : order < 2 ^ cfg.U) {n : Nat}
    (hn : n = mult.value cfg * 2 ^ order + 1) (hf : Fits cfg (n ^ (bitLen n + 6))) {draw : Nat → UBig}
    (hd : ∀ i, (draw i).WF cfg ∧ 1 ≤ (draw i).value cfg ∧ (draw i).value cfg < n) (t : Nat) :
    ∃ res, isPrimeTool cfg addr mult order draw t = .ok res ∧
      (res = some true → n.Prime) ∧ (res = some false → ¬n.Prime) ∧
      (n.Prime → (∃ i < t, orderOf ((draw i).value cfg : ZMod n) = n - 1) → res = some true) ∧
      (¬n.Prime → (∃ i < t, IsWitness (mult.value cfg) order ((draw i).value cfg)) → res = some false) := by
  subst hn
  have hw : ∀ b, IsWitness (mult.value cfg) order b → MRFails (mult.value cfg * 2 ^ order + 1) (mult.value cfg) order b := by
    rintro b ⟨h1, h2⟩
    unfold MRFails mrRes
    rw [pow_zero, Nat.mul_one, Nat.add_sub_cancel]
    exact ⟨h1, h2⟩
  rcases isPrimeTool_cases hv addr hm hm1 ho1 ho hf hd t with e | ⟨e, hu⟩
  · refine ⟨_, e, fun h => ?_, fun h => ?_, fun h _ => by rw [decide_eq_true h], fun h _ => by rw [decide_eq_false h]⟩
    · exact of_decide_eq_true (Option.some.inj h)
    · exact of_decide_eq_false (Option.some.inj h)
  · refine ⟨_, e, fun h => (by cases h), fun h => (by cases h), fun hp => ?_, fun hp => ?_⟩
    · rintro ⟨i, hi, hg⟩
      exact absurd (tool_of_generator hp ho1 hm1 rfl hg) (hu i hi).2
    · rintro ⟨i, hi, hg⟩
      exact absurd (hw _ hg) (hu i hi).1

/-- C57: there always is a number whose draw ends the loop of `is_prime`. -/
theorem C57_terminates {mult order n : Nat} (hm1 : 1 ≤ mult) (ho1 : 1 ≤ order) (hn : n = mult * 2 ^ order + 1) :
    (n.Prime → ∃ b, 1 ≤ b ∧ b < n ∧ orderOf (b : ZMod n) = n - 1) ∧
    (¬n.Prime → ∃ b, 1 ≤ b ∧ b < n ∧ IsWitness mult order b) := by
  have h2o : 2 ≤ 2 ^ order := by
    calc 2 = 2 ^ 1 := rfl
      _ ≤ 2 ^ order := Nat.pow_le_pow_right (by norm_num) ho1
  have hn3 : 2 < n := by
    have := Nat.mul_le_mul hm1 h2o
    omega
  constructor
  · intro hp
    haveI : Fact n.Prime := ⟨hp⟩
    obtain ⟨g, hg⟩ := IsCyclic.exists_generator (α := (ZMod n)ˣ)
    refine ⟨(g : ZMod n).val, ?_, ZMod.val_lt _, ?_⟩
    · exact Nat.one_le_iff_ne_zero.mpr fun h0 => Units.ne_zero g ((ZMod.val_eq_zero _).mp h0)
    · rw [ZMod.natCast_zmod_val, orderOf_units, orderOf_eq_card_of_forall_mem_zpowers hg, Nat.card_eq_fintype_card,
        ZMod.card_units]
  · intro hp
    have hne : n ≠ 1 := by omega
    have hpr := Nat.minFac_prime hne
    have hdvd := Nat.minFac_dvd n
    have hlt : n.minFac < n := lt_of_le_of_ne (Nat.minFac_le (by omega)) fun h => hp (by rw [← h]; exact hpr)
    have key : ∀ e c, 0 < e → n.minFac ^ e % n = c → n.minFac ∣ c := by
      rintro e c he rfl
      rw [Nat.dvd_mod_iff hdvd]
      exact dvd_pow_self _ (by omega)
    refine ⟨n.minFac, hpr.one_lt.le, hlt, ?_⟩
    unfold IsWitness
    rw [← hn]
    constructor
    · intro h
      exact hpr.one_lt.ne' (Nat.dvd_one.mp (key mult 1 hm1 h))
    · intro j hj h
      have h1 := key (mult * 2 ^ j) (mult * 2 ^ order) (Nat.mul_pos hm1 (by positivity)) h
      have h3 : n.minFac ∣ 1 := (Nat.dvd_add_right h1).mp (by rw [← hn]; exact hdvd)
      exact hpr.one_lt.ne' (Nat.dvd_one.mp h3)

/-- C57: `find_root(p, order)` for a prime `p` of the form `k·2^order + 1` returns the least positive number `r` with
`r^(2^(order-1)) = -1`, and `r` has exactly the order `2^order`. -/
theorem C57_find_root {cfg : Cfg} (hv : cfg.Valid) (addr : Nat) {p : UBig} (hp : p.WF cfg)
    (hpr : (p.value cfg).Prime) (hp2 : 2 < p.value cfg)
    (hf : Fits cfg (p.value cfg ^ (bitLen (p.value cfg) + 6))) {order : Nat} (ho1 : 1 ≤ order)
    (hd : 2 ^ order ∣ p.value cfg - 1) :
    ∃ c, findRootTool cfg addr p order = .ok c ∧ c.WF cfg ∧ IsLeastRoot (p.value cfg) order (c.value cfg) ∧
      orderOf (c.value cfg : ZMod (p.value cfg)) = 2 ^ order := by
  obtain ⟨r, hr, hr4⟩ := exists_root hpr hp2 ho1 hd
  have hle : 2 ^ (order - 1) ≤ p.value cfg := by
    have h3 := Nat.le_of_dvd (by omega) hd
    have h4 : 2 ^ (order - 1) ≤ 2 ^ order := Nat.pow_le_pow_right (by norm_num) (by omega)
    omega
  obtain ⟨c, e, c1, c2⟩ := findRootTool_spec hv addr hp rfl hp2 hf ho1 hle hr.1 hr4 hr.2.1 hr.2.2
  refine ⟨c, e, c1, by rw [c2]; exact hr, ?_⟩
  rw [c2]
  haveI : Fact (Nat.Prime 2) := ⟨Nat.prime_two⟩
  have hneg := (pow_eq_neg_one_iff (by omega)).mpr hr.2.1
  obtain ⟨o, rfl⟩ : ∃ o, order = o + 1 := ⟨order - 1, by omega⟩
  rw [Nat.add_sub_cancel] at hneg
  refine orderOf_eq_prime_pow ?_ ?_
  · rw [hneg]
    haveI : Fact (2 < p.value cfg) := ⟨hp2⟩
    exact ZMod.neg_one_ne_one
  · rw [pow_succ, pow_mul, hneg]
    ring

theorem undecided_not {cfg : Cfg} {draw : Nat → UBig → Nat → UBig} {t bits : Nat} (h : Undecided cfg draw t bits) :
    NotDecided cfg draw t bits := by
  obtain ⟨order, mult, h1, h2, h3, h4, h5, h6⟩ := h
  refine ⟨order, mult, h1, h2, h3, h4, h5, ?_⟩
  by_cases hp : (mult.value cfg * 2 ^ order + 1).Prime
  · exact Or.inl ⟨hp, fun i hi hg => (h6 i hi).2 (tool_of_generator hp h1 (by omega) rfl hg)⟩
  · refine Or.inr ⟨hp, fun i hi hw => (h6 i hi).1 ?_⟩
    unfold MRFails mrRes
    rw [pow_zero, Nat.mul_one, Nat.add_sub_cancel]
    exact hw

/-- C57: `print_primes(bits)`, for any `bits ≤ 64` for which there are three odd primes at all, and any random numbers:
either some test is not decided yet, or `order` is the largest number for which there are three primes
`k·2^order + 1` below `2^bits`, and the program finds exactly these primes, in increasing order, with their least roots;
then it ends normally if the product of the last three is large enough, otherwise with the failed assertion. -/
theorem C57_print_primes {cfg : Cfg} (hv : cfg.Valid) (addr : Nat) {draw : Nat → UBig → Nat → UBig}
    (hd : DrawsOK cfg draw) (t : Nat) {bits : Nat} (hb : bits ≤ 64) (h3 : 3 ≤ (nttCandidates bits 1).card) :
    (printPrimes cfg addr draw t bits = .ok none ∧ NotDecided cfg draw t bits) ∨
    ∃ order, 1 ≤ order ∧ 3 ≤ (nttCandidates bits order).card ∧ (nttCandidates bits (order + 1)).card < 3 ∧
      ∃ l : List (UBig × UBig), (∀ x ∈ l, x.1.WF cfg ∧ x.2.WF cfg ∧
          IsLeastRoot (x.1.value cfg) order (x.2.value cfg)) ∧
        (l.map (·.1.value cfg)).Pairwise (· < ·) ∧
        (∀ p, p ∈ l.map (·.1.value cfg) ↔ p ∈ nttCandidates bits order) ∧
        printPrimes cfg addr draw t bits =
          if (2 ^ bits - 1) ^ 2 * 2 ^ (order - 1) + 1 ≤ ((l.map (·.1.value cfg)).drop (l.length - 3)).prod
          then .ok (some (order, l)) else .error .assertFailed := by
  have hbits : 1 ≤ bits := by
    rcases Nat.eq_zero_or_pos bits with h | h
    · subst h
      rw [nttCandidates_top 0 1 (by omega), Finset.card_empty] at h3
      omega
    · exact h
  have h0 : HoldsCandidates cfg bits bits [] :=
    ⟨by simp, by simp, fun p => by rw [nttCandidates_top bits bits (le_refl _)]; simp⟩
  unfold printPrimes
  simp only [bind, Except.bind]
  rcases orderLoop_spec hv addr hd t hb h3 bits [] hbits (le_refl _) h0
    (by rw [nttCandidates_top bits (bits + 1) (by omega), Finset.card_empty]; norm_num) with
    ⟨e, hu⟩ | ⟨order, primes, e, ho1, ho, hc, hc3, hc4⟩
  · rw [e]
    exact Or.inl ⟨rfl, undecided_not hu⟩
  · rw [e]
    simp only
    obtain ⟨sorted, es, hs1, hs2⟩ := sortUBigs_spec hv primes hc.wf
    rw [es]
    simp only
    have hwf : ∀ x ∈ sorted, x.WF cfg := fun x hx => hc.wf x (hs1.mem_iff.mp hx)
    have hpv := hs1.map (·.value cfg)
    have hmem : ∀ p, p ∈ sorted.map (·.value cfg) ↔ p ∈ nttCandidates bits order := fun p => by
      rw [hpv.mem_iff, hc.mem]
    have hin : ∀ x ∈ sorted, x.value cfg ∈ nttCandidates bits order := fun x hx =>
      (hmem _).mp (List.mem_map.mpr ⟨x, hx, rfl⟩)
    obtain ⟨l, el, hl1, hl2⟩ := rootsTool_spec hv addr hb ho1 sorted hwf hin
    rw [el]
    simp only
    have hlen : 3 ≤ sorted.length := by rw [hs1.length_eq, hc.card]; exact hc3
    have hval : l.map (·.1.value cfg) = sorted.map (·.value cfg) := by
      rw [← hl1, List.map_map]; rfl
    have hll : l.length = sorted.length := by rw [← hl1, List.length_map]
    rw [checkRangeTool_spec hv hb hbits ho1 ho hlen hwf (fun x hx => by
      obtain ⟨h5, h6, -⟩ := mem_nttCandidates.mp (hin x hx)
      exact ⟨h6.one_lt.le, lt_of_lt_of_le h5 (Nat.pow_le_pow_right (by norm_num) hb)⟩)]
    refine Or.inr ⟨order, ho1, hc3, hc4, l, ?_, ?_, ?_, ?_⟩
    · intro x hx
      obtain ⟨h5, h6⟩ := hl2 x hx
      exact ⟨hwf _ (by rw [← hl1]; exact List.mem_map.mpr ⟨x, hx, rfl⟩), h5, h6⟩
    · rw [hval]
      have hnd : (sorted.map (·.value cfg)).Nodup := hpv.nodup_iff.mpr hc.nodup
      exact (hs2.and hnd).imp (fun ⟨a, b⟩ => lt_of_le_of_ne a b)
    · rw [hval]; exact hmem
    · rw [hval, hll, pow_two]
      by_cases hr : (2 ^ bits - 1) * (2 ^ bits - 1) * 2 ^ (order - 1) + 1 ≤
          ((sorted.map (·.value cfg)).drop (sorted.length - 3)).prod
      · rw [if_pos hr, if_pos hr]
      · rw [if_neg hr, if_neg hr]

/-- C57: for the three word sizes of the crate, the program prints the `MAX_ORDER` of the crate's tables (the largest
order for which there are three primes), and the last three primes with their roots are the crate's tables; the final
assertion holds. -/
theorem C57_tables {cfg : Cfg} (hv : cfg.Valid) (addr : Nat) {draw : Nat → UBig → Nat → UBig}
    (hd : DrawsOK cfg draw) (t : Nat) {bits order : Nat} (hw : (bits, order) ∈ wordSizes) :
    (printPrimes cfg addr draw t bits = .ok none ∧ NotDecided cfg draw t bits) ∨
    ∃ l : List (UBig × UBig), printPrimes cfg addr draw t bits = .ok (some (order, l)) ∧
      (∀ p, p ∈ l.map (·.1.value cfg) ↔ p.Prime ∧ p < 2 ^ bits ∧ p % 2 ^ order = 1) ∧
      (l.drop (l.length - 3)).map (fun x => (x.1.value cfg, x.2.value cfg)) =
        (nttPrimes bits).map (fun q => (q.prime, q.root)) := by
  obtain ⟨hb1, hb2, hb3⟩ := wordSizes_bounds _ hw
  simp only at hb1 hb2 hb3
  have hthis := nttCandidates_this _ hw
  have hnext := nttCandidates_next _ hw
  simp only at hthis hnext
  rcases C57_print_primes hv addr hd t hb3
    (le_trans hthis (Finset.card_le_card (nttCandidates_anti (by omega) (le_refl 1)))) with h | h
  · exact Or.inl h
  obtain ⟨o, ho1, hc3, hc4, l, hl1, hl2, hl3, e⟩ := h
  have hoo : o = order := by
    rcases Nat.lt_trichotomy o order with h | h | h
    · have := Finset.card_le_card (nttCandidates_anti (bits := bits) (show o + 1 ≤ order by omega) (by omega))
      omega
    · exact h
    · have := Finset.card_le_card (nttCandidates_anti (bits := bits) (show order + 1 ≤ o by omega) (by omega))
      omega
  subst hoo
  have hall : l.map (·.1.value cfg) = allNttPrimes bits := by
    refine sorted_unique hl2 ?_ (fun p => by rw [hl3]; exact mem_allNttPrimes _ hw p)
    have : ∀ w ∈ wordSizes, (allNttPrimes w.1).Pairwise (· < ·) := by decide +kernel
    exact this _ hw
  have hdrop : (l.map (·.1.value cfg)).drop (l.length - 3) = (nttPrimes bits).map (·.prime) := by
    have hlen : l.length = (allNttPrimes bits).length := by rw [← hall, List.length_map]
    rw [hall, hlen]
    have : ∀ w ∈ wordSizes, (allNttPrimes w.1).drop ((allNttPrimes w.1).length - 3) = (nttPrimes w.1).map (·.prime) := by
      decide +kernel
    exact this _ hw
  have hok : (2 ^ bits - 1) ^ 2 * 2 ^ (o - 1) + 1 ≤ ((nttPrimes bits).map (·.prime)).prod := by
    have : ∀ w ∈ wordSizes, (2 ^ w.1 - 1) ^ 2 * 2 ^ (w.2 - 1) + 1 ≤ ((nttPrimes w.1).map (·.prime)).prod := by
      decide +kernel
    exact this _ hw
  rw [hdrop, if_pos hok] at e
  refine Or.inr ⟨l, e, fun p => ?_, ?_⟩
  · rw [hl3, mem_nttCandidates]
    constructor
    · rintro ⟨a, b, c⟩; exact ⟨b, a, c⟩
    · rintro ⟨a, b, c⟩; exact ⟨b, a, c⟩
  · rw [← List.map_drop] at hdrop
    have hroots : ∀ x ∈ l.drop (l.length - 3), IsLeastRoot (x.1.value cfg) o (x.2.value cfg) := fun x hx =>
      (hl1 x (List.mem_of_mem_drop hx)).2.2
    have htab := nttPrimes_root _ hw
    simp only at htab
    generalize l.drop (l.length - 3) = m at hdrop hroots
    generalize nttPrimes bits = q at hdrop htab
    clear e hok
    induction m generalizing q with
    | nil =>
      cases q with
      | nil => rfl
      | cons a q => cases hdrop
    | cons x m ih =>
      cases q with
      | nil => cases hdrop
      | cons a q =>
        rw [List.map_cons, List.map_cons, List.cons.injEq] at hdrop
        rw [List.map_cons, List.map_cons]
        have h1 := hroots x (by simp)
        have h2 := htab a (by simp)
        rw [hdrop.1] at h1
        rw [hdrop.1, h1.unique h2]
        congr 1
        exact ih (fun y hy => hroots y (by simp [hy])) q hdrop.2 (fun y hy => htab y (by simp [hy]))

/-- Draws that go through all numbers in the range. -/
def exDraw (order : Nat) (mult : UBig) (i : Nat) : UBig :=
  match mult with
  | .small w => .small (i % min (w * 2 ^ order) (2 ^ 16 - 1) + 1)
  | .large _ => .small 1

theorem exDraw_ok : DrawsOK cfg16 exDraw := by
  intro order mult i hm h1
  cases mult with
  | small w =>
    have h1 : 1 ≤ w := h1
    have hp : 1 ≤ w * 2 ^ order := Nat.mul_pos h1 (by positivity)
    have hm := Nat.mod_lt i (show 0 < min (w * 2 ^ order) (2 ^ 16 - 1) by omega)
    refine ⟨wf_small ?_, ?_, ?_⟩
    · show i % min (w * 2 ^ order) (2 ^ 16 - 1) + 1 < 2 ^ 16
      omega
    · show 1 ≤ i % min (w * 2 ^ order) (2 ^ 16 - 1) + 1
      omega
    · show i % min (w * 2 ^ order) (2 ^ 16 - 1) + 1 < w * 2 ^ order + 1
      omega
  | large b =>
    refine ⟨wf_small (by decide), le_refl 1, ?_⟩
    show 1 < (UBig.large b).value cfg16 * 2 ^ order + 1
    have : 1 ≤ (UBig.large b).value cfg16 * 2 ^ order := Nat.mul_pos h1 (by positivity)
    omega

/-- The table of 16-bit words, computed on the 16-bit build. -/
example := C57_print_primes cfg16_valid 0 exDraw_ok 20 (bits := 16) (by decide)
  (le_trans (nttCandidates_this (16, 12) (by decide))
    (Finset.card_le_card (nttCandidates_anti (show 1 ≤ 12 by decide) (le_refl 1))))
example := C57_tables cfg16_valid 0 exDraw_ok 20 (bits := 16) (order := 12) (by decide)
/-- 13 is a prime and 15 is not. -/
example := C57_is_prime cfg64_valid 0 (mult := .small 3) (wf_small (by decide)) (by decide) (order := 2) (by decide)
  (by decide) (n := 13) (by decide) (fitsEx 64 (by decide +kernel) (by decide)) (draw := fun i => .small (i % 12 + 1))
  (fun i => by
    have := Nat.mod_lt i (show 0 < 12 by decide)
    exact ⟨wf_small (show i % 12 + 1 < 2 ^ 64 by omega), show 1 ≤ i % 12 + 1 by omega, show i % 12 + 1 < 13 by omega⟩) 10
example := (C57_terminates (mult := 7) (order := 1) (n := 15) (by decide) (by decide) (by decide)).2 (by decide)
example := C57_find_root cfg64_valid 0 (p := .small 13) (wf_small (by decide))
  (show Nat.Prime 13 by decide) (by decide) (fitsEx 64 (by decide +kernel) (by decide)) (order := 2) (by decide) (by decide)

example : isPrimeTool cfg64 0 (.small 3) 2 (fun i => .small (i + 2)) 1 = .ok (some true) := by decide +kernel
example : isPrimeTool cfg16 0 (.small 7) 1 (fun i => .small (i + 2)) 1 = .ok (some false) := by decide +kernel
example : findRootTool cfg64 0 (.small 13) 2 = .ok (.small 5) := by decide +kernel
/-- The primes 5, 13, 17 and 29, with the order 2. -/
example : printPrimes cfg64 0 exDraw 10 5 = .ok (some (2, [(.small 5, .small 2), (.small 13, .small 5),
    (.small 17, .small 4), (.small 29, .small 12)])) := by decide +kernel
/-- The table of 16-bit words. -/
example : printPrimes cfg16 0 exDraw 20 16 = .ok (some (12, [(.small 0x3001, .small 0x29), (.small 0xa001, .small 0x1c),
    (.small 0xf001, .small 0x13)])) := by decide +kernel

end Ibig
