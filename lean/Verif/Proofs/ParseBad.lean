import Verif.Proofs.ParseEntry
import Verif.Spec.ParseLimit
/-! Parsing texts with a character that is not a digit: exactly which of them make it panic. -/
namespace Ibig

/-- The outcome for a text with an invalid digit: a panic if `Q`, otherwise the error. -/
def Rejects {α : Type} (Q : Prop) (x : R (PRes α)) : Prop :=
  (Q → x = .error .tooLarge) ∧ (¬Q → x = .ok (.error .invalidDigit))

theorem Rejects.bindR {α γ : Type} {Q : Prop} {x : R γ} {f : γ → R (PRes α)} {P : γ → Prop}
    (hx : Returns x P) (hf : ∀ a, P a → Rejects Q (f a)) : Rejects Q (x >>= f) := by
  obtain ⟨a, rfl, ha⟩ := hx
  exact hf a ha

theorem rejects_error {α : Type} {Q : Prop} (h : Q) : Rejects Q (.error .tooLarge : R (PRes α)) :=
  ⟨fun _ => rfl, fun h' => absurd h h'⟩

theorem rejects_of {α : Type} {Q : Prop} {x : R (PRes α)} (h : ¬Q) (hx : x = .ok (.error .invalidDigit)) :
    Rejects Q x := ⟨fun h' => absurd h' h, fun _ => hx⟩

theorem Rejects.tryP {α β : Type} {Q : Prop} {x : R (PRes α)} (h : Rejects Q x) (f : α → R (PRes β)) :
    Rejects Q (tryP x f) := ⟨fun hq => by rw [h.1 hq]; rfl, fun hq => by rw [h.2 hq]; rfl⟩

theorem Rejects.congr {α : Type} {Q Q' : Prop} {x : R (PRes α)} (h : Rejects Q x) (e : Q' ↔ Q) : Rejects Q' x :=
  ⟨fun hq => h.1 (e.mp hq), fun hq => h.2 (fun h' => hq (e.mpr h'))⟩

/-! ### Powers of two -/

theorem pow2ParseLarge_bad {cfg : Cfg} (hv : cfg.Valid) {r : Nat} (hval : isRadixValid r = true)
    (h2 : isRadixPow2 r = true) {t : List Nat} (hbad : digitsOf r t = none) :
    Rejects (2 ^ cfg.U ≤ t.length * logRadix r ∨ (cfg.maxLen + 4) * cfg.W < t.length * logRadix r)
      (pow2ParseLarge cfg r t) := by
  obtain ⟨hr, hl1, hl5⟩ : r = 2 ^ logRadix r ∧ 1 ≤ logRadix r ∧ logRadix r ≤ 5 := by
    rcases radix_cases hval with h | h
    · exact h.2
    · rw [h.1] at h2; cases h2
  have hW := hv.W16
  have ht : t ≠ [] := by rintro rfl; cases hbad
  have hlen : 1 ≤ t.length := List.length_pos_of_ne_nil ht
  have hpos : 1 ≤ t.length * logRadix r := Nat.mul_pos hlen hl1
  unfold pow2ParseLarge
  refine Rejects.bindR (returns_assertR ⟨hval, h2⟩) ?_
  rintro _ -
  split
  · rename_i hbig
    exact rejects_error (Or.inl hbig)
  · rename_i hsmall
    rw [ckSub_ok (by omega)]
    refine Rejects.bindR (P := fun x => x = t.length * logRadix r - 1) (returns_ok.mpr rfl) ?_
    rintro _ rfl
    set n := t.length * logRadix r with hn
    have hdm := Nat.div_add_mod (n - 1) cfg.W
    have hmod := Nat.mod_lt (n - 1) (by omega : 0 < cfg.W)
    rw [Nat.mul_comm] at hdm
    generalize (n - 1) / cfg.W = m at *
    by_cases halloc : m + 1 ≤ cfg.maxLen + 4
    · have hno : ¬(2 ^ cfg.U ≤ n ∨ (cfg.maxLen + 4) * cfg.W < n) := by
        have : (m + 1) * cfg.W ≤ (cfg.maxLen + 4) * cfg.W := Nat.mul_le_mul_right _ halloc
        rw [Nat.add_mul m, Nat.one_mul] at this
        omega
      rw [Buffer.allocate_ok halloc]
      refine Rejects.bindR (P := fun x => x = ⟨[], allocCap cfg (m + 1)⟩) (returns_ok.mpr rfl) ?_
      rintro b hb
      have hbok : b.OK cfg := by rw [hb]; exact ⟨by simp, by simp⟩
      have hbw : b.words = [] := by rw [hb]
      have hcap : m + 1 ≤ b.cap := by rw [hb]; exact le_allocCap halloc
      have hcapW : (m + 1) * cfg.W ≤ b.cap * cfg.W := Nat.mul_le_mul_right _ hcap
      rw [Nat.add_mul, Nat.one_mul] at hcapW
      have loop := pow2LargeLoop_spec hv hr hl1 hl5 t.reverse (word := 0) (bits := 0) hbok (by simp) (by omega)
        (by rw [hbw, List.length_reverse, ← hn]; simp only [List.length_nil, Nat.zero_mul]; omega)
      rw [digitsOf_reverse, hbad] at loop
      have loop : pow2LargeLoop cfg.W r t.reverse (b, 0, 0) = .ok (.error .invalidDigit) := loop
      rw [loop]
      exact rejects_of hno rfl
    · rw [Buffer.allocate_err (by omega)]
      refine rejects_error (Or.inr ?_)
      have : (cfg.maxLen + 4) * cfg.W ≤ m * cfg.W := Nat.mul_le_mul_right _ (by omega)
      omega

theorem pow2Parse_bad {cfg : Cfg} (hv : cfg.Valid) {r : Nat} (hval : isRadixValid r = true)
    (h2 : isRadixPow2 r = true) {t : List Nat} (hbad : digitsOf r t = none) :
    Rejects (2 ^ cfg.U ≤ t.length * logRadix r ∨ (cfg.maxLen + 4) * cfg.W < t.length * logRadix r)
      (pow2Parse cfg r t) := by
  unfold pow2Parse
  refine Rejects.bindR (returns_assertR ⟨hval, h2⟩) ?_
  rintro _ -
  refine Rejects.bindR (radixInfo_pow2 hv.W16 hval h2) ?_
  intro info hi
  split
  · rename_i hle
    rw [hi.digits] at hle
    have h := pow2ParseWord_spec hv.W16 hv.W64 hval h2 hle
    rw [hbad] at h
    have h : pow2ParseWord cfg.W r t = .ok (.error .invalidDigit) := h
    have hle' : t.length * logRadix r ≤ cfg.W :=
      le_trans (Nat.mul_le_mul_right _ hle) (Nat.div_mul_le_self _ _)
    have hW16 := hv.W16
    have hW64 := hv.W64
    have hU := hv.two_pow_U
    rw [h]
    refine rejects_of ?_ rfl
    rw [Nat.add_mul]
    generalize cfg.maxLen * cfg.W = z
    omega
  · exact pow2ParseLarge_bad hv hval h2 hbad

/-! ### Other radixes -/

theorem fits_chunk {cfg : Cfg} (hv : cfg.Valid) {r d n : Nat} (hr : 1 ≤ r) (hd : r ^ d < base cfg.W)
    (hn : n ≤ 256 * d) : Fits cfg (r ^ n) := by
  have hl := hv.large
  unfold Fits
  calc r ^ n ≤ r ^ (256 * d) := Nat.pow_le_pow_right hr hn
    _ = (r ^ d) ^ 256 := by rw [← pow_mul, Nat.mul_comm]
    _ < (base cfg.W) ^ 256 := Nat.pow_lt_pow_left hd (by norm_num)
    _ = 2 ^ (256 * cfg.W) := by rw [base_eq, ← pow_mul, Nat.mul_comm]
    _ ≤ 2 ^ (cfg.maxLen * cfg.W) := Nat.pow_le_pow_right (by norm_num) (Nat.mul_le_mul_right _ (by omega))

theorem npParseChunk_bad {cfg : Cfg} (hv : cfg.Valid) {r : Nat} (hval : isRadixValid r = true)
    (h2 : isRadixPow2 r = false) {info : RadixInfo} (hi : radixInfo cfg.W r = .ok info)
    {t : List Nat} (ht : t.length ≤ 256 * info.digitsPerWord) (hbad : digitsOf r t = none) :
    npParseChunk cfg r t = .ok (.error .invalidDigit) := by
  obtain ⟨info', hi', hn⟩ := radixInfo_nonPow2 hv.W16 hval h2
  rw [hi] at hi'; cases hi'
  have h := npParseChunk_spec hv hval h2 hi ht
  unfold PSpec at h
  rw [hbad] at h
  rcases h with h | ⟨-, h⟩
  · exact h
  · exact absurd (fits_chunk hv (by have := (isRadixValid_iff.mp hval).1; omega) hn.lt ht) h

theorem npPowersLoop_exact {cfg : Cfg} (hv : cfg.Valid) {r chunk len : Nat} (hc : 1 ≤ chunk)
    (hl1 : chunk < len) (hl2 : len < 2 ^ (cfg.U - 1)) (fuel : Nat) (p : UBig) (ps : List UBig)
    (hp : PowersOK cfg r chunk (p :: ps)) (hprev : chunk * 2 ^ ps.length ≤ len - 1)
    (hf : bitLen len ≤ ps.length + fuel) :
    RT (∃ k, chunk * 2 ^ k < len ∧ ¬Fits cfg (r ^ (chunk * 2 ^ k))) (npPowersLoop cfg chunk len fuel (p :: ps)) fun q =>
      PowersOK cfg r chunk q ∧ len ≤ chunk * 2 ^ q.length ∧ chunk * 2 ^ q.length < 2 ^ cfg.U := by
  have hU : 16 ≤ cfg.U := by rcases hv.usize with h | h | h <;> omega
  induction fuel generalizing p ps with
  | zero =>
    exfalso
    have h1 : 2 ^ bitLen len ≤ 2 ^ ps.length := Nat.pow_le_pow_right (by norm_num) (by omega)
    have h2 : 2 ^ ps.length ≤ chunk * 2 ^ ps.length := Nat.le_mul_of_pos_left _ hc
    have h3 := lt_two_pow_bitLen len
    omega
  | succ fuel ih =>
    have hk : ps.length + 1 < cfg.U := by
      have h2 : 2 ^ ps.length ≤ chunk * 2 ^ ps.length := Nat.le_mul_of_pos_left _ hc
      have h3 : 2 ^ ps.length < 2 ^ (cfg.U - 1) := by omega
      have := (Nat.pow_lt_pow_iff_right (by norm_num : 1 < 2)).mp h3
      omega
    unfold npPowersLoop
    rw [ckSub_ok (by omega)]
    refine RT.bind (P := fun x => x = len - 1) (rt_ok rfl) ?_
    rintro _ rfl
    rw [show shrW cfg.U (len - 1) (p :: ps).length = .ok ((len - 1) / 2 ^ (ps.length + 1)) from by
      unfold shrW; rw [if_pos (by simpa using hk)]; rfl]
    refine RT.bind (P := fun x => x = (len - 1) / 2 ^ (ps.length + 1)) (rt_ok rfl) ?_
    rintro _ rfl
    have hpos := Nat.two_pow_pos (ps.length + 1)
    split
    · rename_i hge
      rw [Nat.le_div_iff_mul_le hpos] at hge
      obtain ⟨p1, p2, p3⟩ := hp
      have hsq : p.value cfg * p.value cfg = r ^ (chunk * 2 ^ (ps.length + 1)) := by
        rw [p2, ← pow_add]; congr 1; ring
      refine RT.bind (((UBig.mul_spec hv .ref .ref p1 p1).rt (hsq ▸ le_rfl)).weaken
        fun h => ⟨ps.length + 1, by omega, h⟩) ?_
      rintro q ⟨q1, q2⟩
      exact ih q (p :: ps) ⟨q1, by rw [q2, hsq, List.length_cons], p1, p2, p3⟩ hge
        (by rw [List.length_cons]; omega)
    · rename_i hlt
      refine rt_ok ⟨hp, ?_, ?_⟩
      · rw [List.length_cons]
        by_contra hcon
        exact hlt ((Nat.le_div_iff_mul_le hpos).mpr (by omega))
      · rw [List.length_cons, pow_succ]
        have : 2 ^ cfg.U = 2 ^ (cfg.U - 1) * 2 := by rw [← pow_succ]; congr 1; omega
        rw [this, ← Nat.mul_assoc]
        omega

theorem PowersOK.fits {cfg : Cfg} (hv : cfg.Valid) {r chunk : Nat} (q : List UBig) (h : PowersOK cfg r chunk q)
    {k : Nat} (hk : k < q.length) : Fits cfg (r ^ (chunk * 2 ^ k)) := by
  induction q with
  | nil => simp at hk
  | cons p ps ih =>
    obtain ⟨p1, p2, p3⟩ := h
    rw [List.length_cons] at hk
    rcases Nat.lt_succ_iff_lt_or_eq.mp hk with hk | rfl
    · exact ih p3 hk
    · rw [← p2]; exact UBig.WF.fits hv p1

theorem npDivideConquer_bad {cfg : Cfg} (hv : cfg.Valid) {r : Nat} (hval : isRadixValid r = true)
    (h2 : isRadixPow2 r = false) {info : RadixInfo} (hi : radixInfo cfg.W r = .ok info)
    (ps : List UBig) (hp : PowersOK cfg r (256 * info.digitsPerWord) ps) (t : List Nat)
    (ht : t.length ≤ 256 * info.digitsPerWord * 2 ^ ps.length)
    (hU : 256 * info.digitsPerWord * 2 ^ ps.length < 2 ^ cfg.U) (hbad : digitsOf r t = none) :
    npDivideConquer cfg r (256 * info.digitsPerWord) ps t = .ok (.error .invalidDigit) := by
  obtain ⟨info', hi', hn⟩ := radixInfo_nonPow2 hv.W16 hval h2
  rw [hi] at hi'; cases hi'
  have h1 : 1 ≤ 256 * info.digitsPerWord := by have := hn.one; omega
  have hr : 1 ≤ r := by have := (isRadixValid_iff.mp hval).1; omega
  induction ps generalizing t with
  | nil =>
    unfold npDivideConquer
    rw [shlW_ok (s := 0) h1 hU]
    show (assertR _ >>= fun _ => _) = _
    rw [assertR_true (by simpa using ht)]
    exact npParseChunk_bad hv hval h2 hi (by simpa using ht) hbad
  | cons p ps ih =>
    obtain ⟨p1, p2, p3⟩ := hp
    rw [List.length_cons] at ht hU
    have hU' : 256 * info.digitsPerWord * 2 ^ ps.length < 2 ^ cfg.U := by
      refine lt_of_le_of_lt (Nat.mul_le_mul_left _ ?_) hU
      exact Nat.pow_le_pow_right (by norm_num) (by omega)
    unfold npDivideConquer
    rw [shlW_ok h1 hU]
    show (assertR _ >>= fun _ => _) = _
    rw [assertR_true ht, shlW_ok h1 hU']
    rw [pow_succ, ← Nat.mul_assoc] at ht
    show (if _ then _ else _) = _
    split
    · rename_i hle
      exact ih p3 t hle hU' hbad
    · rename_i hgt
      obtain ⟨⟨th, tl⟩, e, s1, s2⟩ := returns_splitR (l := t)
        (n := t.length - 256 * info.digitsPerWord * 2 ^ ps.length) (by omega)
      rw [e]
      simp only at s1 s2
      have hlen : th.length + tl.length = t.length := by rw [s1, List.length_append]
      show tryP (npDivideConquer cfg r (256 * info.digitsPerWord) ps th) _ = _
      rw [s1, digitsOf_append] at hbad
      cases hh : digitsOf r th with
      | none => rw [ih p3 th (by omega) hU' hh]; rfl
      | some dh =>
        rw [hh] at hbad
        have hs := npDivideConquer_spec hv hval h2 hi ps p3 th (by omega) hU'
        unfold PSpec at hs
        rw [hh] at hs
        have hdh := digitsValue_lt (digitsOf_lt hh)
        rw [digitsOf_length hh] at hdh
        have hfit : Fits cfg (digitsValue r dh) := by
          refine UBig.WF.fits_le hv p1 ?_
          rw [p2]
          exact le_trans hdh.le (Nat.pow_le_pow_right hr (by omega))
        obtain ⟨a, ea, -⟩ := hs.1 hfit
        rw [ea]
        cases hl : digitsOf r tl with
        | none =>
          show tryP (npDivideConquer cfg r (256 * info.digitsPerWord) ps tl) _ = _
          rw [ih p3 tl (by omega) hU' hl]; rfl
        | some dl => rw [hl] at hbad; cases hbad

theorem npParseLarge_bad {cfg : Cfg} (hv : cfg.Valid) {r : Nat} (hval : isRadixValid r = true)
    (h2 : isRadixPow2 r = false) {info : RadixInfo} (hi : radixInfo cfg.W r = .ok info)
    {t : List Nat} (hgt : 256 * info.digitsPerWord < t.length) (hlen : t.length < 2 ^ (cfg.U - 1))
    (hbad : digitsOf r t = none) :
    Rejects (∃ k, 256 * info.digitsPerWord * 2 ^ k < t.length ∧
      ¬Fits cfg (r ^ (256 * info.digitsPerWord * 2 ^ k))) (npParseLarge cfg r t) := by
  obtain ⟨info', hi', hn⟩ := radixInfo_nonPow2 hv.W16 hval h2
  rw [hi] at hi'; cases hi'
  have hr := (isRadixValid_iff.mp hval).1
  have hdpw := digitsPerWord_le hr hn
  have hW64 := hv.W64
  have hU := hv.two_pow_U
  have hU16 : 16 ≤ cfg.U := by rcases hv.usize with h | h | h <;> omega
  have h1 := hn.one
  unfold npParseLarge
  refine Rejects.bindR (returns_assertR ⟨hval, by simp [h2]⟩) ?_
  rintro _ -
  rw [hi]
  refine Rejects.bindR (P := fun x => x = info) (returns_ok.mpr rfl) ?_
  intro i hii; rw [hii]; clear hii i
  unfold parseChunkLen
  rw [ckMul_ok (by omega)]
  refine Rejects.bindR (P := fun x => x = 256 * info.digitsPerWord) (returns_ok.mpr rfl) ?_
  rintro _ rfl
  refine Rejects.bindR (returns_assertR hgt) ?_
  rintro _ -
  have hpow := UBig.pow_spec hv (x := .small info.rangePerWord)
    (show info.rangePerWord < _ by rw [hn.range]; exact hn.lt) (exp := 256) (by omega)
  rw [show (UBig.small info.rangePerWord).value cfg = info.rangePerWord from rfl, hn.range, ← pow_mul,
    Nat.mul_comm info.digitsPerWord] at hpow
  rw [hn.range]
  refine Rejects.bindR (hpow.1 (fits_chunk hv (by omega) hn.lt le_rfl)) ?_
  rintro p ⟨p1, p2⟩
  have key := npPowersLoop_exact hv (by omega) hgt hlen (bitLen t.length) p [] ⟨p1, by simpa using p2, trivial⟩
      (by simp only [List.length_nil, pow_zero, Nat.mul_one]; omega) (by simp)
  rcases key with ⟨q, e, q1, q2, q3⟩ | ⟨herr, hq⟩
  · rw [e]
    refine rejects_of ?_ (npDivideConquer_bad hv hval h2 hi q q1 t q2 q3 hbad)
    rintro ⟨k, k1, k2⟩
    refine k2 (q1.fits hv q ?_)
    have := Nat.lt_of_mul_lt_mul_left (lt_of_lt_of_le k1 q2)
    exact (Nat.pow_lt_pow_iff_right (by norm_num : 1 < 2)).mp this
  · rw [herr]
    exact rejects_error hq

theorem npParse_bad {cfg : Cfg} (hv : cfg.Valid) {r : Nat} (hval : isRadixValid r = true)
    (h2 : isRadixPow2 r = false) {info : RadixInfo} (hi : radixInfo cfg.W r = .ok info) {t : List Nat}
    (hlen : t.length < 2 ^ (cfg.U - 1)) (hbad : digitsOf r t = none) :
    Rejects (∃ k, 256 * info.digitsPerWord * 2 ^ k < t.length ∧
      ¬Fits cfg (r ^ (256 * info.digitsPerWord * 2 ^ k))) (npParse cfg r t) := by
  obtain ⟨info', hi', hn⟩ := radixInfo_nonPow2 hv.W16 hval h2
  rw [hi] at hi'; cases hi'
  have hr := (isRadixValid_iff.mp hval).1
  have hdpw := digitsPerWord_le hr hn
  have hW64 := hv.W64
  have hU := hv.two_pow_U
  have hshort : t.length ≤ 256 * info.digitsPerWord → ¬∃ k, 256 * info.digitsPerWord * 2 ^ k < t.length ∧
      ¬Fits cfg (r ^ (256 * info.digitsPerWord * 2 ^ k)) := by
    rintro hle ⟨k, hk, -⟩
    have := Nat.le_mul_of_pos_right (256 * info.digitsPerWord) (Nat.two_pow_pos k)
    omega
  unfold npParse
  refine Rejects.bindR (returns_assertR ⟨hval, by simp [h2]⟩) ?_
  rintro _ -
  rw [hi]
  refine Rejects.bindR (P := fun x => x = info) (returns_ok.mpr rfl) ?_
  intro i hii; rw [hii]; clear hii i
  split
  · rename_i hle
    have h := npParseWord_spec hv.W16 hval h2 hi hle
    rw [hbad] at h
    have h : npParseWord cfg.W r t = .ok (.error .invalidDigit) := h
    rw [h]
    exact rejects_of (hshort (by omega)) rfl
  · unfold parseChunkLen
    rw [ckMul_ok (by omega)]
    refine Rejects.bindR (P := fun x => x = 256 * info.digitsPerWord) (returns_ok.mpr rfl) ?_
    rintro _ rfl
    split
    · rename_i hle
      exact rejects_of (hshort hle) (npParseChunk_bad hv hval h2 hi hle hbad)
    · rename_i hgt
      exact npParseLarge_bad hv hval h2 hi (by omega) hlen hbad

/-! ### Entry points -/

theorem not_two_pow {r : Nat} (h36 : r ≤ 36) (h3 : 3 ≤ r) (h : isRadixPow2 r = false) (b : Nat) : r ≠ 2 ^ b := by
  rintro rfl
  have hb : b < 6 := (Nat.pow_lt_pow_iff_right (by norm_num : 1 < 2)).mp (by omega)
  interval_cases b <;> revert h h3 <;> decide +kernel

theorem rejectsUBig {cfg : Cfg} (hv : cfg.Valid) {r : Nat} (hval : isRadixValid r = true) {s : List Nat}
    (hlen : s.length < 2 ^ (cfg.U - 1)) (hbad : HasBadDigit r s) :
    Rejects (Overlong cfg r (dropZeros s).length) (UBig.fromStrRadixNoSign cfg s r) := by
  have hr := isRadixValid_iff.mp hval
  have hz := stripZeros_digits (r := r) (by omega) s
  have hne : s ≠ [] := by rintro rfl; obtain ⟨c, hc, -⟩ := hbad; cases hc
  rw [hasBadDigit_iff hr.2] at hbad
  rw [hbad] at hz
  have hbad' : digitsOf r (stripZeros s) = none := by
    cases hd : digitsOf r (stripZeros s) with
    | none => rfl
    | some ds => rw [hd] at hz; cases hz
  rw [← stripZeros_eq]
  have hl := stripZeros_length s
  unfold UBig.fromStrRadixNoSign
  refine Rejects.bindR (returns_assertR hval) ?_
  rintro _ -
  rw [if_neg hne]
  rcases radix_cases hval with ⟨h2, hr2, hl1, hl5⟩ | ⟨h2, hr3, hr36⟩
  · rw [if_pos h2]
    refine (pow2Parse_bad hv hval h2 hbad').congr ⟨?_, fun h => Or.inl ⟨_, hr2, h⟩⟩
    rintro (⟨b, hb, h⟩ | ⟨h, -⟩)
    · have : b = logRadix r := Nat.pow_right_injective le_rfl (hb.symm.trans hr2)
      rwa [this] at h
    · exact absurd hr2 (h _)
  · rw [if_neg (by simp [h2])]
    obtain ⟨info, hi, hn⟩ := radixInfo_nonPow2 hv.W16 hval h2
    have hno := not_two_pow hr36 hr3 h2
    refine (npParse_bad hv hval h2 hi (by omega) hbad').congr ⟨?_, ?_⟩
    · rintro (⟨b, hb, -⟩ | ⟨-, d, k, d1, d2, d3, d4⟩)
      · exact absurd hb (hno b)
      · have e1 := (Nat.pow_lt_pow_iff_right (by omega : 1 < r)).mp (lt_of_lt_of_le d1 (base_eq _ ▸ hn.ge))
        have e2 := (Nat.pow_lt_pow_iff_right (by omega : 1 < r)).mp (lt_of_lt_of_le hn.lt (base_eq _ ▸ d2))
        have : d = info.digitsPerWord := by omega
        subst this
        exact ⟨k, d3, d4⟩
    · rintro ⟨k, k1, k2⟩
      exact Or.inr ⟨hno, _, k, by rw [← base_eq]; exact hn.lt, by rw [← base_eq]; exact hn.ge, k1, k2⟩

end Ibig
