import Verif.Proofs.ParsePow2
/-! Parsing in the other radixes, and the entry points. -/
namespace Ibig

theorem npWordLoop_spec {W r : Nat} (l : List Nat) (word : Nat) (h : (word + 1) * r ^ l.length ≤ base W) :
    PGood (npWordLoop W r l word) (digitsOf r l) fun w ds =>
      w = word * r ^ l.length + digitsValue r ds := by
  induction l generalizing word with
  | nil => exact ⟨word, rfl, by simp⟩
  | cons c l ih =>
    unfold npWordLoop
    refine pgood_cons (l := l) (fun h => digitsOf_cons_none h) ?_
    intro d hd hdr
    rw [List.length_cons] at h ⊢
    have h1 : (word * r + d + 1) * r ^ l.length ≤ base W := by
      refine le_trans ?_ h
      rw [pow_succ', ← Nat.mul_assoc]
      refine Nat.mul_le_mul_right _ ?_
      rw [Nat.add_mul, Nat.one_mul]; omega
    have h2 : word * r + d + 1 ≤ base W := by
      refine le_trans ?_ h1
      exact Nat.le_mul_of_pos_right _ (Nat.pow_pos (by omega))
    rw [base_eq] at h2
    rw [ckMul_ok (by omega)]
    refine PGood.bindR (Q := fun x => x = word * r) (returns_ok.mpr rfl) ?_
    rintro _ rfl
    rw [ckAdd_ok (by omega)]
    refine PGood.bindR (Q := fun x => x = word * r + d) (returns_ok.mpr rfl) ?_
    rintro _ rfl
    refine pgood_digits hd (ih _ h1) ?_
    rintro w ds hds rfl
    rw [digitsValue_cons, digitsOf_length hds, pow_succ]
    ring

theorem npParseWord_spec {W r : Nat} (hW : 16 ≤ W) (hval : isRadixValid r = true)
    (h2 : isRadixPow2 r = false) {info : RadixInfo} (hi : radixInfo W r = .ok info) {t : List Nat}
    (ht : t.length ≤ info.digitsPerWord) :
    PGood (npParseWord W r t) (digitsOf r t) fun w ds => w = digitsValue r ds ∧ w < base W := by
  obtain ⟨info', hi', hn⟩ := radixInfo_nonPow2 hW hval h2
  rw [hi] at hi'; cases hi'
  unfold npParseWord
  refine PGood.bindR (returns_assertR ⟨hval, by simp [h2]⟩) ?_
  rintro _ -
  rw [hi]
  refine PGood.bindR (Q := fun x => x = info) (returns_ok.mpr rfl) ?_
  intro i hii; rw [hii]; clear hii i
  refine PGood.bindR (returns_assertR ht) ?_
  rintro _ -
  have hr := (isRadixValid_iff.mp hval).1
  have hle : r ^ t.length ≤ base W :=
    le_trans (Nat.pow_le_pow_right (by omega) ht) hn.lt.le
  have loop := npWordLoop_spec (W := W) (r := r) t 0 (by simpa using hle)
  cases hds : digitsOf r t with
  | none => rw [hds] at loop; exact loop
  | some ds =>
    rw [hds] at loop
    obtain ⟨w, e, s1⟩ := loop
    rw [Nat.zero_mul, Nat.zero_add] at s1
    refine ⟨w, e, s1, ?_⟩
    have := digitsValue_lt (digitsOf_lt hds)
    rw [digitsOf_length hds] at this
    omega

theorem npChunkStep_spec {cfg : Cfg} {range next : Nat} (hr : range < base cfg.W) (hn : next < base cfg.W)
    {b : Buffer} (hb : b.OK cfg) (hroom : b.words.length < b.cap) :
    Returns (npChunkStep cfg.W range next b) fun c => c.OK cfg ∧ c.cap = b.cap ∧
      c.words.length ≤ b.words.length + 1 ∧ val cfg.W c.words = val cfg.W b.words * range + next := by
  obtain ⟨h1, h2, h3, h4⟩ := mulWordLoop_spec hr hb.words hn
  unfold npChunkStep mulWordWithCarry
  generalize mulWordLoop cfg.W range b.words next = q at *
  obtain ⟨ws, carry⟩ := q
  simp only at h1 h2 h3 h4 ⊢
  have hok : ({ b with words := ws } : Buffer).OK cfg := hb.setWords h2 (by omega)
  split
  · refine (Buffer.push_spec hok h3 (by simp only; omega)).mono ?_
    rintro c ⟨c1, c2, c3⟩
    refine ⟨c1, c3, by rw [c2]; simp [h1], ?_⟩
    rw [c2, val_append]
    simp only [val_cons, val_nil, Nat.mul_zero, Nat.add_zero, h1]
    rw [← h4]; ring
  · rename_i h0
    have h0 : carry = 0 := by simpa using h0
    rw [returns_ok]
    refine ⟨hok, rfl, by simp only; omega, ?_⟩
    simp only
    rw [← h4, h0]; ring

theorem tryP_assoc_none {α β : Type} {f : α → R (PRes β)} :
    tryP (.ok (.error .invalidDigit)) f = .ok (.error .invalidDigit) := rfl

theorem npChunkLoop_spec {cfg : Cfg} (hv : cfg.Valid) {r : Nat} (hval : isRadixValid r = true)
    (h2 : isRadixPow2 r = false) {info : RadixInfo} (hi : radixInfo cfg.W r = .ok info)
    (gs : List (List Nat)) (hgs : ∀ g ∈ gs, g.length = info.digitsPerWord) {b : Buffer} (hb : b.OK cfg)
    (hroom : b.words.length + gs.length ≤ b.cap) :
    PGood (npChunkLoop cfg.W r info.rangePerWord gs b) (digitsOf r gs.flatten) fun c ds => c.OK cfg ∧
      val cfg.W c.words = val cfg.W b.words * r ^ gs.flatten.length + digitsValue r ds := by
  obtain ⟨info', hi', hn⟩ := radixInfo_nonPow2 hv.W16 hval h2
  rw [hi] at hi'; cases hi'
  induction gs generalizing b with
  | nil => exact ⟨b, rfl, hb, by simp⟩
  | cons g gs ih =>
    simp only [List.mem_cons, forall_eq_or_imp] at hgs
    unfold npChunkLoop
    simp only [List.length_cons] at hroom
    have hw := npParseWord_spec hv.W16 hval h2 hi (t := g) (by rw [hgs.1])
    rw [List.flatten_cons, digitsOf_append]
    cases hg : digitsOf r g with
    | none =>
      rw [hg] at hw
      have hw : npParseWord cfg.W r g = .ok (.error .invalidDigit) := hw
      rw [hw]; rfl
    | some dg =>
      rw [hg] at hw
      obtain ⟨w, e, w1, w2⟩ := hw
      rw [e]
      show PGood (do let b ← npChunkStep cfg.W info.rangePerWord w b; npChunkLoop cfg.W r info.rangePerWord gs b) _ _
      refine PGood.bindR (npChunkStep_spec (by rw [hn.range]; exact hn.lt) w2 hb (by omega)) ?_
      rintro c ⟨c1, c2, c3, c4⟩
      have := ih hgs.2 c1 (by rw [c2]; omega)
      cases hl : digitsOf r gs.flatten with
      | none => rw [hl] at this; exact this
      | some dl =>
        rw [hl] at this
        obtain ⟨d, e2, d1, d2⟩ := this
        refine ⟨d, e2, d1, ?_⟩
        rw [d2, c4, w1, hn.range, digitsValue_append, List.length_append, pow_add, hgs.1, digitsOf_length hl]
        ring

/-- `rchunks` splits the text into groups of `n` characters, except the last, which may be shorter. -/
theorem rchunks_spec {n : Nat} (hn : 1 ≤ n) (fuel : Nat) (l : List Nat) (hl : l.length ≤ fuel) (hne : l ≠ []) :
    ∃ g gs, (rchunks n fuel l).reverse = g :: gs ∧ g ++ gs.flatten = l ∧ g.length ≤ n ∧
      (∀ x ∈ gs, x.length = n) ∧ gs.length * n < l.length := by
  induction fuel generalizing l with
  | zero => exact absurd (List.length_eq_zero_iff.mp (by omega)) hne
  | succ fuel ih =>
    have hpos := List.length_pos_of_ne_nil hne
    unfold rchunks
    rw [if_neg hne]
    by_cases h : l.length ≤ n
    · have h0 : l.length - n = 0 := by omega
      rw [h0]
      have : rchunks n fuel (l.take 0) = [] := by cases fuel <;> simp [rchunks]
      rw [this]
      exact ⟨l, [], by simp, by simp, h, by simp, by simpa using hpos⟩
    · have hne' : l.take (l.length - n) ≠ [] := by
        intro e
        have := congrArg List.length e
        rw [List.length_take, List.length_nil] at this
        omega
      obtain ⟨g, gs, h1, h2, h3, h4, h5⟩ := ih (l.take (l.length - n)) (by rw [List.length_take]; omega) hne'
      refine ⟨g, gs ++ [l.drop (l.length - n)], ?_, ?_, h3, ?_, ?_⟩
      · rw [List.reverse_cons, h1]; rfl
      · rw [List.flatten_append, ← List.append_assoc, h2]; simp
      · intro x hx
        rw [List.mem_append, List.mem_singleton] at hx
        rcases hx with hx | rfl
        · exact h4 x hx
        · rw [List.length_drop]; omega
      · rw [List.length_append, List.length_singleton, Nat.add_mul]
        rw [List.length_take] at h5
        omega

theorem npParseChunk_spec {cfg : Cfg} (hv : cfg.Valid) {r : Nat} (hval : isRadixValid r = true)
    (h2 : isRadixPow2 r = false) {info : RadixInfo} (hi : radixInfo cfg.W r = .ok info)
    {t : List Nat} (ht : t.length ≤ 256 * info.digitsPerWord) : PSpec cfg r t (npParseChunk cfg r t) := by
  obtain ⟨info', hi', hn⟩ := radixInfo_nonPow2 hv.W16 hval h2
  rw [hi] at hi'; cases hi'
  unfold npParseChunk
  refine PSpec.bindR (returns_assertR ⟨hval, by simp [h2]⟩) ?_
  rintro _ -
  rw [hi]
  refine PSpec.bindR (Q := fun x => x = info) (returns_ok.mpr rfl) ?_
  intro i hii; rw [hii]; clear hii i
  refine PSpec.bindR (returns_assertR ht) ?_
  rintro _ -
  simp only
  have hlarge := hv.large
  rcases List.eq_nil_or_concat t with rfl | hne
  · rw [show rchunks info.digitsPerWord ([] : List Nat).length [] = [] from rfl]
    rw [Buffer.allocate_ok (by simp)]
    refine PSpec.bindR (Q := fun x => x.OK cfg ∧ x.words = [])
      (returns_ok.mpr ⟨⟨by simp, by simp⟩, rfl⟩) ?_
    rintro b ⟨hb, hw⟩
    exact (yields_ofBuffer hv hb (by rw [hw]; rfl)).okP
  · have hne : t ≠ [] := by rintro rfl; obtain ⟨a, b, h⟩ := hne; simp at h
    obtain ⟨g, gs, g1, g2, g3, g4, g5⟩ := rchunks_spec hn.one t.length t le_rfl hne
    have glen : (rchunks info.digitsPerWord t.length t).length = gs.length + 1 := by
      rw [← List.length_reverse, g1, List.length_cons]
    have g256 : gs.length < 256 := by
      by_contra hcon
      have : 256 * info.digitsPerWord ≤ gs.length * info.digitsPerWord := Nat.mul_le_mul_right _ (by omega)
      omega
    rw [glen, g1, Buffer.allocate_ok (by omega)]
    refine PSpec.bindR (Q := fun x => x.OK cfg ∧ x.words = [] ∧ gs.length + 1 ≤ x.cap)
      (returns_ok.mpr ⟨⟨by simp, by simp⟩, rfl, le_allocCap (by omega)⟩) ?_
    rintro b ⟨hb, hw, hcap⟩
    refine PGood.pspec (P := fun c ds => c.OK cfg ∧ val cfg.W c.words = digitsValue r ds) ?_ ?_
    · unfold npChunkLoop
      have hword := npParseWord_spec hv.W16 hval h2 hi (t := g) g3
      conv_lhs => skip
      rw [← g2, digitsOf_append]
      cases hg : digitsOf r g with
      | none =>
        rw [hg] at hword
        have hword : npParseWord cfg.W r g = .ok (.error .invalidDigit) := hword
        rw [hword]; rfl
      | some dg =>
        rw [hg] at hword
        obtain ⟨w, e, w1, w2⟩ := hword
        rw [e]
        show PGood (do let b ← npChunkStep cfg.W info.rangePerWord w b; npChunkLoop cfg.W r info.rangePerWord gs b) _ _
        refine PGood.bindR (npChunkStep_spec (by rw [hn.range]; exact hn.lt) w2 hb (by rw [hw]; simp; omega)) ?_
        rintro c ⟨c1, c2, c3, c4⟩
        have := npChunkLoop_spec hv hval h2 hi gs g4 c1 (by rw [c2]; rw [hw] at c3; simp at c3; omega)
        cases hl : digitsOf r gs.flatten with
        | none => rw [hl] at this; exact this
        | some dl =>
          rw [hl] at this
          obtain ⟨d, e2, d1, d2⟩ := this
          refine ⟨d, e2, d1, ?_⟩
          rw [d2, c4, w1, hw, val_nil, Nat.zero_mul, Nat.zero_add, digitsValue_append, digitsOf_length hl]
    · rintro c ds - ⟨c1, c2⟩
      exact (yields_ofBuffer hv c1 c2).okP

/-- The list of precomputed powers, largest first. -/
def PowersOK (cfg : Cfg) (r chunk : Nat) : List UBig → Prop
  | [] => True
  | p :: ps => p.WF cfg ∧ p.value cfg = r ^ (chunk * 2 ^ ps.length) ∧ PowersOK cfg r chunk ps

theorem npPowersLoop_spec {cfg : Cfg} (hv : cfg.Valid) {r chunk len : Nat} (hr : 1 ≤ r) (hc : 1 ≤ chunk)
    (hl1 : chunk < len) (hl2 : len < 2 ^ (cfg.U - 1)) (fuel : Nat) (p : UBig) (ps : List UBig)
    (hp : PowersOK cfg r chunk (p :: ps)) (hprev : chunk * 2 ^ ps.length ≤ len - 1)
    (hf : bitLen len ≤ ps.length + fuel) :
    RT (¬Fits cfg (r ^ (len - 1))) (npPowersLoop cfg chunk len fuel (p :: ps)) fun q =>
      PowersOK cfg r chunk q ∧ len ≤ chunk * 2 ^ q.length ∧ chunk * 2 ^ q.length < 2 ^ cfg.U := by
  have hU : 16 ≤ cfg.U := by rcases hv.usize with h | h | h <;> omega
  induction fuel generalizing p ps with
  | zero =>
    exfalso
    have h1 : 2 ^ bitLen len ≤ 2 ^ ps.length := Nat.pow_le_pow_right (by norm_num) (by omega)
    have h2 : 2 ^ ps.length ≤ chunk * 2 ^ ps.length := Nat.le_mul_of_pos_left _ hc
    have h3 := lt_two_pow_bitLen len
    omega
  | succ fuel ih =>
    have hk : ps.length + 1 < cfg.U := by
      have h2 : 2 ^ ps.length ≤ chunk * 2 ^ ps.length := Nat.le_mul_of_pos_left _ hc
      have h3 : 2 ^ ps.length < 2 ^ (cfg.U - 1) := by omega
      have := (Nat.pow_lt_pow_iff_right (by norm_num : 1 < 2)).mp h3
      omega
    unfold npPowersLoop
    rw [ckSub_ok (by omega)]
    refine RT.bind (P := fun x => x = len - 1) (rt_ok rfl) ?_
    rintro _ rfl
    rw [show shrW cfg.U (len - 1) (p :: ps).length = .ok ((len - 1) / 2 ^ (ps.length + 1)) from by
      unfold shrW; rw [if_pos (by simpa using hk)]; rfl]
    refine RT.bind (P := fun x => x = (len - 1) / 2 ^ (ps.length + 1)) (rt_ok rfl) ?_
    rintro _ rfl
    have hpos := Nat.two_pow_pos (ps.length + 1)
    split
    · rename_i hge
      rw [Nat.le_div_iff_mul_le hpos] at hge
      obtain ⟨p1, p2, p3⟩ := hp
      have hpow : r ^ (chunk * 2 ^ (ps.length + 1)) ≤ r ^ (len - 1) := Nat.pow_le_pow_right hr hge
      have hsq : p.value cfg * p.value cfg = r ^ (chunk * 2 ^ (ps.length + 1)) := by
        rw [p2, ← pow_add]; congr 1; ring
      refine RT.bind ((UBig.mul_spec hv .ref .ref p1 p1).rt (hsq ▸ hpow)) ?_
      rintro q ⟨q1, q2⟩
      exact ih q (p :: ps) ⟨q1, by rw [q2, hsq, List.length_cons], p1, p2, p3⟩ hge
        (by rw [List.length_cons]; omega)
    · rename_i hlt
      refine rt_ok ⟨hp, ?_, ?_⟩
      · rw [List.length_cons]
        by_contra hcon
        exact hlt ((Nat.le_div_iff_mul_le hpos).mpr (by omega))
      · rw [List.length_cons, pow_succ]
        have : 2 ^ cfg.U = 2 ^ (cfg.U - 1) * 2 := by rw [← pow_succ]; congr 1; omega
        rw [this, ← Nat.mul_assoc]
        omega

theorem shlW_ok {W x s : Nat} (hx : 1 ≤ x) (h : x * 2 ^ s < 2 ^ W) : shlW W x s = .ok (x * 2 ^ s) := by
  have : s < W := by
    have h1 : 2 ^ s ≤ x * 2 ^ s := Nat.le_mul_of_pos_left _ hx
    exact (Nat.pow_lt_pow_iff_right (by norm_num : 1 < 2)).mp (lt_of_le_of_lt h1 h)
  unfold shlW
  rw [if_pos this, base_eq, Nat.mod_eq_of_lt h]

/-- High part, then low part, then combination. -/
theorem pspec_split {cfg : Cfg} {r : Nat} (hr : 1 ≤ r) {hi lo : List Nat} {x y : R (PRes UBig)}
    {f : UBig → UBig → R UBig} (hx : PSpec cfg r hi x) (hy : PSpec cfg r lo y)
    (hf : ∀ a b dh dl, digitsOf r hi = some dh → digitsOf r lo = some dl → a.WF cfg → a.value cfg = digitsValue r dh →
      b.WF cfg → b.value cfg = digitsValue r dl → Yields cfg (f a b) (digitsValue r (dh ++ dl))) :
    PSpec cfg r (hi ++ lo) (tryP x fun a => tryP y fun b => okP (f a b)) := by
  unfold PSpec at hx hy ⊢
  rw [digitsOf_append]
  have hpl : ∀ n, n ≤ r ^ hi.length → n ≤ r ^ (hi ++ lo).length := fun n h =>
    le_trans h (Nat.pow_le_pow_right hr (by simp))
  have hpl2 : ∀ n, n ≤ r ^ lo.length → n ≤ r ^ (hi ++ lo).length := fun n h =>
    le_trans h (Nat.pow_le_pow_right hr (by simp))
  cases hh : digitsOf r hi with
  | none =>
    rw [hh] at hx
    simp only
    rcases hx with h | ⟨h, h'⟩
    · rw [h]; exact Or.inl rfl
    · rw [h]; exact Or.inr ⟨rfl, fun hfit => h' (hfit.mono (hpl _ le_rfl))⟩
  | some dh =>
    rw [hh] at hx
    have hdh := digitsValue_lt (digitsOf_lt hh)
    rw [digitsOf_length hh] at hdh
    by_cases fh : Fits cfg (digitsValue r dh)
    · obtain ⟨a, rfl, a1, a2⟩ := hx.1 fh
      cases hl : digitsOf r lo with
      | none =>
        rw [hl] at hy
        simp only
        rcases hy with h | ⟨h, h'⟩
        · rw [h]; exact Or.inl rfl
        · rw [h]; exact Or.inr ⟨rfl, fun hfit => h' (hfit.mono (hpl2 _ le_rfl))⟩
      | some dl =>
        rw [hl] at hy
        simp only
        have hval := digitsValue_append r dh dl
        by_cases fl : Fits cfg (digitsValue r dl)
        · obtain ⟨b, rfl, b1, b2⟩ := hy.1 fl
          exact (hf a b dh dl hh hl a1 a2 b1 b2).okP
        · rw [hy.2 fl]
          exact ⟨fun h => absurd (h.mono (by omega)) fl, fun _ => rfl⟩
    · rw [hx.2 fh]
      cases hl : digitsOf r lo with
      | none => exact Or.inr ⟨rfl, fun hfit => fh (hfit.mono (hpl _ hdh.le))⟩
      | some dl =>
        simp only
        have hval := digitsValue_append r dh dl
        have : digitsValue r dh ≤ digitsValue r dh * r ^ dl.length :=
          Nat.le_mul_of_pos_right _ (Nat.pow_pos hr)
        exact ⟨fun h => absurd (h.mono (by omega)) fh, fun _ => rfl⟩

theorem npDivideConquer_spec {cfg : Cfg} (hv : cfg.Valid) {r : Nat} (hval : isRadixValid r = true)
    (h2 : isRadixPow2 r = false) {info : RadixInfo} (hi : radixInfo cfg.W r = .ok info)
    (ps : List UBig) (hp : PowersOK cfg r (256 * info.digitsPerWord) ps) (t : List Nat)
    (ht : t.length ≤ 256 * info.digitsPerWord * 2 ^ ps.length)
    (hU : 256 * info.digitsPerWord * 2 ^ ps.length < 2 ^ cfg.U) :
    PSpec cfg r t (npDivideConquer cfg r (256 * info.digitsPerWord) ps t) := by
  obtain ⟨info', hi', hn⟩ := radixInfo_nonPow2 hv.W16 hval h2
  rw [hi] at hi'; cases hi'
  have h1 : 1 ≤ 256 * info.digitsPerWord := by have := hn.one; omega
  induction ps generalizing t with
  | nil =>
    unfold npDivideConquer
    rw [shlW_ok (s := 0) h1 hU]
    refine PSpec.bindR (Q := fun x => x = 256 * info.digitsPerWord * 2 ^ 0) (returns_ok.mpr rfl) ?_
    rintro _ rfl
    refine PSpec.bindR (returns_assertR ht) ?_
    rintro _ -
    exact npParseChunk_spec hv hval h2 hi (by simpa using ht)
  | cons p ps ih =>
    obtain ⟨p1, p2, p3⟩ := hp
    rw [List.length_cons] at ht hU
    have hU' : 256 * info.digitsPerWord * 2 ^ ps.length < 2 ^ cfg.U := by
      refine lt_of_le_of_lt (Nat.mul_le_mul_left _ ?_) hU
      exact Nat.pow_le_pow_right (by norm_num) (by omega)
    unfold npDivideConquer
    rw [shlW_ok h1 hU]
    refine PSpec.bindR (Q := fun x => x = 256 * info.digitsPerWord * 2 ^ (ps.length + 1)) (returns_ok.mpr rfl) ?_
    rintro _ rfl
    refine PSpec.bindR (returns_assertR ht) ?_
    rintro _ -
    rw [shlW_ok h1 hU']
    refine PSpec.bindR (Q := fun x => x = 256 * info.digitsPerWord * 2 ^ ps.length) (returns_ok.mpr rfl) ?_
    rintro _ rfl
    rw [pow_succ, ← Nat.mul_assoc] at ht
    split
    · rename_i hle
      exact ih p3 t hle hU'
    · rename_i hgt
      refine PSpec.bindR (returns_splitR (by omega)) ?_
      rintro ⟨th, tl⟩ ⟨s1, s2⟩
      simp only at s1 s2 ⊢
      have hlen : th.length + tl.length = t.length := by rw [s1, List.length_append]
      rw [s1]
      refine pspec_split (by have := (isRadixValid_iff.mp hval).1; omega) (ih p3 th (by omega) hU')
        (ih p3 tl (by omega) hU') ?_
      intro a b dh dl hdh hdl a1 a2 b1 b2
      have hval := digitsValue_append r dh dl
      have hdl' := digitsOf_length hdl
      have hpl : p.value cfg = r ^ dl.length := by rw [p2, hdl']; congr 1; omega
      refine Yields.seq (UBig.mul_spec hv .val .ref a1 p1) (N := digitsValue r (dh ++ dl)) ?_ ?_
      · rw [hval, a2, hpl]; omega
      · intro c c1 c2
        have := UBig.add_spec hv .val .val c1 b1
        rwa [c2, b2, a2, hpl, ← hval] at this

theorem digitsPerWord_le {W r : Nat} (hr : 2 ≤ r) {info : RadixInfo} (hn : info.NonPow2 W r) :
    info.digitsPerWord < W := by
  have h1 : 2 ^ info.digitsPerWord ≤ r ^ info.digitsPerWord := Nat.pow_le_pow_left hr _
  exact (Nat.pow_lt_pow_iff_right (by norm_num : 1 < 2)).mp (lt_of_le_of_lt h1 hn.lt)

theorem npParseLarge_spec {cfg : Cfg} (hv : cfg.Valid) {r : Nat} (hval : isRadixValid r = true)
    (h2 : isRadixPow2 r = false) {info : RadixInfo} (hi : radixInfo cfg.W r = .ok info)
    {t : List Nat} (hgt : 256 * info.digitsPerWord < t.length) (hlen : t.length < 2 ^ (cfg.U - 1))
    (h0 : t.head? ≠ some 48) : PSpec cfg r t (npParseLarge cfg r t) := by
  obtain ⟨info', hi', hn⟩ := radixInfo_nonPow2 hv.W16 hval h2
  rw [hi] at hi'; cases hi'
  have hr := (isRadixValid_iff.mp hval).1
  have hdpw := digitsPerWord_le hr hn
  have hW64 := hv.W64
  have hU := hv.two_pow_U
  have hU16 : 16 ≤ cfg.U := by rcases hv.usize with h | h | h <;> omega
  have h1 := hn.one
  have hne : t ≠ [] := by rintro rfl; simp at hgt
  unfold npParseLarge
  refine PSpec.bindR (returns_assertR ⟨hval, by simp [h2]⟩) ?_
  rintro _ -
  rw [hi]
  refine PSpec.bindR (Q := fun x => x = info) (returns_ok.mpr rfl) ?_
  intro i hii; rw [hii]; clear hii i
  unfold parseChunkLen
  rw [ckMul_ok (by omega)]
  refine PSpec.bindR (Q := fun x => x = 256 * info.digitsPerWord) (returns_ok.mpr rfl) ?_
  rintro _ rfl
  refine PSpec.bindR (returns_assertR hgt) ?_
  rintro _ -
  have hpow := UBig.pow_spec hv (x := .small info.rangePerWord)
    (show info.rangePerWord < _ by rw [hn.range]; exact hn.lt) (exp := 256) (by omega)
  rw [show (UBig.small info.rangePerWord).value cfg = info.rangePerWord from rfl, hn.range, ← pow_mul,
    Nat.mul_comm info.digitsPerWord] at hpow
  have key : RT (¬Fits cfg (r ^ (t.length - 1))) (do
      let power ← (UBig.small info.rangePerWord).pow cfg 256
      npPowersLoop cfg (256 * info.digitsPerWord) t.length (bitLen t.length) [power]) fun q =>
        PowersOK cfg r (256 * info.digitsPerWord) q ∧ t.length ≤ 256 * info.digitsPerWord * 2 ^ q.length ∧
          256 * info.digitsPerWord * 2 ^ q.length < 2 ^ cfg.U := by
    rw [hn.range]
    refine RT.bind (hpow.rt (Nat.pow_le_pow_right (by omega) (by omega))) ?_
    rintro p ⟨p1, p2⟩
    exact npPowersLoop_spec hv (by omega) (by omega) hgt hlen (bitLen t.length) p [] ⟨p1, by simpa using p2, trivial⟩
      (by simp only [List.length_nil, pow_zero, Nat.mul_one]; omega) (by simp)
  have assoc : (do
      let power ← (UBig.small info.rangePerWord).pow cfg 256
      let powers ← npPowersLoop cfg (256 * info.digitsPerWord) t.length (bitLen t.length) [power]
      npDivideConquer cfg r (256 * info.digitsPerWord) powers t) = ((do
      let power ← (UBig.small info.rangePerWord).pow cfg 256
      npPowersLoop cfg (256 * info.digitsPerWord) t.length (bitLen t.length) [power]) >>= fun powers =>
        npDivideConquer cfg r (256 * info.digitsPerWord) powers t) := by
    cases (UBig.small info.rangePerWord).pow cfg 256 <;> rfl
  rw [assoc]
  rcases key with hret | ⟨herr, hq⟩
  · refine PSpec.bindR hret ?_
    rintro q ⟨q1, q2, q3⟩
    exact npDivideConquer_spec hv hval h2 hi q q1 t q2 q3
  · rw [herr]
    exact pspec_tooLarge (by omega) hne h0 hq

theorem npParse_spec {cfg : Cfg} (hv : cfg.Valid) {r : Nat} (hval : isRadixValid r = true)
    (h2 : isRadixPow2 r = false) {t : List Nat} (hlen : t.length < 2 ^ (cfg.U - 1))
    (h0 : t.head? ≠ some 48) : PSpec cfg r t (npParse cfg r t) := by
  unfold npParse
  refine PSpec.bindR (returns_assertR ⟨hval, by simp [h2]⟩) ?_
  rintro _ -
  obtain ⟨info, hi, hn⟩ := radixInfo_nonPow2 hv.W16 hval h2
  have hr := (isRadixValid_iff.mp hval).1
  have hdpw := digitsPerWord_le hr hn
  have hW64 := hv.W64
  have hU := hv.two_pow_U
  rw [hi]
  refine PSpec.bindR (Q := fun x => x = info) (returns_ok.mpr rfl) ?_
  intro i hii; rw [hii]; clear hii i
  split
  · rename_i hle
    refine (npParseWord_spec hv.W16 hval h2 hi hle).pspec ?_
    rintro w ds - ⟨h1, h2⟩
    subst h1
    exact ⟨fun _ => ⟨_, rfl, h2, rfl⟩, fun h => absurd (fits_word hv h2) h⟩
  · unfold parseChunkLen
    rw [ckMul_ok (by omega)]
    refine PSpec.bindR (Q := fun x => x = 256 * info.digitsPerWord) (returns_ok.mpr rfl) ?_
    rintro _ rfl
    split
    · rename_i hle
      exact npParseChunk_spec hv hval h2 hi hle
    · rename_i hgt
      exact npParseLarge_spec hv hval h2 hi (by omega) hlen h0

/-! ### Entry points -/

theorem stripZeros_eq (s : List Nat) : stripZeros s = dropZeros s := by
  induction s with
  | nil => rfl
  | cons c s ih =>
    unfold stripZeros dropZeros
    rw [List.dropWhile_cons, show '0'.toNat = 48 from rfl]
    by_cases h : c = 48
    · subst h; rw [if_pos rfl, ih]; rfl
    · rw [if_neg h]; simp [h]

theorem stripZeros_head (s : List Nat) : (stripZeros s).head? ≠ some 48 := by
  induction s with
  | nil => simp [stripZeros]
  | cons c s ih =>
    unfold stripZeros
    split
    · exact ih
    · simpa

theorem stripZeros_length (s : List Nat) : (stripZeros s).length ≤ s.length := by
  induction s with
  | nil => simp [stripZeros]
  | cons c s ih =>
    unfold stripZeros
    split
    · rw [List.length_cons]; omega
    · simp

theorem stripZeros_digits {r : Nat} (hr : 1 ≤ r) (s : List Nat) :
    (digitsOf r s).map (digitsValue r) = (digitsOf r (stripZeros s)).map (digitsValue r) := by
  induction s with
  | nil => rfl
  | cons c s ih =>
    unfold stripZeros
    split
    · rename_i h
      subst h
      rw [← ih]
      have : digitFromByte 48 r = some 0 := by
        unfold digitFromByte digitByteValue
        simp; omega
      simp only [digitsOf, this]
      cases digitsOf r s with
      | none => rfl
      | some ds => simp [digitsValue_cons]
    · rfl

theorem fromStrRadixNoSign_spec {cfg : Cfg} (hv : cfg.Valid) {r : Nat} (hval : isRadixValid r = true)
    {s : List Nat} (hne : s ≠ []) (hlen : s.length < 2 ^ (cfg.U - 1)) :
    PSpec cfg r (dropZeros s) (UBig.fromStrRadixNoSign cfg s r) := by
  rw [← stripZeros_eq]
  have hl := stripZeros_length s
  unfold UBig.fromStrRadixNoSign
  refine PSpec.bindR (returns_assertR hval) ?_
  rintro _ -
  rw [if_neg hne]
  split
  · rename_i h2
    exact pow2Parse_spec hv hval h2 (stripZeros_head s)
  · rename_i h2
    exact npParse_spec hv hval (by simpa using h2) (by omega) (stripZeros_head s)

end Ibig
