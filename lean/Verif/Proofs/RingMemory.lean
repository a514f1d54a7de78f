import Verif.Proofs.ModularPow
import Verif.Proofs.ModularInv
import Verif.Proofs.ModularLimit
import Verif.Spec.RingMemory
/-! Exactly when arithmetic in a ring exhausts the memory. -/
namespace Ibig

theorem RingLarge.OK.wordCount {cfg : Cfg} (hv : cfg.Valid) {r : RingLarge} {n : Nat} (h : r.OK cfg n) :
    wordCount cfg.W n = r.modulus.length := by
  have hW := hv.W16
  have h1 : bitLen n ≤ cfg.W * r.modulus.length := by
    rw [bitLen_le_iff, pow_mul, ← base_eq]; exact h.lt
  have h2 : cfg.W * (r.modulus.length - 1) < bitLen n := by
    by_contra hc
    rw [not_lt, bitLen_le_iff, pow_mul, ← base_eq] at hc
    exact absurd h.ge (by omega)
  have h3 := h.two
  have e : cfg.W * r.modulus.length = cfg.W * (r.modulus.length - 1) + cfg.W := by
    rw [← Nat.mul_succ]; congr 1; omega
  unfold Ibig.wordCount
  refine Nat.div_eq_of_lt_le ?_ ?_
  · rw [Nat.mul_comm, e]; omega
  · rw [Nat.mul_comm, Nat.mul_succ]; omega

theorem mulMemoryRequirement_half (l : Nat) : mulMemoryRequirement (l / 2) ≤ mulMemoryRequirement l := by
  have h : bitLen (l / 2 - 1) ≤ bitLen (l - 1) := bitLen_mono (by omega)
  unfold mulMemoryRequirement mulMaxLenSimple mulMaxLenKaratsuba
  split_ifs <;> omega

theorem RingLarge.mulMemory_eq {cfg : Cfg} (hv : cfg.Valid) {r : RingLarge} {n : Nat} (h : r.OK cfg n) :
    r.mulMemory cfg = .ok (ringScratch (wordCount cfg.W n)) := by
  have h2 := h.two
  obtain ⟨d, e1, -, e3⟩ := RingLarge.mulMemory_spec hv h
  have hd : d ≤ mulMemoryRequirement r.modulus.length := by
    unfold divMemoryRequirement at e1
    rw [assertR_true ⟨by omega, h2⟩] at e1
    simp only [bind, Except.bind] at e1
    split at e1
    · cases e1; omega
    · cases e1
      rw [show min (r.modulus.length / 2) (2 * r.modulus.length - r.modulus.length) = r.modulus.length / 2 by omega]
      exact mulMemoryRequirement_half _
  rw [e3, h.wordCount hv, Nat.max_eq_left hd]
  rfl

theorem allocMemory_beyond {cfg : Cfg} {n : Nat} (h : BeyondMemory cfg n) : allocMemory cfg n = .error .outOfMemory := by
  unfold allocMemory; rw [if_neg (not_le.mpr h)]

theorem allocMemory_within {cfg : Cfg} {n : Nat} (h : ¬BeyondMemory cfg n) : allocMemory cfg n = .ok n := by
  unfold allocMemory; rw [if_pos (not_lt.mp h)]

/-- A ring of one word never needs scratch memory, and the formula says so, too. -/
theorem RingSmall.OK.within {cfg : Cfg} (hv : cfg.Valid) {s : RingSmall} {n : Nat} (h : s.OK cfg.W n) :
    n < base cfg.W ∧ ¬BeyondMemory cfg (ringScratch (wordCount cfg.W n)) := by
  have hn : n < base cfg.W := by
    have := h.lt
    have h2 := Nat.le_mul_of_pos_right n (Nat.two_pow_pos s.shift)
    rw [← h.eq] at h2
    omega
  have hW := hv.W16
  have hb : bitLen n ≤ cfg.W := by rw [bitLen_le_iff, ← base_eq]; exact hn
  have hw : wordCount cfg.W n ≤ 1 := by
    unfold wordCount
    have : (bitLen n + cfg.W - 1) / cfg.W < 2 := by
      rw [Nat.div_lt_iff_lt_mul (by omega)]; omega
    omega
  refine ⟨hn, ?_⟩
  unfold BeyondMemory ringScratch
  rw [if_pos (by omega)]
  have : (2 * wordCount cfg.W n + 0) * (cfg.W / 8) ≤ 2 * 8 :=
    Nat.mul_le_mul (by omega) (by have := hv.W64; omega)
  have h16 : 2 ^ 15 ≤ 2 ^ (cfg.U - 1) := Nat.pow_le_pow_right (by norm_num) (by
    rcases hv.usize with h | h | h <;> omega)
  omega

theorem Modulo.mulAssign_exact {cfg : Cfg} (hv : cfg.Valid) {r : Ring} {n : Nat} (hr : r.OK cfg n)
    {x y : Modulo} {j k : Nat} (hx : Elem cfg r x j) (hy : Elem cfg r y k) :
    (BeyondMemory cfg (ringScratch (wordCount cfg.W n)) → Modulo.mulAssign cfg x y = .error .outOfMemory) ∧
    (¬BeyondMemory cfg (ringScratch (wordCount cfg.W n)) → ∃ m, Modulo.mulAssign cfg x y = .ok m) := by
  obtain ⟨hj, ⟨s, e1, e2, rfl⟩ | ⟨l, v, e1, e2, rfl, e3⟩⟩ := elem_cases hr hx <;>
    obtain ⟨hk, ⟨s', f1, f2, rfl⟩ | ⟨l', u, f1, f2, rfl, f3⟩⟩ := elem_cases hr hy
  · rw [e1] at f1; cases f1
    refine ⟨fun h => absurd h (e2.within hv).2, fun _ => ?_⟩
    simp only [Modulo.mulAssign, checkSameRing_self, RingSmall.mul_spec e2 hj hk, bind, Except.bind]
    obtain ⟨m, h, -⟩ := ModSmall.elem_of e1 e2 (Nat.mod_lt (j * k) e2.pos)
    exact ⟨m, h⟩
  · rw [e1] at f1; cases f1
  · rw [e1] at f1; cases f1
  · rw [e1] at f1; cases f1
    have g := RingLarge.mulMemory_eq hv e2
    obtain ⟨req, g1, -, g3⟩ := RingLarge.mem_of hv e2
    rw [g] at g1; cases g1
    simp only [Modulo.mulAssign, checkSameRing_self, g, bind, Except.bind]
    constructor
    · intro h
      rw [allocMemory_beyond h]
    · intro h
      rw [allocMemory_within h]
      obtain ⟨w, e, -⟩ := ModLarge.mulBy_spec hv (addr := r.addr) e2 (g3 _ le_rfl) e3 f3
      simp only
      rw [e]
      exact ⟨_, rfl⟩

theorem Modulo.mul_exact {cfg : Cfg} (hv : cfg.Valid) {r : Ring} {n : Nat} (hr : r.OK cfg n) (o1 o2 : Own)
    {x y : Modulo} {j k : Nat} (hx : Elem cfg r x j) (hy : Elem cfg r y k) :
    (BeyondMemory cfg (ringScratch (wordCount cfg.W n)) → Modulo.mul cfg o1 o2 x y = .error .outOfMemory) ∧
    (¬BeyondMemory cfg (ringScratch (wordCount cfg.W n)) → ∃ m, Modulo.mul cfg o1 o2 x y = .ok m ∧
      Elem cfg r m (j * k % n)) := by
  have h : (BeyondMemory cfg (ringScratch (wordCount cfg.W n)) → Modulo.mul cfg o1 o2 x y = .error .outOfMemory) ∧
      (¬BeyondMemory cfg (ringScratch (wordCount cfg.W n)) → ∃ m, Modulo.mul cfg o1 o2 x y = .ok m) := by
    unfold Modulo.mul
    split
    · exact Modulo.mulAssign_exact hv hr hy hx
    · exact Modulo.mulAssign_exact hv hr hx hy
  refine ⟨h.1, fun hb => ?_⟩
  obtain ⟨m, e⟩ := h.2 hb
  rcases Modulo.mul_spec hv hr o1 o2 hx hy with h | ⟨h, -⟩
  · exact h
  · rw [e] at h; cases h

theorem Modulo.div_exact {cfg : Cfg} (hv : cfg.Valid) {r : Ring} {n : Nat} (hr : r.OK cfg n)
    {x y : Modulo} {j k : Nat} (hx : Elem cfg r x j) (hy : Elem cfg r y k) (hg : Nat.gcd k n = 1)
    (hf : Fits cfg (2 * n)) :
    (BeyondMemory cfg (ringScratch (wordCount cfg.W n)) → Modulo.div cfg x y = .error .outOfMemory) ∧
    (¬BeyondMemory cfg (ringScratch (wordCount cfg.W n)) → ∃ m, Modulo.div cfg x y = .ok m) := by
  unfold Modulo.div
  rcases Modulo.inverse_spec hv hr hy with ⟨o, e, ⟨-, m, i, rfl, hm, hi⟩ | ⟨hg', -⟩⟩ | ⟨-, hq⟩
  · rw [e]
    simp only [bind, Except.bind]
    obtain ⟨h1, h2⟩ := Modulo.mul_exact hv hr .ref .val hx hm
    exact ⟨h1, fun hb => (h2 hb).imp fun _ h => h.1⟩
  · exact absurd hg hg'
  · exact absurd hf hq

/-! ### Powers -/

theorem powWindowLoop_window {cfg : Cfg} {N : Nat} (hN : N < 2 ^ cfg.U) : ∀ fuel w,
    min cfg.W cfg.U ≤ fuel + w → 1 ≤ w → w < min cfg.W cfg.U →
    (∀ v, 1 ≤ v → v < w → windowCost N (v + 1) < windowCost N v) → 2 ^ (w - 1) - 1 ≤ N →
    Returns (powWindowLoop cfg N fuel w (windowCost N w)) (IsWindow cfg N) := by
  intro fuel
  induction fuel with
  | zero => intro w h1 h2 h3; omega
  | succ fuel ih =>
    intro w h1 h2 h3 h4 h5
    unfold powWindowLoop
    split
    · rename_i hlt
      rw [powCost_spec hN (by omega) (by omega)]
      simp only [bind, Except.bind, Nat.add_sub_cancel]
      have ec : windowCost N (w + 1) = 2 ^ w - 1 + N / (w + 1 + 1) := rfl
      rw [← ec]
      split
      · rename_i hle
        exact returns_ok.mpr ⟨h2, h3, h4, fun _ => hle⟩
      · rename_i hgt
        refine ih (w + 1) (by omega) (by omega) (by omega) ?_ ?_
        · intro v v1 v2
          rcases Nat.lt_succ_iff_lt_or_eq.mp v2 with h | rfl
          · exact h4 v v1 h
          · omega
        · have h6 : N / (w + 1) ≤ N / 2 := Nat.div_le_div_left (by omega) (by norm_num)
          have e : 2 ^ w = 2 * 2 ^ (w - 1) := by rw [← Nat.pow_succ']; congr 1; omega
          have hp := Nat.two_pow_pos (w - 1)
          rw [Nat.add_sub_cancel]
          unfold windowCost at hgt ec
          rw [Nat.add_sub_cancel] at hgt
          generalize N / (w + 1 + 1) = g at hgt
          generalize N / (w + 1) = f at hgt h6
          omega
    · rename_i hge
      exact returns_ok.mpr ⟨h2, h3, h4, fun h => absurd h hge⟩

theorem choosePowWindowLen_window {cfg : Cfg} (hv : cfg.Valid) {N : Nat} (hN : N < 2 ^ cfg.U) :
    Returns (choosePowWindowLen cfg N) (IsWindow cfg N) := by
  have h1 : 16 ≤ cfg.U := by rcases hv.usize with h | h | h <;> omega
  have h2 := hv.W16
  unfold choosePowWindowLen
  rw [powCost_spec hN le_rfl (by omega)]
  exact powWindowLoop_window hN _ 1 (by omega) le_rfl (by omega) (fun v _ _ => by omega) (by simp)

theorem IsWindow.unique {cfg : Cfg} {N v w : Nat} (hv : IsWindow cfg N v) (hw : IsWindow cfg N w) : v = w := by
  have key : ∀ {v w}, IsWindow cfg N v → IsWindow cfg N w → ¬v < w := by
    rintro v w ⟨a1, a2, a3, a4⟩ ⟨b1, b2, b3, b4⟩ h
    have := b3 v a1 h
    have := a4 (by omega)
    omega
  have := key hv hw
  have := key hw hv
  omega

theorem powMemory_exact {cfg : Cfg} (hv : cfg.Valid) {r : RingLarge} {n wl : Nat} (h : r.OK cfg n)
    (h1 : 1 ≤ wl) (hU : wl < cfg.U) :
    (BeyondMemory cfg ((2 ^ (wl - 1) - 1) * wordCount cfg.W n + ringScratch (wordCount cfg.W n)) →
      powMemory cfg r wl = .error .outOfMemory) ∧
    (¬BeyondMemory cfg ((2 ^ (wl - 1) - 1) * wordCount cfg.W n + ringScratch (wordCount cfg.W n)) →
      Returns (powMemory cfg r wl) (PowMem r cfg wl)) := by
  have hp := Nat.two_pow_pos (wl - 1)
  have h2 := h.two
  have hpow : 2 ^ (wl - 1) * 2 ≤ 2 ^ cfg.U := by
    rw [← pow_succ]; exact Nat.pow_le_pow_right (by norm_num) (by omega)
  have g := RingLarge.mulMemory_eq hv h
  obtain ⟨req, g1, -, g3⟩ := RingLarge.mem_of hv h
  rw [g] at g1; cases g1
  rw [h.wordCount hv] at *
  have hw8 : 1 ≤ cfg.W / 8 := by have := hv.W16; omega
  have hUU : 2 ^ cfg.U = 2 * 2 ^ (cfg.U - 1) := by
    rw [← Nat.pow_succ']; congr 1; omega
  have hU0 := Nat.two_pow_pos (cfg.U - 1)
  unfold powMemory
  rw [ckSub_ok h1]
  simp only [bind, Except.bind]
  rw [shlW_ok le_rfl (by omega), Nat.one_mul]
  simp only
  rw [ckSub_ok hp]
  simp only
  set t := 2 ^ (wl - 1) - 1 with ht
  have hmul : t * r.modulus.length + ringScratch r.modulus.length ≤
      (t * r.modulus.length + ringScratch r.modulus.length) * (cfg.W / 8) := Nat.le_mul_of_pos_right _ hw8
  rw [g]
  simp only
  constructor
  · intro hb
    rw [allocMemory_beyond hb]
    split <;> rfl
  · intro hb
    have hb' := hb
    unfold BeyondMemory at hb'
    rw [if_pos (by omega), allocMemory_within hb]
    simp only [allocFill]
    have hr0 := (g3 _ le_rfl).1
    rw [if_pos ⟨by omega, by omega⟩]
    exact returns_ok.mpr ⟨rfl, List.length_replicate, by rw [List.length_replicate]; omega,
      g3 _ (by show _ ≤ _ - _; omega)⟩

theorem ModLarge.powNontrivial_err {cfg : Cfg} (hv : cfg.Valid) {x : ModLarge} {exp : UBig} (he : exp.WF cfg)
    (h2 : 2 ≤ exp.value cfg) {wl : Nat} (hw : choosePowWindowLen cfg (Ibig.bitLen (exp.value cfg)) = .ok wl)
    (hm : powMemory cfg x.ring wl = .error .outOfMemory) : x.powNontrivial cfg exp = .error .outOfMemory := by
  have hb3 : 2 < base cfg.W := by
    have := Nat.pow_le_pow_right (n := 2) (by norm_num) hv.W16
    rw [base_eq]; omega
  unfold ModLarge.powNontrivial
  rw [UBig.lt_spec hv he (wf_small hb3)]
  simp only [bind, Except.bind]
  rw [assertR_true (decide_eq_false (by show ¬ exp.value cfg < 2; omega))]
  simp only
  rw [UBig.bitLen_spec hv he]
  simp only
  rw [hw]
  simp only
  rw [hm]

theorem Modulo.pow_exact {cfg : Cfg} (hv : cfg.Valid) {r : Ring} {n : Nat} (hr : r.OK cfg n)
    {x : Modulo} {k : Nat} (hx : Elem cfg r x k) {exp : UBig} (he : exp.WF cfg) {w : Nat}
    (hw : IsWindow cfg (bitLen (exp.value cfg)) w) :
    ((2 ≤ exp.value cfg ∧ 2 ^ cfg.W ≤ n ∧
        BeyondMemory cfg ((2 ^ (w - 1) - 1) * wordCount cfg.W n + ringScratch (wordCount cfg.W n))) →
      x.pow cfg exp = .error .outOfMemory) ∧
    (¬(2 ≤ exp.value cfg ∧ 2 ^ cfg.W ≤ n ∧
        BeyondMemory cfg ((2 ^ (w - 1) - 1) * wordCount cfg.W n + ringScratch (wordCount cfg.W n))) →
      ∃ m, x.pow cfg exp = .ok m ∧ Elem cfg r m (k ^ exp.value cfg % n)) := by
  have hN : bitLen (exp.value cfg) < 2 ^ cfg.U := by
    refine lt_of_le_of_lt ?_ hv.bits
    have hf := UBig.WF.fits hv he
    rw [fits_iff] at hf
    rw [bitLen_le_iff, Nat.mul_comm, pow_mul, ← base_eq]
    exact hf
  obtain ⟨wl, ewl, hwl⟩ := choosePowWindowLen_window hv hN
  have := hwl.unique hw
  subst this
  have hwU : wl < cfg.U := by have := hw.2.1; omega
  constructor
  · rintro ⟨e2, hn, hb⟩
    obtain ⟨hk, ⟨s, f1, f2, rfl⟩ | ⟨l, v, f1, f2, rfl, f3⟩⟩ := elem_cases hr hx
    · have := (f2.within hv).1
      rw [base_eq] at this
      omega
    · have hm := (powMemory_exact hv f2 hw.1 hwU).1 hb
      have := ModLarge.powNontrivial_err hv (x := ⟨r.addr, l, v⟩) he e2 ewl hm
      simp only [Modulo.pow]
      have hp : ModLarge.pow cfg ⟨r.addr, l, v⟩ exp = .error .outOfMemory := by
        unfold ModLarge.pow
        split
        · exact absurd e2 (by show ¬2 ≤ 0; omega)
        · exact absurd e2 (by show ¬2 ≤ 1; omega)
        · exact this
      rw [hp]; rfl
  · intro hno
    have : RM False (x.pow cfg exp) fun m => Elem cfg r m (k ^ exp.value cfg % n) := by
      refine Modulo.pow_of hv hr hx he fun l _ hl e2 wl' hwl' _ _ _ => ?_
      rw [ewl] at hwl'; cases hwl'
      refine ((powMemory_exact hv hl hw.1 hwU).2 fun hb => hno ⟨e2, ?_, hb⟩).rm
      have h1 := hl.ge
      have h2 := hl.two
      rw [← base_eq]
      exact le_trans (Nat.le_self_pow (by omega) _) h1
    exact this.resolve_right fun h => h.2

end Ibig
