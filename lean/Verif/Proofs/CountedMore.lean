import Verif.Proofs.CountedText
import Verif.Proofs.ModularCost
import Verif.Model.SerdeTime
/-!
Lower bounds on the number of steps of greatest common divisors, modular arithmetic, conversions and serialisation.
-/
namespace Ibig.Timed

theorem sat_cloneU (cfg : Cfg) (x : UBig) : Sat (UBig.clone cfg x) fun _ k => x.len + 1 ≤ k :=
  sat_pass fun _ _ => le_rfl

theorem sat_gcd (cfg : Cfg) (x y : UBig) : Sat (UBig.gcd cfg x y) fun _ k => x.len + y.len ≤ k :=
  (sat_cloneU cfg x).bind fun _ k1 h1 => (sat_cloneU cfg y).bind fun _ k2 h2 =>
    (sat_any _).mono fun _ l _ => by omega

/-! ### Modular arithmetic -/

theorem sat_mclone (x : ModLarge) : Sat (Modulo.clone (.large x)) fun _ k => x.words.length ≤ k := by
  unfold Modulo.clone
  exact sat_pass fun _ _ => Nat.le_succ _

theorem sat_neg (W : Nat) (x : ModLarge) : Sat (Modulo.neg W (.large x)) fun _ k => x.words.length ≤ k :=
  (sat_mclone x).bind fun _ k1 h1 =>
    (sat_any _).mono fun _ l _ => Nat.le_add_right_of_le h1

theorem sat_residue (cfg : Cfg) (x : ModLarge) : Sat (Modulo.residue cfg (.large x)) fun _ k => x.words.length ≤ k :=
  (sat_any _).bind fun _ k1 _ =>
    (sat_pass (n := x.words.length + 1) (Q := fun _ k => x.words.length ≤ k) fun _ _ => by omega).bind fun _ k2 h2 =>
      (sat_any _).mono fun _ l _ => by omega

theorem sat_ringAdd (W : Nat) (r : RingLarge) (a b : List Nat) :
    Sat (RingLarge.add W r a b) fun _ k => b.length ≤ k := by
  refine (sat_addSameLen W a b).bind fun p k1 h1 => ?_
  exact (sat_any _).mono fun _ l _ => by omega

theorem sat_addAssign (W : Nat) (x y : ModLarge) :
    Sat (Modulo.addAssign W (.large x) (.large y)) fun _ k => y.words.length ≤ k :=
  (sat_any _).bind fun _ k1 _ => (sat_ringAdd W _ _ _).bind fun _ k2 h2 => (sat_any _).mono fun _ l _ => by omega

theorem sat_mown (o : Own) (x : Modulo) : Sat (Modulo.own o x) fun y _ => y = x := by
  cases o
  · exact sat_pure rfl
  · cases x
    · exact sat_pure rfl
    · exact sat_pass fun a (h : Except.ok _ = _) => by injection h with h; exact h.symm

theorem sat_madd (W : Nat) (o1 o2 : Own) (x y : ModLarge) :
    Sat (Modulo.add W o1 o2 (.large x) (.large y)) fun _ k => min x.words.length y.words.length ≤ k := by
  have h (o : Own) : Sat (do let x ← Modulo.own o (.large x); Modulo.addAssign W x (.large y))
      fun _ k => min x.words.length y.words.length ≤ k :=
    (sat_mown o _).bind fun z k1 h1 => by
      rw [h1]
      exact (sat_addAssign W x y).mono fun _ l hl => by omega
  cases o1 <;> cases o2
  · exact h .val
  · exact h .val
  · exact (sat_addAssign W y x).mono fun _ l hl => by omega
  · exact h .ref

theorem sat_subAssign (W : Nat) (x y : ModLarge) :
    Sat (Modulo.subAssign W (.large x) (.large y)) fun _ k => y.words.length ≤ k := by
  refine (sat_any _).bind fun _ k1 _ => ?_
  refine Sat.bind (Q := fun _ k => y.words.length ≤ k) ?_ fun _ k2 h2 => (sat_any _).mono fun _ l _ => by omega
  exact (sat_subSameLen W _ _).bind fun _ k3 h3 => (sat_any _).mono fun _ l _ => by omega

theorem sat_subSwap (W : Nat) (x y : ModLarge) :
    Sat (Modulo.subSwap W (.large x) (.large y)) fun _ k => y.words.length ≤ k := by
  refine (sat_any _).bind fun _ k1 _ => ?_
  refine Sat.bind (Q := fun _ k => y.words.length ≤ k) ?_ fun _ k2 h2 => (sat_any _).mono fun _ l _ => by omega
  exact (sat_subSameLenSwap W _ _).bind fun _ k3 h3 => (sat_any _).mono fun _ l _ => by omega

theorem sat_msub (W : Nat) (o1 o2 : Own) (x y : ModLarge) :
    Sat (Modulo.sub W o1 o2 (.large x) (.large y)) fun _ k => y.words.length ≤ k := by
  have h (o : Own) : Sat (do let x ← Modulo.own o (.large x); Modulo.subAssign W x (.large y))
      fun _ k => y.words.length ≤ k :=
    (sat_mown o _).bind fun z k1 h1 => by
      rw [h1]
      exact (sat_subAssign W x y).mono fun _ l hl => by omega
  cases o1 <;> cases o2
  · exact h .val
  · exact h .val
  · exact sat_subSwap W x y
  · exact h .ref

theorem sat_mulNormalized (W : Nat) (r : RingLarge) (a b : List Nat) (mem : Nat) :
    Sat (RingLarge.mulNormalized W r a b mem) fun _ k => mulLeast r.modulus.length r.modulus.length ≤ k := by
  unfold RingLarge.mulNormalized
  refine sat_assert.bind fun _ k0 h0 => ?_
  refine (sat_any _).bind fun p k1 _ => ?_
  obtain ⟨p, m⟩ := p
  refine (sat_mulSameLen W _ _ _ _ _ _).bind fun q k2 h2 => ?_
  rw [h0.1.1] at h2
  exact (sat_any _).mono fun _ l _ => by omega

theorem sat_newLarge (W addr : Nat) (r : RingLarge) (v : List Nat) :
    Sat (ModLarge.new W addr r v) fun y _ => y.ring = r :=
  (sat_any _).bind fun _ _ _ => sat_assert.bind fun _ _ _ => sat_pure rfl

theorem sat_mulBy (W : Nat) (x : ModLarge) (v : List Nat) (mem : Nat) :
    Sat (ModLarge.mulBy W x v mem) fun y k => y.ring = x.ring ∧
      mulLeast x.ring.modulus.length x.ring.modulus.length ≤ k :=
  (sat_mulNormalized W _ _ _ _).bind fun _ k1 h1 => (sat_any _).bind fun _ k2 _ =>
    (sat_newLarge W _ _ _).mono fun _ l hl => ⟨hl, by omega⟩

theorem sat_mulAssign (cfg : Cfg) (x y : ModLarge) :
    Sat (Modulo.mulAssign cfg (.large x) (.large y)) fun _ k =>
      mulLeast x.ring.modulus.length x.ring.modulus.length ≤ k :=
  (sat_any _).bind fun _ k1 _ => (sat_any _).bind fun _ k2 _ => (sat_any _).bind fun _ k3 _ =>
    (sat_mulBy cfg.W _ _ _).bind fun _ k4 h4 => sat_pure (by omega)

theorem sat_mmul (cfg : Cfg) (o1 o2 : Own) (x y : ModLarge) (h : y.ring = x.ring) :
    Sat (Modulo.mul cfg o1 o2 (.large x) (.large y)) fun _ k =>
      mulLeast x.ring.modulus.length x.ring.modulus.length ≤ k := by
  have h' (o : Own) : Sat (do let x ← Modulo.own o (.large x); Modulo.mulAssign cfg x (.large y))
      fun _ k => mulLeast x.ring.modulus.length x.ring.modulus.length ≤ k :=
    (sat_mown o _).bind fun z k1 h1 => by
      rw [h1]
      exact (sat_mulAssign cfg x y).mono fun _ l hl => by omega
  cases o1 <;> cases o2
  · exact h' .val
  · exact h' .val
  · rw [← h]
    exact sat_mulAssign cfg y x
  · exact h' .ref

theorem sat_squares (W mem : Nat) (r : RingLarge) : ∀ (k : Nat) (v : ModLarge), v.ring = r →
    Sat (ModLarge.squares W mem k v) fun y l => y.ring = r ∧ k * mulLeast r.modulus.length r.modulus.length ≤ l
  | 0, v, h => sat_pure ⟨h, by omega⟩
  | k + 1, v, h => by
    refine (sat_any _).bind fun _ k0 _ => (sat_mulBy W _ _ _).bind fun y k1 h1 => ?_
    rw [h] at h1
    refine (sat_squares W mem r k y h1.1).mono fun _ l hl => ⟨hl.1, ?_⟩
    rw [Nat.succ_mul]
    omega

theorem sat_powStep (cfg : Cfg) (x : ModLarge) (table : List Nat) (windowLen mem : Nat) (ws : List Nat) (bit : Nat)
    (v : ModLarge) (r : RingLarge) (h : v.ring = r) :
    Sat (powStep cfg x table windowLen mem ws bit v) fun p k => p.1.ring = r ∧ p.2 ≤ bit ∧
      (bit - p.2) * mulLeast r.modulus.length r.modulus.length ≤ k := by
  refine (sat_any _).bind fun _ k0 _ => (sat_any _).bind fun _ k1 _ => sat_ite (fun _ => ?_) fun _ => ?_
  · refine (sat_any _).bind fun _ k2 _ => (sat_any _).bind fun p k3 _ => ?_
    obtain ⟨w, nb⟩ := p
    refine (sat_any _).bind fun k k4 _ => (sat_squares cfg.W mem r k v h).bind fun y k5 h5 => ?_
    refine (sat_ckSub bit k).bind fun b k6 h6 => sat_assert.bind fun _ k7 _ => (sat_any _).bind fun _ k8 _ => ?_
    refine (sat_mulBy cfg.W y _ mem).bind fun z k9 h9 => sat_pure ⟨h9.1.trans h5.1, by rw [h6.2.1]; omega, ?_⟩
    rw [h6.2.1, Nat.sub_sub_self h6.1]
    omega
  · exact sat_pure ⟨h, le_rfl, by rw [Nat.sub_self]; omega⟩

theorem sat_powLargeLoop (cfg : Cfg) (x : ModLarge) (table : List Nat) (windowLen mem : Nat) (ws : List Nat)
    (r : RingLarge) : ∀ (fuel bit : Nat) (v : ModLarge), v.ring = r →
    Sat (powLargeLoop cfg x table windowLen mem ws fuel bit v) fun _ k =>
      bit * mulLeast r.modulus.length r.modulus.length ≤ k
  | 0, _, _, _ => sat_throw
  | fuel + 1, bit, v, h => by
    refine (sat_any _).bind fun _ k0 _ => (sat_powStep cfg x table windowLen mem ws bit v r h).bind fun p k1 h1 => ?_
    obtain ⟨y, b⟩ := p
    obtain ⟨h2, h3, h4⟩ := h1
    simp only at h2 h3 h4
    refine sat_ite (fun hb => ?_) fun hb => ?_
    · rw [hb] at h4
      exact sat_pure (by simpa using Nat.le_add_left_of_le h4)
    · refine (sat_mulBy cfg.W y _ mem).bind fun z k2 h5 => ?_
      rw [h2] at h5
      refine (sat_powLargeLoop cfg x table windowLen mem ws r fuel (b - 1) z h5.1).mono fun _ l hl => ?_
      generalize mulLeast r.modulus.length r.modulus.length = g at *
      have e : bit * g = (bit - b) * g + (g + (b - 1) * g) := by
        obtain ⟨c, rfl⟩ : ∃ c, b = c + 1 := ⟨b - 1, by omega⟩
        obtain ⟨d, rfl⟩ : ∃ d, bit = c + 1 + d := ⟨bit - (c + 1), by omega⟩
        rw [Nat.add_sub_cancel_left, Nat.add_sub_cancel]
        ring
      rw [e]
      omega

theorem sat_powLarge (cfg : Cfg) (x : ModLarge) (e : UBig) {n : Nat} (he : e.bitLen cfg = .ok n) :
    Sat (ModLarge.powNontrivial cfg x e) fun _ k =>
      (n - 1) * mulLeast x.ring.modulus.length x.ring.modulus.length ≤ k := by
  refine (sat_any _).bind fun _ k0 _ => sat_assert.bind fun _ k1 _ => ?_
  refine Sat.bind (Q := fun b _ => b = n) (sat_pass fun b hb => by rw [he] at hb; cases hb; rfl) fun b k2 hb => ?_
  refine (sat_any _).bind fun _ k3 _ => (sat_any _).bind fun p k4 _ => ?_
  obtain ⟨en, tab, mem⟩ := p
  refine Sat.bind (Q := fun y _ => y = x) (sat_pass fun y hy => by cases hy; rfl) fun y k5 hy => ?_
  rw [hy]
  refine (sat_mulBy cfg.W x _ mem).bind fun z k6 h6 => (sat_any _).bind fun tab k7 _ => ?_
  refine (sat_ckSub b 2).bind fun bit k8 h8 => ?_
  refine (sat_powLargeLoop cfg x tab _ mem _ x.ring _ bit z h6.1).mono fun _ l hl => ?_
  generalize mulLeast x.ring.modulus.length x.ring.modulus.length = g at *
  have e : (n - 1) * g = g + bit * g := by
    obtain ⟨c, rfl⟩ : ∃ c, n = c + 2 := ⟨n - 2, by omega⟩
    have : bit = c := by omega
    rw [this, show c + 2 - 1 = c + 1 by omega]
    ring
  rw [e]
  omega

theorem sat_powHelper (W : Nat) (r : RingSmall) (b e : Nat) : ∀ bits res,
    Sat (RingSmall.powHelper W r b e bits res) fun _ k => bits ≤ k
  | 0, _ => sat_pure (by omega)
  | bits + 1, res =>
    Sat.bind (Q := fun _ k => k = 1) (sat_tick rfl) fun _ k0 h0 => (sat_any _).bind fun _ k1 _ =>
      (sat_any _).bind fun _ k2 _ => sat_ite
        (fun _ => (sat_any _).bind fun _ k3 _ => (sat_powHelper W r b e bits _).mono fun _ l hl => by omega)
        fun _ => (sat_powHelper W r b e bits _).mono fun _ l hl => by omega

theorem sat_powLoopSmall (W : Nat) (r : RingSmall) (x : Nat) : ∀ (es : List Nat) (v : Nat),
    Sat (RingSmall.powLoop W r x es v) fun _ k => W * es.length ≤ k
  | [], v => sat_pure (by simp)
  | e :: es, v => (sat_any _).bind fun _ k0 _ => (sat_powHelper W r x e W v).bind fun v k1 h1 =>
    (sat_powLoopSmall W r x es v).mono fun _ l hl => by
      rw [List.length_cons, Nat.mul_succ]
      omega

theorem size_eq_bitLen (e : Nat) : bitLen e = Nat.size e :=
  le_antisymm (bitLen_le_iff.mpr (Nat.lt_size_self e)) (Nat.size_le.mpr (bitLen_le_iff.mp le_rfl))

theorem sat_powWord {W : Nat} (r : RingSmall) (x : Nat) {e : Nat} (he : e < 2 ^ W) :
    Sat (RingSmall.powWord W r x e) fun _ k => Nat.size e - 1 ≤ k := by
  refine sat_ite (fun h => ?_) fun h => ?_
  · rw [h]
    exact (sat_any _).mono fun _ l _ => by simp
  · refine (sat_ckSub _ _).bind fun b k0 h0 => (sat_powHelper W r x e b x).mono fun _ l hl => ?_
    have h1 : Nat.size e ≤ W := Nat.size_le.mpr he
    have h2 : leadingZeros W e = W - Nat.size e := by rw [← size_eq_bitLen]; rfl
    have h3 := h0.2.1
    rw [h2] at h3
    omega

theorem sat_powSmall {cfg : Cfg} (hv : cfg.Valid) (x : ModSmall) {e : UBig} (he : e.WF cfg) :
    Sat (ModSmall.powNontrivial cfg x e) fun _ k => Nat.size (e.value cfg) - 1 ≤ k := by
  refine (sat_any _).bind fun _ k0 _ => sat_assert.bind fun _ k1 _ => ?_
  obtain ⟨h1, h2, h3⟩ := asWords_spec he
  refine (sat_ckSub _ _).bind fun n k2 hn => ?_
  have hl : n < e.asWords.length := by omega
  refine Sat.bind (Q := fun t _ => t = e.asWords[n]) (sat_pass fun t ht => ?_) fun t k3 ht => ?_
  · rw [getR_ok hl] at ht
    exact (Except.ok.inj ht).symm
  have htw : t < 2 ^ cfg.W := by rw [ht]; exact h1 _ (List.getElem_mem hl)
  refine (sat_powWord _ _ htw).bind fun v k4 h4 => ?_
  refine (sat_powLoopSmall cfg.W _ _ _ v).bind fun w k5 h5 => (sat_any _).mono fun _ l _ => ?_
  rw [List.length_reverse, List.length_take, Nat.min_eq_left hl.le] at h5
  have h6 : Nat.size (e.value cfg) ≤ cfg.W * n + Nat.size t := by
    rw [Nat.size_le, ← h2, ← List.take_of_length_le (show e.asWords.length ≤ n + 1 by omega), val_take_succ _ hl, ← ht,
      Nat.pow_add, Nat.pow_mul]
    have h7 := val_lt (W := cfg.W) (l := e.asWords.take n) fun x hx => h1 x (List.mem_of_mem_take hx)
    rw [List.length_take, Nat.min_eq_left hl.le] at h7
    have h8 := Nat.lt_size_self t
    have h9 := Nat.mul_le_mul_left (base cfg.W ^ n) (show t + 1 ≤ 2 ^ Nat.size t from h8)
    rw [base_eq] at *
    rw [Nat.mul_add, Nat.mul_one] at h9
    omega
  omega

theorem sat_mpowSmall {cfg : Cfg} (hv : cfg.Valid) (x : ModSmall) {e : UBig} (he : e.WF cfg) :
    Sat (Modulo.pow cfg (.small x) e) fun _ k => Nat.size (e.value cfg) - 1 ≤ k := by
  refine Sat.bind (Q := fun _ k => Nat.size (e.value cfg) - 1 ≤ k) ?_ fun _ k h => sat_pure (by omega)
  unfold ModSmall.pow
  split
  · exact (sat_any _).mono fun _ k _ => by simp [UBig.value]
  · exact (sat_any _).mono fun _ k _ => by simp [UBig.value]
  · refine Sat.bind (Q := fun _ k => k = 3) (sat_pass fun _ _ => rfl) fun _ k h => (sat_any _).mono fun _ l _ => ?_
    have : Nat.size ((UBig.small 2).value cfg) = 2 := show Nat.size 2 = 2 by decide
    omega
  · exact sat_powSmall hv x he

theorem sat_mpowLarge {cfg : Cfg} (hv : cfg.Valid) (x : ModLarge) {e : UBig} (he : e.WF cfg) :
    Sat (Modulo.pow cfg (.large x) e) fun _ k =>
      (Nat.size (e.value cfg) - 1) * mulLeast x.ring.modulus.length x.ring.modulus.length ≤ k := by
  refine Sat.bind (Q := fun _ k => (Nat.size (e.value cfg) - 1) *
    mulLeast x.ring.modulus.length x.ring.modulus.length ≤ k) ?_ fun _ k h => sat_pure (by omega)
  unfold ModLarge.pow
  split
  · exact (sat_any _).mono fun _ k _ => by simp [UBig.value]
  · exact (sat_any _).mono fun _ k _ => by simp [UBig.value]
  · have h := UBig.bitLen_spec hv he
    rw [size_eq_bitLen] at h
    exact sat_powLarge cfg x _ h

/-- the words of the elements of a ring of `n` words, with the ring -/
theorem elem_words {cfg : Cfg} (hv : cfg.Valid) {r : Ring} {N n : Nat} (hr : IsRing cfg r N) (hn : 2 ≤ n)
    (h1 : 2 ^ ((n - 1) * cfg.W) ≤ N) (h2 : N < 2 ^ (n * cfg.W)) :
    ∃ l : RingLarge, l.modulus.length = n ∧ ∀ x i, Elem cfg r x i → ∃ v : ModLarge, x = .large v ∧ v.ring = l ∧
      v.words.length = n := by
  have ho := hr.ok hv
  have ho' := ho
  unfold Ring.OK at ho'
  have hW : 1 ≤ cfg.W := hv.W1
  rcases hrr : r.repr with s | l
  · rw [hrr] at ho'
    have h3 : N ≤ s.modulus := by rw [ho'.eq]; exact Nat.le_mul_of_pos_right _ (Nat.two_pow_pos _)
    have h4 := ho'.lt
    rw [base_eq] at h4
    have h5 : 2 ^ cfg.W ≤ 2 ^ ((n - 1) * cfg.W) :=
      Nat.pow_le_pow_right (by norm_num) (Nat.le_mul_of_pos_left _ (by omega))
    omega
  · rw [hrr] at ho'
    have hlen : l.modulus.length = n := by
      have h3 := (sz_large hW ho' h2).2
      have h4 := lt_of_le_of_lt h1 ho'.lt
      rw [base_eq, ← Nat.pow_mul] at h4
      have h5 := (Nat.pow_lt_pow_iff_right (by norm_num : 1 < 2)).mp h4
      rw [Nat.mul_comm] at h5
      have h6 := Nat.lt_of_mul_lt_mul_left h5
      omega
    refine ⟨l, hlen, fun x i hx => ?_⟩
    obtain ⟨-, ⟨s, h3, -⟩ | ⟨l', v, h3, -, rfl, h4⟩⟩ := elem_cases ho hx
    · rw [hrr] at h3
      cases h3
    · rw [hrr] at h3
      cases h3
      exact ⟨_, rfl, rfl, h4.len.trans hlen⟩

theorem size_le_mulLeast (n : Nat) : n ≤ mulLeast n n ∧ (n ≤ 24 → n * n ≤ mulLeast n n) := by
  unfold mulLeast
  rw [Nat.min_self]
  have e : mulMaxLenSimple = 24 := rfl
  rw [e]
  split
  · exact ⟨Nat.le_mul_self n, fun _ => le_rfl⟩
  · exact ⟨by omega, fun h => by omega⟩

/-! ### Bytes -/

theorem sat_pushLe (cfg : Cfg) : ∀ (fuel : Nat) (bytes : List Nat) (b : Buffer),
    Sat (pushLeChunks cfg fuel bytes b) fun _ k => bytes.length ≤ cfg.W / 8 * k
  | 0, _, _ => sat_throw
  | fuel + 1, bytes, b => by
    refine Sat.bind (Q := fun _ k => k = 1) (sat_tick rfl) fun _ k0 h0 => ?_
    subst h0
    refine sat_ite (fun h => ?_) fun h => ?_
    · refine (sat_any _).bind fun _ k1 _ => (sat_pushLe cfg fuel _ _).mono fun _ l hl => ?_
      rw [List.length_drop] at hl
      rw [Nat.mul_add, Nat.mul_add, Nat.mul_one]
      omega
    · exact (sat_any _).mono fun _ l _ => by rw [Nat.mul_add, Nat.mul_one]; omega

theorem sat_pushBe (cfg : Cfg) : ∀ (fuel : Nat) (bytes : List Nat) (b : Buffer),
    Sat (pushBeChunks cfg fuel bytes b) fun _ k => bytes.length ≤ cfg.W / 8 * k
  | 0, _, _ => sat_throw
  | fuel + 1, bytes, b => by
    refine Sat.bind (Q := fun _ k => k = 1) (sat_tick rfl) fun _ k0 h0 => ?_
    subst h0
    refine sat_ite (fun h => ?_) fun h => ?_
    · refine (sat_any _).bind fun _ k1 _ => (sat_pushBe cfg fuel _ _).mono fun _ l hl => ?_
      rw [List.length_take] at hl
      rw [Nat.mul_add, Nat.mul_add, Nat.mul_one]
      omega
    · exact (sat_any _).mono fun _ l _ => by rw [Nat.mul_add, Nat.mul_one]; omega

theorem sat_fromLeBytes (cfg : Cfg) (bytes : List Nat) :
    Sat (UBig.fromLeBytes cfg bytes) fun _ k => bytes.length ≤ cfg.W / 8 * k := by
  refine sat_ite (fun h => ?_) fun h => ?_
  · exact Sat.bind (Q := fun _ k => k = 1) (sat_pass fun _ _ => rfl) fun _ k0 h0 => sat_pure (by subst h0; omega)
  · refine (sat_any _).bind fun _ k0 _ => (sat_any _).bind fun _ k1 _ => (sat_pushLe cfg _ _ _).bind fun _ k2 h2 => ?_
    exact (sat_any _).mono fun _ l _ => h2.trans (Nat.mul_le_mul_left _ (by omega))

theorem sat_fromBeBytes (cfg : Cfg) (bytes : List Nat) :
    Sat (UBig.fromBeBytes cfg bytes) fun _ k => bytes.length ≤ cfg.W / 8 * k := by
  refine sat_ite (fun h => ?_) fun h => ?_
  · exact Sat.bind (Q := fun _ k => k = 1) (sat_pass fun _ _ => rfl) fun _ k0 h0 => sat_pure (by subst h0; omega)
  · refine (sat_any _).bind fun _ k0 _ => (sat_any _).bind fun _ k1 _ => (sat_pushBe cfg _ _ _).bind fun _ k2 h2 => ?_
    exact (sat_any _).mono fun _ l _ => h2.trans (Nat.mul_le_mul_left _ (by omega))

theorem sat_bytesLoop (f : Nat → List Nat) : ∀ ws, Sat (bytesLoop f ws) fun _ k => ws.length ≤ k
  | [] => sat_pure (by simp)
  | w :: ws => Sat.bind (Q := fun _ k => k = 1) (sat_tick rfl) fun _ k0 h0 => (sat_bytesLoop f ws).bind fun _ k1 h1 =>
    sat_pure (by rw [List.length_cons]; omega)

theorem sat_toLeBytes (cfg : Cfg) (b : Buffer) :
    Sat (UBig.toLeBytes cfg (.large b)) fun _ k => b.words.length ≤ k := by
  refine (sat_any _).bind fun _ k0 _ => ?_
  refine Sat.bind (Q := fun _ k => k = 1) (sat_pass fun _ _ => rfl) fun _ k1 h1 => ?_
  refine sat_slice.bind fun s k2 h2 => (sat_any _).bind fun _ k3 _ => (sat_any _).bind fun _ k4 _ => ?_
  refine (sat_bytesLoop _ s).bind fun _ k5 h5 => sat_pure ?_
  have : b.len = b.words.length := rfl
  omega

theorem sat_toBeBytes (cfg : Cfg) (b : Buffer) :
    Sat (UBig.toBeBytes cfg (.large b)) fun _ k => b.words.length ≤ k := by
  refine (sat_any _).bind fun _ k0 _ => ?_
  refine Sat.bind (Q := fun _ k => k = 1) (sat_pass fun _ _ => rfl) fun _ k1 h1 => ?_
  refine (sat_any _).bind fun _ k2 _ => sat_slice.bind fun s k3 h3 => ?_
  refine (sat_bytesLoop _ s.reverse).bind fun _ k5 h5 => sat_pure ?_
  have : b.len = b.words.length := rfl
  rw [List.length_reverse] at h5
  omega

/-! ### Serialisation -/

theorem sat_joinWords (W : Nat) : ∀ (i : Nat) (ws : List Nat) (acc : Nat),
    Sat (joinWords W i ws acc) fun _ k => ws.length ≤ k
  | _, [], _ => sat_pure (by simp)
  | i, w :: ws, acc => Sat.bind (Q := fun _ k => k = 1) (sat_tick rfl) fun _ k0 h0 => (sat_any _).bind fun x k1 _ =>
    (sat_joinWords W (i + 1) ws _).mono fun _ l hl => by rw [List.length_cons]; omega

theorem sat_joinChunks (W : Nat) : ∀ cs : List (List Nat), Sat (joinChunks W cs) fun _ k => cs.flatten.length ≤ k
  | [] => sat_pure (by simp)
  | c :: cs => (sat_any _).bind fun _ k0 _ => (sat_joinWords W 0 c 0).bind fun _ k1 h1 =>
    (sat_joinChunks W cs).bind fun _ k2 h2 => sat_pure (by rw [List.flatten_cons, List.length_append]; omega)

theorem flatten_chunksFuel {n : Nat} (hn : 1 ≤ n) : ∀ (fuel : Nat) (l : List Nat), l.length ≤ fuel →
    (chunksFuel n fuel l).flatten = l
  | 0, l, h => by rw [List.length_eq_zero_iff.mp (Nat.le_zero.mp h)]; rfl
  | fuel + 1, [], _ => rfl
  | fuel + 1, w :: l, h => by
    change (w :: l).take n ++ (chunksFuel n fuel ((w :: l).drop n)).flatten = _
    rw [flatten_chunksFuel hn fuel _ (by simp only [List.length_cons, List.length_drop] at *; omega),
      List.take_append_drop]

theorem sat_serialize {cfg : Cfg} (h : 1 ≤ wordsPerU64 cfg.W) (x : UBig) :
    Sat (UBig.serialize cfg x) fun _ k => x.asWords.length ≤ k := by
  refine (sat_any _).bind fun _ k0 _ => (sat_joinChunks cfg.W _).bind fun _ k1 h1 => sat_pure ?_
  rw [flatten_chunksFuel h _ _ le_rfl] at h1
  omega

theorem sat_takeAll64 (W : Nat) : ∀ (n : Nat) (es : List Nat) (b : Buffer),
    Sat (takeAll64 W n es b) fun p k => es.length ≤ p.2.length + k
  | 0, es, b => sat_pure (by simp)
  | _ + 1, [], _ => sat_throw
  | n + 1, x :: xs, b => Sat.bind (Q := fun _ k => k = 1) (sat_tick rfl) fun _ k0 h0 => (sat_any _).bind fun b k1 _ =>
    (sat_takeAll64 W n xs b).mono fun _ l hl => by rw [List.length_cons]; omega

theorem sat_pushAll64 (W : Nat) : ∀ (es : List Nat) (b : Buffer),
    Sat (pushAll64 W es b) fun _ k => es.length ≤ k
  | [], b => sat_pure (by simp)
  | x :: xs, b => Sat.bind (Q := fun _ k => k = 1) (sat_tick rfl) fun _ k0 h0 => (sat_any _).bind fun _ k1 _ =>
    (sat_any _).bind fun b k2 _ => (sat_pushAll64 W xs b).mono fun _ l hl => by rw [List.length_cons]; omega

theorem sat_deserialize (cfg : Cfg) (hint : Option Nat) (es : List Nat) :
    Sat (UBig.deserialize cfg hint es) fun _ k => es.length ≤ k := by
  unfold UBig.deserialize
  split
  · exact sat_assert.bind fun _ k0 h0 => sat_pure (by rw [h0.1]; simp)
  · split
    · exact sat_throw
    · exact Sat.bind (Q := fun _ k => k = 1) (sat_tick rfl) fun _ k0 h0 => sat_assert.bind fun _ k1 h1 =>
        (sat_any _).mono fun _ l _ => by rw [h1.1]; simp; omega
  · refine (sat_any _).bind fun _ k0 _ => (sat_any _).bind fun _ k1 _ => (sat_takeAll64 cfg.W _ es _).bind fun p k2 h2 => ?_
    obtain ⟨b, rest⟩ := p
    refine sat_assert.bind fun _ k3 h3 => (sat_any _).mono fun _ l _ => ?_
    rw [h3.1] at h2
    simp at h2
    omega
  · exact (sat_any _).bind fun _ k0 _ => (sat_any _).bind fun _ k1 _ => (sat_pushAll64 cfg.W es _).bind fun _ k2 h2 =>
      (sat_any _).mono fun _ l _ => by omega

end Ibig.Timed
