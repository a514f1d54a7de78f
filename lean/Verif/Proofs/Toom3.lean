import Verif.Proofs.Karatsuba
namespace Ibig

theorem AddAt.get_hi {W : Nat} {c c' : List Nat} {i j : Nat} {k δ : Int} (h : AddAt W c c' i j k δ)
    {m : Nat} (hm : j ≤ m) (h1 : m < c'.length) (h2 : m < c.length) : c'[m] = c[m] := by
  have e := congrArg (fun l => l[m - j]?) h.hi
  simp only [List.getElem?_drop] at e
  rw [show j + (m - j) = m by omega, List.getElem?_eq_getElem h1, List.getElem?_eq_getElem h2] at e
  exact Option.some.inj e

theorem val_snoc (W : Nat) (l : List Nat) (x : Nat) :
    val W (l ++ [x]) = val W l + base W ^ l.length * x := by
  rw [val_append]; simp

theorem top_le {W : Nat} {l : List Nat} {q : Nat} (h : l.length = q + 1) :
    base W ^ q * l[q] ≤ val W l := by
  have := val_take_succ W (l := l) (n := q) (by omega)
  rw [List.take_of_length_le (by omega)] at this
  omega

theorem returns_allocCopyFill {mem n x : Nat} {l : List Nat} (h : n ≤ mem) (h0 : mem ≠ 0) (hl : l.length ≤ n) :
    Returns (allocCopyFill mem n l x) fun p =>
      p = (l ++ List.replicate (n - l.length) x, mem - n) := by
  simp [allocCopyFill, h, h0, hl, bind, Except.bind]

theorem toom3Eval2_spec {W q : Nat} {x0 x1 x2 : List Nat} (hW : 3 ≤ W) (w0 : IsWords W x0)
    (w1 : IsWords W x1) (w2 : IsWords W x2) (l0 : x0.length = q) (l1 : x1.length = q)
    (l2 : x2.length ≤ q) :
    Returns (toom3SameLen.toom3Eval2 W (x0 ++ [0]) q x1 x2) fun e =>
      e.length = q + 1 ∧ IsWords W e ∧ val W e = val W x0 + 2 * val W x1 + 4 * val W x2 := by
  have hB : 8 ≤ base W := base_ge hW
  have hP := base_pow_pos W q
  have v0 := val_lt w0
  have v1 := val_lt w1
  have v2 : val W x2 < base W ^ q :=
    lt_of_lt_of_le (val_lt w2) (Nat.pow_le_pow_right (base_pos W) l2)
  rw [l0] at v0; rw [l1] at v1
  unfold toom3SameLen.toom3Eval2
  have wE : IsWords W (x0 ++ [0]) := by simp [w0, base_pos]
  have lE : (x0 ++ [0]).length = q + 1 := by simp [l0]
  refine Returns.bind (onSlice_spec (W := W) (k := fun k : Nat => (k : Int))
    (δ := fun _ => ((2 : Nat) : Int) * val W x1) (Q := fun k => k < base W) (Nat.zero_le _)
    (by omega) wE ?_) ?_
  · intro s hs hws _
    exact addMulWordSameLen_spec (by omega) hws w1 (by omega)
  rintro ⟨e1, k1⟩ ⟨h1, b1⟩
  have n1 := h1.len
  simp only at h1 b1 n1 ⊢
  have g1 := h1.get_hi (m := q) le_rfl (by omega) (by omega)
  rw [List.getElem_append_right (by omega)] at g1
  simp only [l0, Nat.sub_self, List.getElem_cons_zero] at g1
  rw [setR_ok _ (by omega)]
  refine Returns.bind (P := fun s => s = e1.set q k1) (by simp) ?_
  rintro _ rfl
  have s1 := val_set (W := W) (l := e1) (n := q) (by omega) k1
  have eq1 := h1.eq
  rw [val_snoc] at eq1
  refine Returns.bind (onSlice_spec (W := W) (k := fun k : Nat => (k : Int))
    (δ := fun _ => ((4 : Nat) : Int) * val W x2) (Q := fun k => k < base W) (Nat.zero_le _)
    (by simp; omega) (isWords_set h1.words q b1) ?_) ?_
  · intro s hs hws _
    exact addMulWord_spec (by omega) (by omega) hws w2 (by omega)
  rintro ⟨e2, k2⟩ ⟨h2, b2⟩
  have n2 := h2.len
  simp only [List.length_set] at h2 b2 n2 ⊢
  have g2 := h2.get_hi (m := q) le_rfl (by omega) (by simp; omega)
  rw [List.getElem_set_self] at g2
  rw [getR_ok (by omega : q < e2.length)]
  refine Returns.bind (P := fun s => s = k1) (by simp [g2]) ?_
  intro x hx
  rw [hx]
  have eq2 := h2.eq
  have t2 := top_le (W := W) (l := e2) (q := q) (by omega)
  rw [g2] at t2
  rw [g1] at s1
  have tot : val W e2 + k2 * base W ^ q = val W x0 + 2 * val W x1 + 4 * val W x2 := by
    simp only [Nat.mul_zero, Nat.add_zero, pow_zero, mul_one] at eq1 eq2 s1
    push_cast at eq1 eq2
    zify
    zify at s1
    linarith
  have hk : k1 + k2 < 8 := by
    by_contra hcon
    have : base W ^ q * 8 ≤ base W ^ q * (k1 + k2) := Nat.mul_le_mul_left _ (by omega)
    rw [Nat.mul_add, Nat.mul_comm _ k2] at this
    omega
  have hck : ckAdd W k1 k2 = .ok (k1 + k2) := by
    unfold ckAdd; rw [if_pos]; unfold base at hB; omega
  rw [hck]
  refine Returns.bind (P := fun s => s = k1 + k2) (by simp) ?_
  rintro _ rfl
  rw [setR_ok _ (by omega)]
  simp only [returns_ok]
  refine ⟨by simp; omega, isWords_set h2.words _ (by omega), ?_⟩
  have s2 := val_set (W := W) (l := e2) (n := q) (by omega) (k1 + k2)
  rw [g2, Nat.mul_add] at s2
  have := Nat.mul_comm k2 (base W ^ q)
  omega

theorem toom3Eval1_spec {W q : Nat} {x0 x1 x2 : List Nat} (hW : 3 ≤ W) (w0 : IsWords W x0)
    (w1 : IsWords W x1) (w2 : IsWords W x2) (l0 : x0.length = q) (l1 : x1.length = q)
    (l2 : x2.length ≤ q) :
    Returns (toom3SameLen.toom3Eval1 W (x0 ++ [0]) q x1 x2) fun e =>
      e.1.length = q + 1 ∧ IsWords W e.1 ∧ val W e.1 = val W x0 + val W x2 ∧
      e.2.length = q + 1 ∧ IsWords W e.2 ∧ val W e.2 = val W x0 + val W x1 + val W x2 := by
  have hB : 8 ≤ base W := base_ge hW
  have hP := base_pow_pos W q
  unfold toom3SameLen.toom3Eval1
  have wE : IsWords W (x0 ++ [0]) := by simp [w0, base_pos]
  have lE : (x0 ++ [0]).length = q + 1 := by simp [l0]
  refine Returns.bind (onSlice_spec (W := W) (k := fun k : Bool => (k.toNat : Int))
    (δ := fun _ => (val W x2 : Int)) (Q := fun k => True) (Nat.zero_le _)
    (by omega) wE ?_) ?_
  · intro s hs hws _
    exact (addInPlace_spec hws w2 (by omega)).mono fun p hp => ⟨hp, trivial⟩
  rintro ⟨e1, k1⟩ ⟨h1, -⟩
  have n1 := h1.len
  simp only at h1 n1 ⊢
  have g1 := h1.get_hi (m := q) le_rfl (by omega) (by omega)
  rw [List.getElem_append_right (by omega)] at g1
  simp only [l0, Nat.sub_self, List.getElem_cons_zero] at g1
  rw [setR_ok _ (by omega)]
  refine Returns.bind (P := fun s => s = e1.set q k1.toNat) (by simp) ?_
  rintro _ rfl
  have s1 := val_set (W := W) (l := e1) (n := q) (by omega) k1.toNat
  have eq1 := h1.eq
  rw [val_snoc] at eq1
  have b1 := Bool.toNat_le k1
  refine Returns.bind (onSlice_spec (W := W) (k := fun k : Bool => (k.toNat : Int))
    (δ := fun _ => (val W x1 : Int)) (Q := fun k => True) (Nat.zero_le _)
    (by simp; omega) (isWords_set h1.words q (by omega)) ?_) ?_
  · intro s hs hws _
    exact (addSameLen_spec hws w1 (by omega)).mono fun p hp => ⟨hp, trivial⟩
  rintro ⟨e2, k2⟩ ⟨h2, -⟩
  have n2 := h2.len
  have b2 := Bool.toNat_le k2
  simp only [List.length_set] at h2 b2 n2 ⊢
  have g2 := h2.get_hi (m := q) le_rfl (by omega) (by simp; omega)
  rw [List.getElem_set_self] at g2
  rw [getR_ok (by omega : q < e2.length)]
  refine Returns.bind (P := fun s => s = k1.toNat) (by simp [g2]) ?_
  rintro _ rfl
  have eq2 := h2.eq
  rw [g1] at s1
  have hck : ckAdd W k1.toNat k2.toNat = .ok (k1.toNat + k2.toNat) := by
    unfold ckAdd; rw [if_pos]; unfold base at hB; omega
  rw [hck]
  refine Returns.bind (P := fun s => s = k1.toNat + k2.toNat) (by simp) ?_
  rintro _ rfl
  rw [setR_ok _ (by omega)]
  refine Returns.bind (P := fun s => s = e2.set q (k1.toNat + k2.toNat)) (by simp) ?_
  rintro _ rfl
  simp only [returns_ok]
  have s2 := val_set (W := W) (l := e2) (n := q) (by omega) (k1.toNat + k2.toNat)
  rw [g2] at s2
  simp only [Nat.mul_zero, Nat.add_zero, pow_zero, mul_one] at eq1 eq2 s1
  refine ⟨by simp; omega, isWords_set h1.words _ (by omega), ?_, by simp; omega,
    isWords_set h2.words _ (by omega), ?_⟩
  · zify at *; linarith
  · zify at *; linarith

section poly
variable {A0 A1 A2 B0 B1 B2 P : Nat}

theorem toom_bound2 (a0 : A0 < P) (a1 : A1 < P) (a2 : A2 < P) (b0 : B0 < P) (b1 : B1 < P)
    (b2 : B2 < P) :
    3 * (A0 * B0) + (A0 + 2 * A1 + 4 * A2) * (B0 + 2 * B1 + 4 * B2) < 64 * (P * P) := by
  have h1 : A0 * B0 ≤ P * P := Nat.mul_le_mul a0.le b0.le
  have h2 : (A0 + 2 * A1 + 4 * A2) * (B0 + 2 * B1 + 4 * B2) ≤ (7 * P) * (7 * P) :=
    Nat.mul_le_mul (by omega) (by omega)
  have h3 : (7 * P) * (7 * P) = 49 * (P * P) := by ring
  have h4 : 0 < P * P := Nat.mul_pos (by omega) (by omega)
  omega

theorem toom_bound1 (a0 : A0 < P) (a1 : A1 < P) (a2 : A2 < P) (b0 : B0 < P) (b1 : B1 < P)
    (b2 : B2 < P) :
    A0 * B0 + (A0 * B2 + A1 * B1 + A2 * B0) + (A1 * B2 + A2 * B1) + A2 * B2 < 7 * (P * P) := by
  have p : 0 < P := by omega
  have h00 : A0 * B0 < P * P := Nat.mul_lt_mul'' a0 b0
  have h02 : A0 * B2 < P * P := Nat.mul_lt_mul'' a0 b2
  have h11 : A1 * B1 < P * P := Nat.mul_lt_mul'' a1 b1
  have h20 : A2 * B0 < P * P := Nat.mul_lt_mul'' a2 b0
  have h12 : A1 * B2 < P * P := Nat.mul_lt_mul'' a1 b2
  have h21 : A2 * B1 < P * P := Nat.mul_lt_mul'' a2 b1
  have h22 : A2 * B2 < P * P := Nat.mul_lt_mul'' a2 b2
  omega

end poly

theorem carry_of_range {v k P D : Int} (h0 : 0 ≤ v) (h1 : v < P) (h : v + k * P = D) (hD0 : -P ≤ D)
    (hD1 : D < 2 * P) : k.natAbs ≤ 1 := by
  have a1 : k < 2 := by
    by_contra hk
    nlinarith
  have a2 : -2 < k := by
    by_contra hk
    nlinarith
  omega

set_option maxHeartbeats 800000 in
theorem toom3Finish_spec {W q : Nat} {c5 t1 t2 : List Nat} {s : Sign} {j0 j4 jc j3 D : Int}
    (hW : 4 ≤ W) (hq : 1 ≤ q) (hl : 5 * q + 2 ≤ c5.length) (hc : IsWords W c5)
    (wt1 : IsWords W t1) (wt2 : IsWords W t2) (lt1 : t1.length = 2 * q + 2) (lt2 : t2.length = 2 * q + 2)
    (bj0 : j0.natAbs ≤ 1) (bj4 : j4.natAbs ≤ 1) (bjc : jc.natAbs ≤ 2) (bj3 : j3.natAbs ≤ 1)
    (hD : D = val W c5 + j0 * base W ^ (2 * q) + j4 * base W ^ (3 * q + 2) + jc * base W ^ (4 * q + 2)
      + j3 * base W ^ c5.length - s.toInt * val W t1 * base W ^ q + s.toInt * val W t1 * base W ^ (3 * q)
      + s.toInt * val W t2 * base W ^ (2 * q) - s.toInt * val W t2 * base W ^ (3 * q))
    (hD0 : -(base W : Int) ^ c5.length ≤ D) (hD1 : D < 2 * (base W : Int) ^ c5.length) :
    Returns (toom3SameLen.toom3Finish W c5 s q t1 t2 j0 j4 jc j3) fun p =>
      p.1.length = c5.length ∧ IsWords W p.1 ∧ (val W p.1 : Int) + p.2 * base W ^ c5.length = D := by
  have hB : 16 ≤ base W := base_ge hW
  unfold toom3SameLen.toom3Finish
  refine Returns.bind (onSlice_add (W := W) (by omega) (by omega) hc
    fun t ht hwt => addSignedSameLen_spec s.negate hwt wt1 (by omega)) ?_
  rintro ⟨c6, j5⟩ ⟨E5, bj5⟩
  have l6 := E5.len
  simp only [Sign.toInt_negate] at E5 bj5 l6 ⊢
  refine Returns.bind (returns_ckInt hW (by omega)) ?_
  rintro _ rfl
  refine Returns.bind (onSlice_add (W := W) (by omega) (by omega) E5.words
    fun t ht hwt => addSignedSameLen_spec s hwt wt1 (by omega)) ?_
  rintro ⟨c7, j6⟩ ⟨E6, bj6⟩
  have l7 := E6.len
  simp only at E6 bj6 l7 ⊢
  refine Returns.bind (onSlice_add (W := W) (by omega) (by omega) E6.words
    fun t ht hwt => addSignedSameLen_spec s hwt wt2 (by omega)) ?_
  rintro ⟨c8, j7⟩ ⟨E7, bj7⟩
  have l8 := E7.len
  simp only at E7 bj7 l8 ⊢
  refine Returns.bind (returns_ckInt hW (by omega)) ?_
  rintro _ rfl
  refine Returns.bind (onSlice_add (W := W) (by omega) (by omega) E7.words
    fun t ht hwt => addSignedSameLen_spec s.negate hwt wt2 (by omega)) ?_
  rintro ⟨c9, j8⟩ ⟨E8, bj8⟩
  have l9 := E8.len
  simp only [Sign.toInt_negate] at E8 bj8 l9 ⊢
  refine Returns.bind (returns_ckInt hW (by omega)) ?_
  rintro _ rfl
  refine Returns.bind (onSlice_signed_word (W := W) (by omega) (by omega) E8.words (by omega) (by omega)) ?_
  rintro ⟨c10, j9⟩ ⟨E9, bj9⟩
  have l10 := E9.len
  simp only at E9 bj9 l10 ⊢
  refine Returns.bind (returns_ckInt hW (by omega)) ?_
  rintro _ rfl
  refine Returns.bind (onSlice_signed_word (W := W) (by omega) (by omega) E9.words (by omega) (by omega)) ?_
  rintro ⟨c11, j10⟩ ⟨E10, bj10⟩
  have l11 := E10.len
  simp only at E10 bj10 l11 ⊢
  refine Returns.bind (returns_ckInt hW (by omega)) ?_
  rintro _ rfl
  refine Returns.bind (onSlice_signed_word (W := W) (by omega) (by omega) E10.words (by omega) (by omega)) ?_
  rintro ⟨c12, j11⟩ ⟨E11, bj11⟩
  have l12 := E11.len
  simp only at E11 bj11 l12 ⊢
  refine Returns.bind (returns_ckInt hW (by omega)) ?_
  rintro _ rfl
  refine Returns.bind (onSlice_signed_word' (W := W) (by omega) (by omega) E11.words (by omega) (by omega)) ?_
  rintro ⟨c13, j12⟩ ⟨E12, bj12⟩
  have l13 := E12.len
  simp only at E12 bj12 l13 ⊢
  refine Returns.bind (returns_ckInt hW (by omega)) ?_
  rintro _ rfl
  have l : c13.length = c5.length := by omega
  have key : (val W c13 : Int) + (j3 + j12) * base W ^ c5.length = D := by
    have e5 := E5.eq
    have e6 := E6.eq
    have e7 := E7.eq
    have e8 := E8.eq
    have e9 := E9.eq
    have e10 := E10.eq
    have e11 := E11.eq
    have e12 := E12.eq
    rw [show c12.length = c5.length by omega] at e12
    rw [hD]
    linear_combination e5 + e6 + e7 + e8 + e9 + e10 + e11 + e12
  have hk : (j3 + j12).natAbs ≤ 1 := by
    have h1 := val_lt E12.words
    rw [l] at h1
    have h2 : (val W c13 : Int) < (base W : Int) ^ c5.length := by exact_mod_cast h1
    have z : (0 : Int) ≤ val W c13 := Int.natCast_nonneg _
    exact carry_of_range z h2 key hD0 hD1
  refine Returns.bind (returns_assertR hk) fun _ _ => ?_
  simp only [returns_ok]
  exact ⟨l, E12.words, key⟩

section poly2
variable {A0 A1 A2 B0 B1 B2 : Nat}
/-- `t1` after the evaluations at 0, 2 and infinity -/
def toomT1 (A0 A1 A2 B0 B1 B2 : Nat) : Nat :=
  4 * (A0 * B0) + 2 * (A0 * B1) + 2 * (A1 * B0) + 4 * (A0 * B2 + A1 * B1 + A2 * B0)
    + 8 * (A1 * B2 + A2 * B1) + 4 * (A2 * B2)

theorem toomT1_eq : toomT1 A0 A1 A2 B0 B1 B2 + 12 * (A2 * B2) =
    3 * (A0 * B0) + (A0 + 2 * A1 + 4 * A2) * (B0 + 2 * B1 + 4 * B2) := by unfold toomT1; ring
end poly2

/-- the recursive multiplication works for all lengths up to `m` with memory at least `mem` -/
def RecOK (W : Nat) (rec : MulFn) (m mem : Nat) : Prop :=
  ∀ m' mem', m' ≤ m → mem ≤ mem' → MulOK W rec m' m' mem'

theorem AddAt.eqs {W : Nat} {c c' : List Nat} {i j : Nat} {k δ : Int} (h : AddAt W c c' i j k δ) :
    (val W c' : Int) + k * (base W : Int) ^ j = val W c + δ * (base W : Int) ^ i := h.eq

theorem toom3Zero_spec {W q mem : Nat} {rec : MulFn} {c a0 b0 : List Nat} {s : Sign} (hW : 4 ≤ W)
    (hl : 4 * q + 2 ≤ c.length) (hc : IsWords W c) (wa0 : IsWords W a0) (wb0 : IsWords W b0)
    (la0 : a0.length = q) (lb0 : b0.length = q) (hrec : MulOK W rec q q mem) :
    Returns (toom3SameLen.toom3Zero W rec c s q (List.replicate (2 * q + 2) 0) a0 b0 mem) fun p =>
      p.1.length = c.length ∧ IsWords W p.1 ∧ p.2.1.length = 2 * q + 2 ∧ IsWords W p.2.1 ∧
      val W p.2.1 = 3 * (val W a0 * val W b0) ∧ p.2.2.1.natAbs ≤ 1 ∧ p.2.2.2.natAbs ≤ 1 ∧
      (val W p.1 : Int) + p.2.2.1 * base W ^ (2 * q) + p.2.2.2 * base W ^ (4 * q + 2) =
        val W c + s.toInt * (val W a0 * val W b0) * (1 - base W ^ (2 * q)) := by
  have hB : 16 ≤ base W := base_ge hW
  unfold toom3SameLen.toom3Zero
  rw [sliceR_ok (Nat.zero_le _) (by simp)]
  refine Returns.bind (P := fun s => s = List.replicate (2 * q) 0) (by simp) ?_
  rintro _ rfl
  refine Returns.bind (hrec.zeros (isWords_replicate_zero _ _)
    (val_replicate_zero _ _) wa0 wb0 la0 lb0 (by simp; omega)) ?_
  rintro ⟨t0, _⟩ ⟨lt0, wt0, rfl, vt0⟩
  simp only [List.length_replicate] at lt0 wt0 vt0 ⊢
  refine Returns.bind (returns_assertR trivial) fun _ _ => ?_
  refine Returns.bind (onSlice_add (W := W) (Nat.zero_le _) (by omega) hc
    fun t ht hwt => addSignedSameLen_spec s hwt wt0 (by omega)) ?_
  rintro ⟨c1, j0⟩ ⟨E0, bj0⟩
  have l1 := E0.len
  simp only at E0 bj0 l1 ⊢
  refine Returns.bind (onSlice_add (W := W) (by omega) (by omega) E0.words
    fun t ht hwt => addSignedInPlace_spec s.negate hwt wt0 (by omega)) ?_
  rintro ⟨c2, j1⟩ ⟨E1, bj1⟩
  have l2 := E1.len
  simp only [Sign.toInt_negate] at E1 bj1 l2 ⊢
  obtain ⟨m1, m2, m3, m4⟩ := mulWord_spec (W := W) (rhs := 3) (by omega) wt0
  generalize mulWord W t0 3 = mw at *
  obtain ⟨u0, top0⟩ := mw
  simp only at m1 m2 m3 m4 ⊢
  simp only [returns_ok]
  refine ⟨by omega, E1.words, by simp; omega, by simp [m2, m3, base_pos], ?_, bj0, bj1, ?_⟩
  · rw [val_append, m1]; simp only [val_cons, val_nil]; rw [← vt0, ← Nat.mul_comm (val W t0), ← m4]; ring
  · have e0 := E0.eq
    have e1 := E1.eq
    rw [vt0] at e0 e1
    push_cast at e0 e1
    linear_combination e0 + e1

theorem toom_hPP {W q : Nat} (hB : 16 ≤ base W) :
    64 * (base W ^ q * base W ^ q) ≤ base W ^ (2 * q + 2) := by
  have e : base W ^ (2 * q + 2) = (base W * base W) * (base W ^ q * base W ^ q) := by
    rw [← pow_add, ← pow_two, ← pow_add]; congr 1; omega
  rw [e]
  exact Nat.mul_le_mul_right _ (by nlinarith)

theorem toom3Two_spec {W q mem : Nat} {rec : MulFn} {t1a a0 a1 a2 b0 b1 b2 : List Nat} (hW : 4 ≤ W)
    (wa0 : IsWords W a0) (wa1 : IsWords W a1) (wa2 : IsWords W a2)
    (wb0 : IsWords W b0) (wb1 : IsWords W b1) (wb2 : IsWords W b2)
    (la0 : a0.length = q) (la1 : a1.length = q) (la2 : a2.length ≤ q)
    (lb0 : b0.length = q) (lb1 : b1.length = q) (lb2 : b2.length ≤ q)
    (lu : t1a.length = 2 * q + 2) (wu : IsWords W t1a) (vu : val W t1a = 3 * (val W a0 * val W b0))
    (hrec : MulOK W rec (q + 1) (q + 1) mem)
    (bound2 : 3 * (val W a0 * val W b0) + (val W a0 + 2 * val W a1 + 4 * val W a2) *
      (val W b0 + 2 * val W b1 + 4 * val W b2) < 64 * (base W ^ q * base W ^ q)) :
    Returns (toom3SameLen.toom3Two W rec q t1a (a0 ++ [0]) (b0 ++ [0]) a1 a2 b1 b2 mem) fun t =>
      t.length = 2 * q + 2 ∧ IsWords W t ∧
      val W t = 3 * (val W a0 * val W b0) + (val W a0 + 2 * val W a1 + 4 * val W a2) *
        (val W b0 + 2 * val W b1 + 4 * val W b2) := by
  have hB : 16 ≤ base W := base_ge hW
  have hPP := toom_hPP (q := q) hB
  unfold toom3SameLen.toom3Two
  refine Returns.bind (toom3Eval2_spec (by omega) wa0 wa1 wa2 la0 la1 (by omega)) ?_
  rintro ea2 ⟨x1, x2, x3⟩
  refine Returns.bind (toom3Eval2_spec (by omega) wb0 wb1 wb2 lb0 lb1 (by omega)) ?_
  rintro eb2 ⟨y1, y2, y3⟩
  refine Returns.bind (hrec t1a .pos ea2 eb2 wu x2 y2 x1 y1 (by omega)) ?_
  rintro ⟨t1b, o1⟩ T1
  simp only [x3, y3, Sign.toInt_pos, one_mul] at T1 ⊢
  have ho1 : o1 = 0 := T1.carry_zero (by positivity) (by
    rw [lu, vu]; exact_mod_cast lt_of_lt_of_le bound2 hPP)
  refine Returns.bind (returns_assertR ho1) fun _ _ => ?_
  simp only [returns_ok]
  refine ⟨T1.len.trans lu, T1.words, ?_⟩
  have := T1.eq_of_carry_zero ho1
  rw [vu] at this
  exact_mod_cast this

theorem toom3Inf_spec {W q qs mem : Nat} {rec : MulFn} {c1 t1b a2 b2 : List Nat} {s : Sign} {T : Nat}
    (hW : 4 ≤ W) (hqs : qs ≤ q) (hl : 4 * q + 2 ≤ c1.length) (hlq : c1.length = 4 * q + 2 * qs)
    (hc : IsWords W c1)
    (wa2 : IsWords W a2) (wb2 : IsWords W b2) (la2 : a2.length = qs) (lb2 : b2.length = qs)
    (lt1b : t1b.length = 2 * q + 2) (wt1b : IsWords W t1b)
    (vt1b : val W t1b = T + 12 * (val W a2 * val W b2))
    (hmem : 2 * q + 2 ≤ mem) (hrec : MulOK W rec qs qs (mem - (2 * q + 2))) :
    Returns (toom3SameLen.toom3Inf W rec c1 s q qs t1b a2 b2 mem) fun p =>
      p.1.length = c1.length ∧ IsWords W p.1 ∧ p.2.1.length = 2 * q + 2 ∧ IsWords W p.2.1 ∧
      val W p.2.1 = T ∧ p.2.2.1.natAbs ≤ 1 ∧ p.2.2.2.natAbs ≤ 1 ∧
      (val W p.1 : Int) + p.2.2.1 * base W ^ (4 * q + 2) + p.2.2.2 * base W ^ c1.length =
        val W c1 + s.toInt * (val W a2 * val W b2) * (base W ^ (4 * q) - base W ^ (2 * q)) := by
  have hB : 16 ≤ base W := base_ge hW
  unfold toom3SameLen.toom3Inf
  refine Returns.bind (returns_allocFill hmem (by omega)) ?_
  rintro _ rfl
  simp only
  rw [sliceR_ok (Nat.zero_le _) (by simp; omega)]
  refine Returns.bind (P := fun s => s = List.replicate (2 * qs) 0) (by
    simp only [returns_ok, List.drop_zero, List.take_replicate]; congr 1; omega) ?_
  rintro _ rfl
  refine Returns.bind (hrec.zeros (isWords_replicate_zero _ _)
    (val_replicate_zero _ _) wa2 wb2 la2 lb2 (by simp; omega)) ?_
  rintro ⟨ti, _⟩ ⟨lti, wti, rfl, vti⟩
  simp only [List.length_replicate] at lti wti vti ⊢
  refine Returns.bind (returns_assertR trivial) fun _ _ => ?_
  refine Returns.bind (onSlice_add (W := W) (by omega) (by omega) hc
    fun t ht hwt => addSignedInPlace_spec s.negate hwt wti (by omega)) ?_
  rintro ⟨c3, j2⟩ ⟨E2, bj2⟩
  have l3 := E2.len
  simp only [Sign.toInt_negate] at E2 bj2 l3 ⊢
  refine Returns.bind (onSlice_add (W := W) (by omega) (by omega) E2.words
    fun t ht hwt => addSignedSameLen_spec s hwt wti (by omega)) ?_
  rintro ⟨c4, j3⟩ ⟨E3, bj3⟩
  have l4 := E3.len
  simp only at E3 bj3 l4 ⊢
  obtain ⟨z1, z2, z3, z4⟩ := mulWord_spec (W := W) (rhs := 12) (by omega) wti
  generalize mulWord W ti 12 = mw at *
  obtain ⟨u1, top1⟩ := mw
  simp only at z1 z2 z3 z4 ⊢
  have vu1 : val W (u1 ++ [top1]) = 12 * (val W a2 * val W b2) := by
    rw [val_snoc, z1, ← vti, Nat.mul_comm 12, ← z4]; ring
  have wu1 : IsWords W (u1 ++ [top1]) := by simp [z2, z3]
  have lu1 : (u1 ++ [top1]).length = 2 * qs + 1 := by simp; omega
  generalize u1 ++ [top1] = t12 at *
  refine Returns.bind (subInPlace_spec wt1b wu1 (by omega)) ?_
  rintro ⟨t1c, o2⟩ T2
  simp only at T2 ⊢
  have hT2 : (val W t1b : Int) + -(val W t12 : Int) = T := by
    rw [vt1b, vu1]; push_cast; ring
  have ho2 : -(o2.toNat : Int) = 0 := T2.carry_zero (by rw [hT2]; positivity) (by
    have h := val_lt wt1b
    have h' : (val W t1b : Int) < (base W : Int) ^ t1b.length := by exact_mod_cast h
    have : (0 : Int) ≤ val W t12 := Int.natCast_nonneg _
    omega)
  have ho2' : o2 = false := by
    cases o2
    · rfl
    · simp at ho2
  have vt1c := T2.eq_of_carry_zero ho2
  rw [hT2] at vt1c
  refine Returns.bind (returns_assertR ho2') fun _ _ => ?_
  simp only [returns_ok]
  refine ⟨by omega, E3.words, T2.len.trans lt1b, T2.words, by exact_mod_cast vt1c, bj2, bj3, ?_⟩
  have e2 := E2.eq
  have e3 := E3.eq
  rw [l3] at e3
  rw [vti] at e2 e3
  push_cast at e2 e3
  linear_combination e2 + e3

theorem toom3One_spec {W q mem : Nat} {rec : MulFn} {c a0 a1 a2 b0 b1 b2 : List Nat} {s : Sign}
    (hW : 4 ≤ W) (hl : 3 * q + 2 ≤ c.length) (hc : IsWords W c)
    (wa0 : IsWords W a0) (wa1 : IsWords W a1) (wa2 : IsWords W a2)
    (wb0 : IsWords W b0) (wb1 : IsWords W b1) (wb2 : IsWords W b2)
    (la0 : a0.length = q) (la1 : a1.length = q) (la2 : a2.length ≤ q)
    (lb0 : b0.length = q) (lb1 : b1.length = q) (lb2 : b2.length ≤ q)
    (hmem : 2 * q + 2 ≤ mem) (hrec : MulOK W rec (q + 1) (q + 1) (mem - (q + 1) - (q + 1))) :
    Returns (toom3SameLen.toom3One W rec c s q (List.replicate (2 * q + 2) 0) a0 a1 a2 b0 b1 b2 mem)
     fun p =>
      p.1.length = c.length ∧ IsWords W p.1 ∧ p.2.1.length = 2 * q + 2 ∧ IsWords W p.2.1 ∧
      val W p.2.1 = (val W a0 + val W a1 + val W a2) * (val W b0 + val W b1 + val W b2) ∧
      p.2.2.1.length = q + 1 ∧ IsWords W p.2.2.1 ∧ val W p.2.2.1 = val W a0 + val W a2 ∧
      p.2.2.2.1.length = q + 1 ∧ IsWords W p.2.2.2.1 ∧ val W p.2.2.2.1 = val W b0 + val W b2 ∧
      p.2.2.2.2.natAbs ≤ 1 ∧
      (val W p.1 : Int) + p.2.2.2.2 * base W ^ (3 * q + 2) = val W c +
        s.toInt * ((val W a0 + val W a1 + val W a2) * (val W b0 + val W b1 + val W b2)) * base W ^ q := by
  have hB : 16 ≤ base W := base_ge hW
  unfold toom3SameLen.toom3One
  refine Returns.bind (returns_allocCopyFill (by omega) (by omega) (by omega)) ?_
  rintro _ rfl
  simp only
  rw [la0, show q + 1 - q = 1 by omega]
  simp only [List.replicate_one]
  refine Returns.bind (toom3Eval1_spec (by omega) wa0 wa1 wa2 la0 la1 (by omega)) ?_
  rintro ⟨a02, ea1⟩ ⟨f1, f2, f3, f4, f5, f6⟩
  simp only at f1 f2 f3 f4 f5 f6 ⊢
  refine Returns.bind (returns_allocCopyFill (by omega) (by omega) (by omega)) ?_
  rintro _ rfl
  simp only
  rw [lb0, show q + 1 - q = 1 by omega]
  simp only [List.replicate_one]
  refine Returns.bind (toom3Eval1_spec (by omega) wb0 wb1 wb2 lb0 lb1 (by omega)) ?_
  rintro ⟨b02, eb1⟩ ⟨g1, g2, g3, g4, g5, g6⟩
  simp only at g1 g2 g3 g4 g5 g6 ⊢
  refine Returns.bind (hrec.zeros (isWords_replicate_zero _ _)
    (val_replicate_zero _ _) f5 g5 f4 g4 (by simp; omega)) ?_
  rintro ⟨t2a, _⟩ ⟨lt2a, wt2a, rfl, vt2a⟩
  simp only [List.length_replicate] at lt2a wt2a vt2a ⊢
  refine Returns.bind (returns_assertR trivial) fun _ _ => ?_
  refine Returns.bind (onSlice_add (W := W) (by omega) (by omega) hc
    fun t ht hwt => addSignedInPlace_spec s hwt wt2a (by omega)) ?_
  rintro ⟨c5, j4⟩ ⟨E4, bj4⟩
  simp only at E4 bj4 ⊢
  simp only [returns_ok]
  rw [f6, g6] at vt2a
  refine ⟨E4.len, E4.words, lt2a, wt2a, vt2a, f1, f2, f3, g1, g2, g3, bj4, ?_⟩
  have e4 := E4.eq
  rw [vt2a] at e4
  push_cast at e4
  exact e4

theorem toom3NegOne_spec {W q mem : Nat} {rec : MulFn} {t1c t2a a02 a1 b02 b1 : List Nat}
    {A0 A2 B0 B2 : Nat} (hW : 4 ≤ W)
    (wa1 : IsWords W a1) (wb1 : IsWords W b1) (la1 : a1.length = q) (lb1 : b1.length = q)
    (f1 : a02.length = q + 1) (f2 : IsWords W a02) (f3 : val W a02 = A0 + A2)
    (g1 : b02.length = q + 1) (g2 : IsWords W b02) (g3 : val W b02 = B0 + B2)
    (lt1c : t1c.length = 2 * q + 2) (wt1c : IsWords W t1c)
    (vt1c : val W t1c = toomT1 A0 (val W a1) A2 B0 (val W b1) B2)
    (lt2a : t2a.length = 2 * q + 2) (wt2a : IsWords W t2a)
    (vt2a : val W t2a = (A0 + val W a1 + A2) * (B0 + val W b1 + B2))
    (bound1 : A0 * B0 + (A0 * B2 + val W a1 * val W b1 + A2 * B0) + (val W a1 * B2 + A2 * val W b1)
      + A2 * B2 < 7 * (base W ^ q * base W ^ q))
    (hmem : 2 * (q + 1) ≤ mem) (hrec : MulOK W rec (q + 1) (q + 1) (mem - 2 * (q + 1))) :
    Returns (toom3SameLen.toom3NegOne W rec q t1c t2a a02 a1 b02 b1 mem) fun p =>
      p.1.length = 2 * q + 2 ∧ IsWords W p.1 ∧ p.2.length = 2 * q + 2 ∧ IsWords W p.2 ∧
      val W p.1 = A0 * B0 + (A0 * B2 + val W a1 * val W b1 + A2 * B0)
        + (val W a1 * B2 + A2 * val W b1) + A2 * B2 ∧
      val W p.2 = A0 * B0 + (A0 * B2 + val W a1 * val W b1 + A2 * B0) + A2 * B2 := by
  have hB : 16 ≤ base W := base_ge hW
  unfold toom3SameLen.toom3NegOne
  refine Returns.bind (subInPlaceWithSign_spec f2 wa1 (by omega)) ?_
  rintro ⟨am, s1⟩ ⟨am1, am2, am3⟩
  simp only at am1 am2 am3 ⊢
  refine Returns.bind (subInPlaceWithSign_spec g2 wb1 (by omega)) ?_
  rintro ⟨bm, s2⟩ ⟨bm1, bm2, bm3⟩
  simp only at bm1 bm2 bm3 ⊢
  refine Returns.bind (returns_allocFill (by omega) (by omega)) ?_
  rintro _ rfl
  simp only
  refine Returns.bind (hrec.zeros (isWords_replicate_zero _ _)
    (val_replicate_zero _ _) am2 bm2 (by omega) (by omega) (by simp; omega)) ?_
  rintro ⟨tm, _⟩ ⟨ltm, wtm, rfl, vtm⟩
  simp only [List.length_replicate] at ltm wtm vtm ⊢
  refine Returns.bind (returns_assertR trivial) fun _ _ => ?_
  generalize val W a1 = A1 at *
  generalize val W b1 = B1 at *
  have hsg : ((s1.mul s2).toInt : Int) * val W tm =
      ((A0 : Int) - A1 + A2) * (B0 - B1 + B2) := by
    rw [Sign.toInt_mul, vtm]
    push_cast
    rw [f3] at am3
    rw [g3] at bm3
    push_cast at am3 bm3
    linear_combination am3 * (s2.toInt * val W bm) + ((A0 : Int) + A2 - A1) * bm3
  generalize s1.mul s2 = sg at *
  refine Returns.bind (addSignedSameLen_spec sg wt2a wtm (by omega)) ?_
  rintro ⟨t2b, o3⟩ ⟨T3, -⟩
  simp only at T3 ⊢
  obtain ⟨X2, hX2⟩ : ∃ X, X = A0 * B0 + (A0 * B2 + A1 * B1 + A2 * B0) + A2 * B2 := ⟨_, rfl⟩
  obtain ⟨X1, hX1⟩ : ∃ X, X = A0 * B0 + (A0 * B2 + A1 * B1 + A2 * B0) + (A1 * B2 + A2 * B1) + A2 * B2 :=
    ⟨_, rfl⟩
  have hX12 : X2 ≤ X1 := by omega
  rw [← hX1] at bound1
  rw [← hX1, ← hX2]
  have hT3 : (val W t2a : Int) + sg.toInt * val W tm = ((2 * X2 : Nat) : Int) := by
    rw [hsg, vt2a, hX2]; push_cast; ring
  have hT4 : (val W t1c : Int) + sg.toInt * (2 * val W tm) = ((6 * X1 : Nat) : Int) := by
    rw [vt1c, toomT1, hX1]; push_cast; linear_combination 2 * hsg
  have hX1' : 6 * X1 < base W ^ (2 * q + 2) := by have := toom_hPP (q := q) hB; omega
  have hX2' : 2 * X2 < base W ^ (2 * q + 2) := by omega
  have ho3 : o3 = 0 := T3.carry_zero (by rw [hT3]; positivity) (by
    rw [hT3, show t2a.length = 2 * q + 2 by omega]; exact_mod_cast hX2')
  have vt2b := T3.eq_of_carry_zero ho3
  rw [hT3] at vt2b
  have lt2b : t2b.length = 2 * q + 2 := T3.len.trans (by omega)
  refine Returns.bind (returns_assertR ho3) fun _ _ => ?_
  refine Returns.bind (P := fun p : List Nat × Nat => p.1.length = 2 * q + 2 ∧ IsWords W p.1 ∧ p.2 = 0 ∧
      (val W p.1 : Int) = ((6 * X1 : Nat) : Int)) ?_ ?_
  · unfold toom3SameLen.toom3AddNeg1
    cases sg with
    | pos =>
      simp only
      refine (addMulWordSameLen_spec (by omega) wt1c wtm (by omega)).mono ?_
      rintro ⟨t1d, o4⟩ ⟨T4, -⟩
      simp only at T4 ⊢
      have e : (val W t1c : Int) + ((2 : Nat) : Int) * val W tm = ((6 * X1 : Nat) : Int) := by
        rw [← hT4]; simp
      have h0 : (o4 : Int) = 0 := T4.carry_zero (by rw [e]; positivity) (by
        rw [e, lt1c]; exact_mod_cast hX1')
      have h1 := T4.eq_of_carry_zero h0
      rw [e] at h1
      exact ⟨T4.len.trans lt1c, T4.words, by exact_mod_cast h0, h1⟩
    | neg =>
      simp only
      refine (subMulWordSameLen_spec (by omega) wt1c wtm (by omega)).mono ?_
      rintro ⟨t1d, o4⟩ ⟨T4, -⟩
      simp only at T4 ⊢
      have e : (val W t1c : Int) + -(((2 : Nat) : Int) * val W tm) = ((6 * X1 : Nat) : Int) := by
        rw [← hT4]; simp
      have h0 : -(o4 : Int) = 0 := T4.carry_zero (by rw [e]; positivity) (by
        rw [e, lt1c]; exact_mod_cast hX1')
      have h1 := T4.eq_of_carry_zero h0
      rw [e] at h1
      exact ⟨T4.len.trans lt1c, T4.words, by omega, h1⟩
  rintro ⟨t1d, o4⟩ ⟨lt1d, wt1d, ho4, vt1d⟩
  simp only at lt1d wt1d ho4 vt1d ⊢
  refine Returns.bind (returns_assertR ho4) fun _ _ => ?_
  refine Returns.bind (divByWord_spec (by omega) (by norm_num : 6 ≠ 0) (by omega) wt1d) ?_
  rintro ⟨t1, r1⟩ ⟨lt1, wt1, hr1, vt1⟩
  simp only at lt1 wt1 hr1 vt1 ⊢
  refine Returns.bind (shrInPlace_spec (by omega : 1 < W) T3.words) ?_
  rintro ⟨t2, r2⟩ ⟨lt2, wt2, hr2, vt2⟩
  simp only at lt2 wt2 hr2 vt2 ⊢
  have hr1' : r1 = 0 := by omega
  have hr2' : r2 = 0 := by omega
  refine Returns.bind (returns_assertR hr1') fun _ _ => ?_
  refine Returns.bind (returns_assertR hr2') fun _ _ => ?_
  simp only [returns_ok]
  exact ⟨by omega, wt1, by omega, wt2, by omega, by omega⟩

theorem toom3SameLen_spec {W n mem : Nat} {rec : MulFn} (hW : 4 ≤ W) (hn : toom3MinLen ≤ n)
    (hm : 8 * ((n + 2) / 3 + 1) ≤ mem)
    (hrec : RecOK W rec ((n + 2) / 3 + 1) (mem - 8 * ((n + 2) / 3 + 1))) :
    MulOK W (toom3SameLen W rec) n n mem := by
  intro c s a b hc ha hb hla hlb hlc
  have hB : 16 ≤ base W := base_ge hW
  unfold toom3SameLen
  simp only [hla]
  refine Returns.bind (returns_assertR ⟨hlb, by omega⟩) fun _ _ => ?_
  refine Returns.bind (returns_assertR hn) fun _ _ => ?_
  unfold toom3MinLen at hn
  generalize hq : (n + 2) / 3 = q at *
  have hck : ckSub n (2 * q) = .ok (n - 2 * q) := by unfold ckSub; rw [if_pos (by omega)]
  rw [hck]
  refine Returns.bind (P := fun s => s = n - 2 * q) (by simp) ?_
  intro qs hqs
  have hqs1 : 1 ≤ qs := by omega
  have hqs2 : qs ≤ q := by omega
  refine Returns.bind (returns_splitR (by omega)) ?_
  rintro ⟨a0, a12⟩ ⟨rfl, la0⟩
  simp only [List.length_append, isWords_append] at hla ha la0 ⊢
  refine Returns.bind (returns_splitR (by omega)) ?_
  rintro ⟨a1, a2⟩ ⟨rfl, la1⟩
  simp only [List.length_append, isWords_append] at hla ha la1 ⊢
  refine Returns.bind (returns_splitR (by omega)) ?_
  rintro ⟨b0, b12⟩ ⟨rfl, lb0⟩
  simp only [List.length_append, isWords_append] at hlb hb lb0 ⊢
  refine Returns.bind (returns_splitR (by omega)) ?_
  rintro ⟨b1, b2⟩ ⟨rfl, lb1⟩
  simp only [List.length_append, isWords_append] at hlb hb lb1 ⊢
  obtain ⟨wa0, wa1, wa2⟩ := ha
  obtain ⟨wb0, wb1, wb2⟩ := hb
  have la2 : a2.length = qs := by omega
  have lb2 : b2.length = qs := by omega
  have va0 := val_lt wa0; rw [la0] at va0
  have va1 := val_lt wa1; rw [la1] at va1
  have va2 : val W a2 < base W ^ q :=
    lt_of_lt_of_le (val_lt wa2) (Nat.pow_le_pow_right (base_pos W) (by omega))
  have vb0 := val_lt wb0; rw [lb0] at vb0
  have vb1 := val_lt wb1; rw [lb1] at vb1
  have vb2 : val W b2 < base W ^ q :=
    lt_of_lt_of_le (val_lt wb2) (Nat.pow_le_pow_right (base_pos W) (by omega))
  have bound2 := toom_bound2 va0 va1 va2 vb0 vb1 vb2
  have bound1 := toom_bound1 va0 va1 va2 vb0 vb1 vb2
  refine Returns.bind (returns_allocFill (by omega) (by omega)) ?_
  rintro _ rfl
  simp only
  refine Returns.bind (toom3Zero_spec (s := s) hW (by omega) hc wa0 wb0 la0 lb0
    (hrec q _ (by omega) (by omega))) ?_
  rintro ⟨c1, t1a, j0, j1⟩ ⟨l1, w1, lt1a, wt1a, vt1a, bj0, bj1, e1⟩
  simp only at l1 w1 lt1a wt1a vt1a bj0 bj1 e1 ⊢
  refine Returns.bind (returns_allocCopyFill (by omega) (by omega) (by omega)) ?_
  rintro _ rfl
  simp only
  refine Returns.bind (returns_allocCopyFill (by omega) (by omega) (by omega)) ?_
  rintro _ rfl
  simp only
  rw [la0, lb0, show q + 1 - q = 1 by omega]
  simp only [List.replicate_one]
  refine Returns.bind (toom3Two_spec hW wa0 wa1 wa2 wb0 wb1 wb2 la0 la1 (by omega) lb0 lb1 (by omega)
    lt1a wt1a vt1a (hrec (q + 1) _ (by omega) (by omega)) bound2) ?_
  rintro t1b ⟨lt1b, wt1b, vt1b⟩
  rw [← toomT1_eq] at vt1b
  refine Returns.bind (toom3Inf_spec (s := s) hW hqs2 (by omega) (by omega) w1 wa2 wb2 la2 lb2
    lt1b wt1b vt1b (by omega) (hrec qs _ (by omega) (by omega))) ?_
  rintro ⟨c2, t1c, j2, j3⟩ ⟨l2, w2, lt1c, wt1c, vt1c, bj2, bj3, e2⟩
  simp only at l2 w2 lt1c wt1c vt1c bj2 bj3 e2 ⊢
  refine Returns.bind (returns_ckInt hW (by omega)) ?_
  rintro _ rfl
  refine Returns.bind (returns_allocFill (by omega) (by omega)) ?_
  rintro _ rfl
  simp only
  refine Returns.bind (toom3One_spec (s := s) hW (by omega) w2 wa0 wa1 wa2 wb0 wb1 wb2 la0 la1
    (by omega) lb0 lb1 (by omega) (by omega) (hrec (q + 1) _ (by omega) (by omega))) ?_
  rintro ⟨c3, t2a, a02, b02, j4⟩ ⟨l3, w3, lt2a, wt2a, vt2a, f1, f2, f3, g1, g2, g3, bj4, e3⟩
  simp only at l3 w3 lt2a wt2a vt2a f1 f2 f3 g1 g2 g3 bj4 e3 ⊢
  refine Returns.bind (toom3NegOne_spec hW wa1 wb1 la1 lb1 f1 f2 f3 g1 g2 g3 lt1c wt1c vt1c
    lt2a wt2a vt2a bound1 (by omega) (hrec (q + 1) _ (by omega) (by omega))) ?_
  rintro ⟨t1, t2⟩ ⟨lt1, wt1, lt2, wt2, vt1, vt2⟩
  simp only at lt1 wt1 lt2 wt2 vt1 vt2 ⊢
  have wA : IsWords W (a0 ++ (a1 ++ a2)) := by simp [wa0, wa1, wa2]
  have wB : IsWords W (b0 ++ (b1 ++ b2)) := by simp [wb0, wb1, wb2]
  have l5c : c3.length = c.length := by omega
  have hx : 0 ≤ (val W (a0 ++ (a1 ++ a2)) : Int) * val W (b0 ++ (b1 ++ b2)) := by positivity
  have hy : val W (a0 ++ (a1 ++ a2)) * val W (b0 ++ (b1 ++ b2)) ≤ base W ^ c.length := by
    rw [hlc, pow_add]
    refine Nat.mul_le_mul ?_ ?_
    · have := (val_lt wA).le
      rwa [List.length_append, List.length_append, hla] at this
    · have := (val_lt wB).le
      rwa [List.length_append, List.length_append, hlb] at this
  have hy' : (val W (a0 ++ (a1 ++ a2)) : Int) * val W (b0 ++ (b1 ++ b2)) ≤ (base W : Int) ^ c.length := by
    exact_mod_cast hy
  have hsa := sign_abs_le s hx hy'
  have hvc : (val W c : Int) < (base W : Int) ^ c.length := by exact_mod_cast val_lt hc
  have hvc0 : (0 : Int) ≤ val W c := Int.natCast_nonneg _
  refine (toom3Finish_spec (s := s) (D := val W c +
    s.toInt * ((val W (a0 ++ (a1 ++ a2)) : Int) * val W (b0 ++ (b1 ++ b2)))) hW (by omega) (by omega)
    w3 wt1 wt2 lt1 lt2 bj0 bj4 (by omega : (j1 + j2).natAbs ≤ 2) bj3 ?_ ?_ ?_).mono ?_
  · rw [vt1, vt2, l5c]
    have p2 : (base W : Int) ^ (2 * q) = (base W ^ q) ^ 2 := by
      rw [← pow_mul]; congr 1; omega
    have p3 : (base W : Int) ^ (3 * q) = (base W ^ q) ^ 3 := by
      rw [← pow_mul]; congr 1; omega
    have p4 : (base W : Int) ^ (4 * q) = (base W ^ q) ^ 4 := by
      rw [← pow_mul]; congr 1; omega
    rw [val_append, val_append, val_append, val_append, la0, la1, lb0, lb1]
    rw [l1] at e2
    rw [p2] at e1 e2
    rw [p4] at e2
    rw [p2, p3]
    push_cast at e1 e2 e3 ⊢
    linear_combination -(e1 + e2 + e3)
  · rw [l5c]; omega
  · rw [l5c]; omega
  · rintro ⟨c6, k⟩ ⟨r1, r2, r3⟩
    simp only at r1 r2 r3 ⊢
    refine ⟨by omega, r2, ?_⟩
    rw [← l5c]
    exact r3

end Ibig
