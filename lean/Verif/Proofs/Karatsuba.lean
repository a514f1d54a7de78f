import Verif.Proofs.MulSimple
namespace Ibig

theorem returns_allocFill {mem n x : Nat} (h : n ≤ mem) (h0 : mem ≠ 0) :
    Returns (allocFill mem n x) fun p => p = (List.replicate n x, mem - n) := by
  simp [allocFill, h, h0]

theorem returns_allocCopy {mem : Nat} {l : List Nat} (h : l.length ≤ mem) (h0 : mem ≠ 0) :
    Returns (allocCopy mem l) fun p => p = (l, mem - l.length) := by
  simp [allocCopy, h, h0]

theorem onSlice_add {W : Nat} {c : List Nat} {i j : Nat} {f : List Nat → R (List Nat × Int)} {δ : Int}
    (h1 : i ≤ j) (h2 : j ≤ c.length) (hc : IsWords W c)
    (hf : ∀ s, s.length = j - i → IsWords W s →
      Returns (f s) fun r => AddSpec W s r.1 r.2 δ ∧ r.2.natAbs ≤ 1) :
    Returns (onSlice c i j f) fun r => AddAt W c r.1 i j r.2 δ ∧ r.2.natAbs ≤ 1 :=
  onSlice_spec (k := fun k : Int => k) (δ := fun _ => δ) (Q := fun k => k.natAbs ≤ 1) h1 h2 hc
    (fun s h h' _ => hf s h h')

theorem onSlice_signed_word {W : Nat} {c : List Nat} {i j : Nat} {δ : Int}
    (h1 : i < j) (h2 : j ≤ c.length) (hc : IsWords W c) (hk : δ.natAbs < base W) (hW : 1 ≤ W) :
    Returns (onSlice c i j (fun s => addSignedWord W s δ)) fun r =>
      AddAt W c r.1 i j r.2 δ ∧ r.2.natAbs ≤ 1 :=
  onSlice_add h1.le h2 hc fun s h h' =>
    addSignedWord_spec' hW h' hk (by intro h; subst h; simp at h; omega)

theorem onSlice_signed_word' {W : Nat} {c : List Nat} {i j : Nat} {δ : Int}
    (h1 : i ≤ j) (h2 : j ≤ c.length) (hc : IsWords W c) (hk : δ.natAbs < base W) (hW : 1 ≤ W) :
    Returns (onSlice c i j (fun s => addSignedWord W s δ)) fun r =>
      AddAt W c r.1 i j r.2 δ ∧ r.2.natAbs ≤ max 1 δ.natAbs :=
  onSlice_spec (W := W) (k := fun k : Int => k) (δ := fun _ => δ)
    (Q := fun k => k.natAbs ≤ max 1 δ.natAbs) h1 h2 hc
    (fun s _ h' _ => addSignedWord_spec'' hW h' hk)

set_option maxHeartbeats 600000 in
theorem karatsubaSameLen_spec {W n mem : Nat} {rec : MulFn} (hW : 4 ≤ W) (hn : karatsubaMinLen ≤ n)
    (hm : 2 * ((n + 1) / 2) ≤ mem)
    (h1 : MulOK W rec ((n + 1) / 2) ((n + 1) / 2) (mem - 2 * ((n + 1) / 2)))
    (h2 : MulOK W rec (n - (n + 1) / 2) (n - (n + 1) / 2) (mem - 2 * (n - (n + 1) / 2))) :
    MulOK W (karatsubaSameLen W rec) n n mem := by
  intro c s a b hc ha hb hla hlb hlc
  have hB : 16 ≤ base W := base_ge hW
  unfold karatsubaSameLen
  simp only [hla]
  refine Returns.bind (returns_assertR ⟨hlb, by omega⟩) fun _ _ => ?_
  refine Returns.bind (returns_assertR hn) fun _ _ => ?_
  unfold karatsubaMinLen at hn
  generalize hmid : (n + 1) / 2 = mid at *
  refine Returns.bind (returns_splitR (by omega)) ?_
  rintro ⟨al, ah⟩ ⟨rfl, hal⟩
  refine Returns.bind (returns_splitR (by omega)) ?_
  rintro ⟨bl, bh⟩ ⟨rfl, hbl⟩
  simp only [List.length_append, isWords_append] at hla hlb ha hb hal hbl ⊢
  refine Returns.bind (returns_allocFill hm (by omega)) ?_
  rintro _ rfl
  simp only
  refine Returns.bind (h1.zeros (isWords_replicate_zero _ _) (val_replicate_zero _ _) ha.1 hb.1 hal hbl
    (by simp; omega)) ?_
  rintro ⟨cl, _⟩ ⟨q1, q2, rfl, q3⟩
  simp only [List.length_replicate] at q1 q2 q3 ⊢
  refine Returns.bind (returns_assertR trivial) fun _ _ => ?_
  refine Returns.bind (onSlice_add (W := W) (Nat.zero_le _) (by omega) hc
    fun t ht hwt => addSignedSameLen_spec s hwt q2 (by omega)) ?_
  rintro ⟨c1, k0⟩ ⟨E0, b0⟩
  have l1 := E0.len
  simp only at E0 b0 l1 ⊢
  refine Returns.bind (onSlice_add (W := W) (by omega) (by omega) E0.words
    fun t ht hwt => addSignedSameLen_spec s hwt q2 (by omega)) ?_
  rintro ⟨c2, k1⟩ ⟨E1, b1⟩
  have l2 := E1.len
  simp only at E1 b1 l2 ⊢
  refine Returns.bind (returns_allocFill (by omega) (by omega)) ?_
  rintro _ rfl
  simp only
  refine Returns.bind (h2.zeros (isWords_replicate_zero _ _) (val_replicate_zero _ _) ha.2 hb.2
    (by omega) (by omega) (by simp; omega)) ?_
  rintro ⟨ch, _⟩ ⟨r1, r2, rfl, r3⟩
  simp only [List.length_replicate] at r1 r2 r3 ⊢
  refine Returns.bind (returns_assertR trivial) fun _ _ => ?_
  refine Returns.bind (onSlice_add (W := W) (by omega) (by omega) E1.words
    fun t ht hwt => addSignedSameLen_spec s hwt r2 (by omega)) ?_
  rintro ⟨c3, k2⟩ ⟨E2, b2⟩
  have l3 := E2.len
  simp only at E2 b2 l3 ⊢
  refine Returns.bind (onSlice_add (W := W) (by omega) (by omega) E2.words
    fun t ht hwt => addSignedInPlace_spec s hwt r2 (by omega)) ?_
  rintro ⟨c4, k3⟩ ⟨E3, b3⟩
  have l4 := E3.len
  simp only at E3 b3 l4 ⊢
  refine Returns.bind (returns_ckInt hW (by omega)) ?_
  rintro _ rfl
  refine Returns.bind (returns_allocCopy (by omega) (by omega)) ?_
  rintro _ rfl
  simp only
  refine Returns.bind (subInPlaceWithSign_spec ha.1 ha.2 (by omega)) ?_
  rintro ⟨ad, s1⟩ ⟨d1, d2, d3⟩
  simp only at d1 d2 d3 ⊢
  refine Returns.bind (returns_allocCopy (by omega) (by omega)) ?_
  rintro _ rfl
  simp only
  refine Returns.bind (subInPlaceWithSign_spec hb.1 hb.2 (by omega)) ?_
  rintro ⟨bd, s2⟩ ⟨d4, d5, d6⟩
  simp only at d4 d5 d6 ⊢
  have hmem : mem - al.length - bl.length = mem - 2 * mid := by omega
  rw [hmem]
  refine Returns.bind (onSlice_add (W := W) (by omega) (by omega) E3.words
    fun t ht hwt => h1.carry t _ ad bd hwt d2 d5 (by omega) (by omega) (by omega)) ?_
  rintro ⟨c5, k4⟩ ⟨E4, b4⟩
  have l5 := E4.len
  simp only [Sign.toInt_mul, Sign.toInt_negate] at E4 b4 l5 ⊢
  refine Returns.bind (returns_ckInt hW (by omega)) ?_
  rintro _ rfl
  refine Returns.bind (onSlice_signed_word (W := W) (by omega) (by omega) E4.words (by omega) (by omega)) ?_
  rintro ⟨c6, k5⟩ ⟨E5, b5⟩
  have l6 := E5.len
  simp only at E5 b5 l6 ⊢
  refine Returns.bind (returns_ckInt hW (by omega)) ?_
  rintro _ rfl
  refine Returns.bind (onSlice_signed_word' (W := W) (by omega) (by omega) E5.words (by omega) (by omega)) ?_
  rintro ⟨c7, k6⟩ ⟨E6, b6⟩
  have l7 := E6.len
  simp only at E6 b6 l7 ⊢
  refine Returns.bind (returns_ckInt hW (by omega)) ?_
  rintro _ rfl
  have key : AddSpec W c c7 (k2 + k6)
      (s.toInt * ((val W (al ++ ah) : Int) * val W (bl ++ bh))) := by
    refine ⟨by omega, E6.words, ?_⟩
    have e0 := E0.eq
    have e1 := E1.eq
    have e2 := E2.eq
    have e3 := E3.eq
    have e4 := E4.eq
    have e5 := E5.eq
    have e6 := E6.eq
    rw [show c6.length = c.length by omega] at e6
    rw [show c2.length = c.length by omega] at e2
    rw [q3] at e0 e1
    rw [r3] at e2 e3
    have p2 : (base W : Int) ^ (2 * mid) = base W ^ mid * base W ^ mid := by
      rw [← pow_add]; congr 1; omega
    rw [val_append, val_append, hal, hbl]
    push_cast at e0 e1 e2 e3 e4 e5 e6 ⊢
    linear_combination e0 + e1 + e2 + e3 + e4 + e5 + e6 -
      s.toInt * (base W : Int) ^ mid * (d3 * (s2.toInt * val W bd) + ((val W al : Int) - val W ah) * d6)
      + s.toInt * ((val W ah : Int) * val W bh) * p2
  have hk : (k2 + k6).natAbs ≤ 1 := by
    have hx : 0 ≤ (val W (al ++ ah) : Int) * val W (bl ++ bh) := by positivity
    have hy : val W (al ++ ah) * val W (bl ++ bh) ≤ base W ^ c.length := by
      rw [hlc, pow_add]
      refine Nat.mul_le_mul ?_ ?_
      · have := (val_lt (isWords_append.mpr ha)).le
        rwa [List.length_append, hla] at this
      · have := (val_lt (isWords_append.mpr hb)).le
        rwa [List.length_append, hlb] at this
    have hy' : (val W (al ++ ah) : Int) * val W (bl ++ bh) ≤ (base W : Int) ^ c.length := by
      exact_mod_cast hy
    have := sign_abs_le s hx hy'
    exact key.carry_bound this.1 this.2 hc
  refine Returns.bind (returns_assertR hk) fun _ _ => ?_
  simp only [returns_ok]
  exact key

end Ibig
