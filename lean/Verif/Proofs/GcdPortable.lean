import Verif.Proofs.ExtGcd
import Verif.Proofs.FmtSink
/-! `extended_gcd` on two builds: the runs go through the same numbers. -/
namespace Ibig

/-- Two numbers of two builds with the same value. -/
structure Same (c d : Cfg) (a b : UBig) : Prop where
  left : a.WF c
  right : b.WF d
  eq : a.value c = b.value d

/-- Two triples of two builds with the same values. -/
structure SameT (c d : Cfg) (p q : GcdTriple) : Prop where
  a : Same c d p.a q.a
  x : Same c d p.x q.x
  y : Same c d p.y q.y

section
variable {c d : Cfg} (hc : c.Valid) (hd : d.Valid)

theorem Yields.of_ok {cfg : Cfg} {x : R UBig} {n : Nat} {a : UBig} (h : Yields cfg x n) (e : x = .ok a) :
    a.WF cfg ∧ a.value cfg = n := by
  by_cases hf : Fits cfg n
  · obtain ⟨b, h1, h2, h3⟩ := h.1 hf
    rw [e] at h1; cases h1; exact ⟨h2, h3⟩
  · have := h.2 hf; rw [e] at this; cases this

theorem Same.of_yields {x y : R UBig} {n m : Nat} {a b : UBig} (h : Yields c x n) (h' : Yields d y m)
    (e : n = m) (hx : x = .ok a) (hy : y = .ok b) : Same c d a b := by
  obtain ⟨h1, h2⟩ := h.of_ok hx
  obtain ⟨g1, g2⟩ := h'.of_ok hy
  exact ⟨h1, g1, by rw [h2, g2, e]⟩

theorem Same.of_returns {x y : R UBig} {n m : Nat} {a b : UBig}
    (h : Returns x fun a => a.WF c ∧ a.value c = n) (h' : Returns y fun a => a.WF d ∧ a.value d = m)
    (e : n = m) (hx : x = .ok a) (hy : y = .ok b) : Same c d a b := by
  obtain ⟨_, h0, h1, h2⟩ := h
  obtain ⟨_, g0, g1, g2⟩ := h'
  rw [hx] at h0; rw [hy] at g0; cases h0; cases g0
  exact ⟨h1, g1, by rw [h2, g2, e]⟩

include hc hd

theorem Same.small {w : Nat} (hw : w < 2) : Same c d (.small w) (.small w) := by
  have h1 := hc.W1
  have h2 := hd.W1
  have : ∀ n, 1 ≤ n → 2 ≤ 2 ^ n := fun n hn => by
    calc 2 = 2 ^ 1 := rfl
      _ ≤ 2 ^ n := Nat.pow_le_pow_right (by omega) hn
  exact ⟨lt_of_lt_of_le hw (this _ (by omega)), lt_of_lt_of_le hw (this _ (by omega)), rfl⟩

theorem Same.add {a b a' b' x y : UBig} (ha : Same c d a a') (hb : Same c d b b') (o1 o2 o1' o2' : Own)
    (hx : UBig.add c o1 o2 a b = .ok x) (hy : UBig.add d o1' o2' a' b' = .ok y) : Same c d x y :=
  Same.of_yields (UBig.add_spec hc o1 o2 ha.left hb.left) (UBig.add_spec hd o1' o2' ha.right hb.right)
    (by rw [ha.eq, hb.eq]) hx hy

theorem Same.sub {a b a' b' x y : UBig} (ha : Same c d a a') (hb : Same c d b b') (o1 o2 o1' o2' : Own)
    (hx : UBig.sub c o1 o2 a b = .ok x) (hy : UBig.sub d o1' o2' a' b' = .ok y) : Same c d x y := by
  have h := UBig.sub_spec hc o1 o2 ha.left hb.left
  have h' := UBig.sub_spec hd o1' o2' ha.right hb.right
  by_cases hl : b.value c ≤ a.value c
  · exact Same.of_yields (h.1 hl) (h'.1 (by rw [← ha.eq, ← hb.eq]; exact hl)) (by rw [ha.eq, hb.eq]) hx hy
  · have := h.2 (by omega); rw [hx] at this; cases this

theorem Same.shr {a a' x y : UBig} (ha : Same c d a a') (o o' : Own) (n : Nat)
    (hx : a.shr c o n = .ok x) (hy : a'.shr d o' n = .ok y) : Same c d x y :=
  Same.of_returns (UBig.shr_spec hc o ha.left n) (UBig.shr_spec hd o' ha.right n) (by rw [ha.eq]) hx hy

theorem Same.shl {a a' x y : UBig} (ha : Same c d a a') (o o' : Own) {n : Nat} (hn : n < 2 ^ c.U)
    (hn' : n < 2 ^ d.U) (hx : a.shl c o n = .ok x) (hy : a'.shl d o' n = .ok y) : Same c d x y :=
  Same.of_yields (UBig.shl_spec hc o ha.left hn) (UBig.shl_spec hd o' ha.right hn') (by rw [ha.eq]) hx hy

omit hc hd in
theorem Same.clone {a a' x y : UBig} (ha : Same c d a a') (hx : a.clone c = .ok x) (hy : a'.clone d = .ok y) :
    Same c d x y :=
  Same.of_returns (UBig.clone_spec ha.left) (UBig.clone_spec ha.right) ha.eq hx hy

theorem Same.lt {a b a' b' : UBig} (ha : Same c d a a') (hb : Same c d b b') :
    UBig.lt a b = UBig.lt a' b' := by
  rw [UBig.lt_spec hc ha.left hb.left, UBig.lt_spec hd ha.right hb.right, ha.eq, hb.eq]

theorem Same.le {a b a' b' : UBig} (ha : Same c d a a') (hb : Same c d b b') :
    UBig.le a b = UBig.le a' b' := by
  rw [UBig.le_spec hc ha.left hb.left, UBig.le_spec hd ha.right hb.right, ha.eq, hb.eq]

theorem Same.isEven {a a' : UBig} (ha : Same c d a a') : a.isEven c = a'.isEven d := by
  rw [UBig.isEven_spec hc ha.left, UBig.isEven_spec hd ha.right, ha.eq]

theorem Same.isZero {a a' : UBig} (ha : Same c d a a') : a.beq (.small 0) = a'.beq (.small 0) := by
  rw [Bool.eq_iff_iff, UBig.beq_zero hc ha.left, UBig.beq_zero hd ha.right, ha.eq]

theorem Same.divRem {a b a' b' : UBig} {x y : UBig × UBig} (ha : Same c d a a') (hb : Same c d b b')
    (o1 o2 o1' o2' : Own) (hx : UBig.divRem c o1 o2 a b = .ok x) (hy : UBig.divRem d o1' o2' a' b' = .ok y) :
    Same c d x.1 y.1 ∧ Same c d x.2 y.2 := by
  have h := UBig.divRem_spec hc o1 o2 ha.left hb.left
  have h' := UBig.divRem_spec hd o1' o2' ha.right hb.right
  by_cases h0 : b.value c = 0
  · have := h.2 h0; rw [hx] at this; cases this
  · obtain ⟨p, e, p1, p2, p3, p4⟩ := h.1 h0
    obtain ⟨q, e', q1, q2, q3, q4⟩ := h'.1 (by rw [← hb.eq]; exact h0)
    rw [hx] at e; rw [hy] at e'; cases e; cases e'
    exact ⟨⟨p1, q1, by rw [p3, q3, ha.eq, hb.eq]⟩, ⟨p2, q2, by rw [p4, q4, ha.eq, hb.eq]⟩⟩

theorem SameT.addUV {u v u' v' : UBig} (hu : Same c d u u') (hvv : Same c d v v') {p p' r r' : GcdTriple}
    (hp : SameT c d p p') (h : p.addUV c u v = .ok r) (h' : p'.addUV d u' v' = .ok r') : SameT c d r r' := by
  obtain ⟨x, h1, h⟩ := ok_of_bind h
  obtain ⟨y, h2, h⟩ := ok_of_bind h
  obtain ⟨x', h1', h'⟩ := ok_of_bind h'
  obtain ⟨y', h2', h'⟩ := ok_of_bind h'
  cases h; cases h'
  exact ⟨hp.a, hp.x.add hc hd hvv _ _ _ _ h1 h1', hp.y.add hc hd hu _ _ _ _ h2 h2'⟩

theorem SameT.makeEven {u v u' v' : UBig} (hu : Same c d u u') (hvv : Same c d v v') {p p' r r' : GcdTriple}
    (hp : SameT c d p p') (h : p.makeEven c u v = .ok r) (h' : p'.makeEven d u' v' = .ok r') :
    SameT c d r r' := by
  obtain ⟨ex, h1, h⟩ := ok_of_bind h
  obtain ⟨ey, h2, h⟩ := ok_of_bind h
  obtain ⟨ex', h1', h'⟩ := ok_of_bind h'
  obtain ⟨ey', h2', h'⟩ := ok_of_bind h'
  rw [hp.x.isEven hc hd, h1'] at h1
  rw [hp.y.isEven hc hd, h2'] at h2
  cases h1; cases h2
  by_cases hb : (!ex || !ey) = true
  · rw [if_pos hb] at h h'
    exact hp.addUV hc hd hu hvv h h'
  · rw [if_neg hb] at h h'
    cases h; cases h'; exact hp

theorem SameT.makeGe {u v u' v' : UBig} (hu : Same c d u u') (hvv : Same c d v v')
    {p p' q q' r r' : GcdTriple} (hp : SameT c d p p') (hq : SameT c d q q')
    (h : p.makeGe c u v q = .ok r) (h' : p'.makeGe d u' v' q' = .ok r') : SameT c d r r' := by
  obtain ⟨lt, h1, h⟩ := ok_of_bind h
  obtain ⟨lt', h1', h'⟩ := ok_of_bind h'
  rw [hp.x.lt hc hd hq.x, h1'] at h1
  cases h1
  by_cases hb : lt = true
  · rw [if_pos hb] at h h'
    exact hp.addUV hc hd hu hvv h h'
  · rw [if_neg hb] at h h'
    cases h; cases h'; exact hp

theorem SameT.halve {u v u' v' : UBig} (hu : Same c d u u') (hvv : Same c d v v') (n : Nat) :
    ∀ (n' : Nat) {p p' r r' : GcdTriple}, SameT c d p p' → p.halve c u v n = .ok r →
      p'.halve d u' v' n' = .ok r' → SameT c d r r' := by
  induction n with
  | zero => intro n' p p' r r' _ h; cases h
  | succ n ih =>
    intro n' p p' r r' hp h h'
    cases n' with
    | zero => cases h'
    | succ n' =>
      rw [GcdTriple.halve] at h h'
      obtain ⟨e, h1, h⟩ := ok_of_bind h
      obtain ⟨e', h1', h'⟩ := ok_of_bind h'
      rw [hp.a.isEven hc hd, h1'] at h1
      cases h1
      by_cases hb : e = true
      · rw [if_pos hb] at h h'
        obtain ⟨m, k1, h⟩ := ok_of_bind h
        obtain ⟨m', k1', h'⟩ := ok_of_bind h'
        have hm := hp.makeEven hc hd hu hvv k1 k1'
        obtain ⟨a, k2, h⟩ := ok_of_bind h
        obtain ⟨x, k3, h⟩ := ok_of_bind h
        obtain ⟨y, k4, h⟩ := ok_of_bind h
        obtain ⟨a', k2', h'⟩ := ok_of_bind h'
        obtain ⟨x', k3', h'⟩ := ok_of_bind h'
        obtain ⟨y', k4', h'⟩ := ok_of_bind h'
        exact ih n' ⟨hm.a.shr hc hd _ _ _ k2 k2', hm.x.shr hc hd _ _ _ k3 k3', hm.y.shr hc hd _ _ _ k4 k4'⟩ h h'
      · rw [if_neg hb] at h h'
        cases h; cases h'; exact hp

theorem SameT.extGcdLoop {u v u' v' : UBig} (hu : Same c d u u') (hvv : Same c d v v') (n : Nat) :
    ∀ (n' : Nat) {p p' q q' r r' : GcdTriple}, SameT c d p p' → SameT c d q q' →
      Ibig.extGcdLoop c u v n p q = .ok r → Ibig.extGcdLoop d u' v' n' p' q' = .ok r' → SameT c d r r' := by
  induction n with
  | zero => intro n' p p' q q' r r' _ _ h; cases h
  | succ n ih =>
    intro n' p p' q q' r r' hp hq h h'
    cases n' with
    | zero => cases h'
    | succ n' =>
      rw [Ibig.extGcdLoop] at h h'
      have hz := hp.a.isZero hc hd
      by_cases hb : p.a.beq (.small 0) = true
      · rw [if_pos hb] at h
        rw [if_pos (by rw [← hz]; exact hb)] at h'
        cases h; cases h'; exact hq
      · rw [if_neg hb] at h
        rw [if_neg (by rw [← hz]; exact hb)] at h'
        obtain ⟨m, k1, h⟩ := ok_of_bind h
        obtain ⟨m', k1', h'⟩ := ok_of_bind h'
        have hm := SameT.halve hc hd hu hvv _ _ hp k1 k1'
        obtain ⟨lt, k2, h⟩ := ok_of_bind h
        obtain ⟨lt', k2', h'⟩ := ok_of_bind h'
        rw [hm.a.lt hc hd hq.a, k2'] at k2
        cases k2
        have hs : SameT c d (if lt then (q, m) else (m, q)).1 (if lt then (q', m') else (m', q')).1 ∧
            SameT c d (if lt then (q, m) else (m, q)).2 (if lt then (q', m') else (m', q')).2 := by
          cases lt
          · exact ⟨hm, hq⟩
          · exact ⟨hq, hm⟩
        generalize (if lt then (q, m) else (m, q)) = s at h hs
        generalize (if lt then (q', m') else (m', q')) = s' at h' hs
        obtain ⟨a, k3, h⟩ := ok_of_bind h
        obtain ⟨a', k3', h'⟩ := ok_of_bind h'
        have ha := hs.1.a.sub hc hd hs.2.a _ _ _ _ k3 k3'
        obtain ⟨g, k4, h⟩ := ok_of_bind h
        obtain ⟨g', k4', h'⟩ := ok_of_bind h'
        have hg := SameT.makeGe hc hd hu hvv (p := ⟨a, s.1.x, s.1.y⟩) (p' := ⟨a', s'.1.x, s'.1.y⟩) ⟨ha, hs.1.x, hs.1.y⟩ hs.2
          k4 k4'
        obtain ⟨x, k5, h⟩ := ok_of_bind h
        obtain ⟨x', k5', h'⟩ := ok_of_bind h'
        obtain ⟨y, k6, h⟩ := ok_of_bind h
        obtain ⟨y', k6', h'⟩ := ok_of_bind h'
        exact ih n' (p := ⟨g.a, x, y⟩) (p' := ⟨g'.a, x', y'⟩) ⟨hg.a, hg.x.sub hc hd hs.2.x _ _ _ _ k5 k5',
          hg.y.sub hc hd hs.2.y _ _ _ _ k6 k6'⟩ hs.2 h h'

theorem SameT.start {u v u' v' : UBig} (hu : Same c d u u') (hvv : Same c d v v')
    {s s' : GcdTriple × GcdTriple} (h : extGcdStart c u v = .ok s) (h' : extGcdStart d u' v' = .ok s') :
    SameT c d s.1 s'.1 ∧ SameT c d s.2 s'.2 := by
  unfold extGcdStart at h h'
  obtain ⟨le, k1, h⟩ := ok_of_bind h
  obtain ⟨le', k1', h'⟩ := ok_of_bind h'
  rw [hu.le hc hd hvv, k1'] at k1
  cases k1
  have s0 := Same.small hc hd (w := 0) (by omega)
  have s1 := Same.small hc hd (w := 1) (by omega)
  by_cases hb : le = true
  · rw [if_pos hb] at h h'
    obtain ⟨e, k2, h⟩ := ok_of_bind h
    obtain ⟨e', k2', h'⟩ := ok_of_bind h'
    have hdr := hvv.divRem hc hd hu _ _ _ _ k2 k2'
    obtain ⟨a, k3, h⟩ := ok_of_bind h
    obtain ⟨a', k3', h'⟩ := ok_of_bind h'
    obtain ⟨x, k4, h⟩ := ok_of_bind h
    obtain ⟨x', k4', h'⟩ := ok_of_bind h'
    obtain ⟨y, k5, h⟩ := ok_of_bind h
    obtain ⟨y', k5', h'⟩ := ok_of_bind h'
    cases h; cases h'
    exact ⟨⟨hu.clone k3 k3', s1, s0⟩, ⟨hdr.2, hvv.sub hc hd hdr.1 _ _ _ _ k4 k4', hu.sub hc hd s1 _ _ _ _ k5 k5'⟩⟩
  · rw [if_neg hb] at h h'
    obtain ⟨e, k2, h⟩ := ok_of_bind h
    obtain ⟨e', k2', h'⟩ := ok_of_bind h'
    have hdr := hu.divRem hc hd hvv _ _ _ _ k2 k2'
    obtain ⟨a, k3, h⟩ := ok_of_bind h
    obtain ⟨a', k3', h'⟩ := ok_of_bind h'
    obtain ⟨x, k4, h⟩ := ok_of_bind h
    obtain ⟨x', k4', h'⟩ := ok_of_bind h'
    obtain ⟨y, k5, h⟩ := ok_of_bind h
    obtain ⟨y', k5', h'⟩ := ok_of_bind h'
    cases h; cases h'
    exact ⟨⟨hvv.clone k3 k3', hvv.clone k4 k4', hu.sub hc hd s1 _ _ _ _ k5 k5'⟩, ⟨hdr.2, s1, hdr.1⟩⟩

/-- The results of two runs of `extended_gcd`. -/
def SameG (c d : Cfg) (r r' : UBig × IBig × IBig) : Prop :=
  r.1.value c = r'.1.value d ∧ r.2.1.value c = r'.2.1.value d ∧ r.2.2.value c = r'.2.2.value d

omit hd in
theorem sameG_value {q : UBig} (hq : q.WF c) :
    (IBig.ofUBig q).value c = (q.value c : Int) ∧ (IBig.ofUBig q).neg.value c = -(q.value c : Int) := by
  obtain ⟨h1, h2⟩ := IBig.ofUBig_spec hc hq
  exact ⟨h2, by rw [(IBig.neg_spec hc h1).2, h2]⟩

theorem SameG.nonzero {x y x' y' : UBig} (hx : Same c d x x') (hy : Same c d y y') {z : Nat}
    (hz : z < 2 ^ c.U) (hz' : z < 2 ^ d.U) {r r' : UBig × IBig × IBig}
    (h : x.extendedGcdNonzero c y z = .ok r) (h' : x'.extendedGcdNonzero d y' z = .ok r') : SameG c d r r' := by
  unfold UBig.extendedGcdNonzero at h h'
  obtain ⟨u, k1, h⟩ := ok_of_bind h
  obtain ⟨u', k1', h'⟩ := ok_of_bind h'
  have hu := hx.shr hc hd _ _ _ k1 k1'
  obtain ⟨v, k2, h⟩ := ok_of_bind h
  obtain ⟨v', k2', h'⟩ := ok_of_bind h'
  have hvv := hy.shr hc hd _ _ _ k2 k2'
  obtain ⟨s, k3, h⟩ := ok_of_bind h
  obtain ⟨s', k3', h'⟩ := ok_of_bind h'
  have hs := SameT.start hc hd hu hvv k3 k3'
  obtain ⟨e, k4, h⟩ := ok_of_bind h
  obtain ⟨e', k4', h'⟩ := ok_of_bind h'
  rw [hs.2.a.isEven hc hd, k4'] at k4
  cases k4
  have ht : SameT c d (if e then (s.2, s.1) else s).1 (if e then (s'.2, s'.1) else s').1 ∧
      SameT c d (if e then (s.2, s.1) else s).2 (if e then (s'.2, s'.1) else s').2 := by
    cases e
    · exact hs
    · exact ⟨hs.2, hs.1⟩
  generalize (if e then (s.2, s.1) else s) = t at h ht
  generalize (if e then (s'.2, s'.1) else s') = t' at h' ht
  obtain ⟨q, k5, h⟩ := ok_of_bind h
  obtain ⟨q', k5', h'⟩ := ok_of_bind h'
  have hq := SameT.extGcdLoop hc hd hu hvv _ _ ht.1 ht.2 k5 k5'
  obtain ⟨g, k6, h⟩ := ok_of_bind h
  obtain ⟨g', k6', h'⟩ := ok_of_bind h'
  have hg := hq.a.shl hc hd _ _ hz hz' k6 k6'
  cases h; cases h'
  refine ⟨hg.eq, ?_, ?_⟩
  · rw [(sameG_value hc hq.x.left).1, (sameG_value hd hq.x.right).1, hq.x.eq]
  · rw [(sameG_value hc hq.y.left).2, (sameG_value hd hq.y.right).2, hq.y.eq]

theorem Same.trailingZeros {x x' : UBig} (hx : Same c d x x') {z z' : Option Nat}
    (h : x.trailingZeros c = .ok z) (h' : x'.trailingZeros d = .ok z') :
    z = z' ∧ ∀ k, z = some k → k < 2 ^ c.U ∧ k < 2 ^ d.U := by
  obtain ⟨w, e, hw⟩ := UBig.trailingZeros_spec hc hx.left
  obtain ⟨w', e', hw'⟩ := UBig.trailingZeros_spec hd hx.right
  rw [h] at e; rw [h'] at e'; cases e; cases e'
  have l1 : ∀ k, x.value c ≠ 0 ∧ 2 ^ k ∣ x.value c → k < 2 ^ c.U := fun k h => UBig.zeros_lt hc hx.left h.1 h.2
  have l2 : ∀ k, x'.value d ≠ 0 ∧ 2 ^ k ∣ x'.value d → k < 2 ^ d.U := fun k h => UBig.zeros_lt hd hx.right h.1 h.2
  rw [hx.eq] at l1
  cases z <;> cases z' <;> simp only [hx.eq] at hw hw'
  · exact ⟨rfl, fun k h => by cases h⟩
  · exact absurd hw hw'.1
  · exact absurd hw' hw.1
  · rename_i k k'
    have : k = k' := by
      rcases Nat.lt_trichotomy k k' with h | h | h
      · exact absurd ((Nat.pow_dvd_pow 2 h).trans hw'.2.1) hw.2.2
      · exact h
      · exact absurd ((Nat.pow_dvd_pow 2 h).trans hw.2.1) hw'.2.2
    subst this
    refine ⟨rfl, fun j hj => ?_⟩
    cases hj
    exact ⟨l1 k ⟨hw.1, hw.2.1⟩, l2 k ⟨hw.1, hw.2.1⟩⟩

theorem SameG.extendedGcd {x y x' y' : UBig} (hx : Same c d x x') (hy : Same c d y y')
    {r r' : UBig × IBig × IBig} (h : x.extendedGcd c y = .ok r) (h' : x'.extendedGcd d y' = .ok r') :
    SameG c d r r' := by
  unfold UBig.extendedGcd at h h'
  obtain ⟨xz, k1, h⟩ := ok_of_bind h
  obtain ⟨xz', k1', h'⟩ := ok_of_bind h'
  obtain ⟨rfl, l1⟩ := hx.trailingZeros hc hd k1 k1'
  obtain ⟨yz, k2, h⟩ := ok_of_bind h
  obtain ⟨yz', k2', h'⟩ := ok_of_bind h'
  obtain ⟨rfl, l2⟩ := hy.trailingZeros hc hd k2 k2'
  have c0 : ∀ n : Nat, n < 2 → ∀ {i i' : IBig}, IBig.fromUnsigned c 8 n = .ok i →
      IBig.fromUnsigned d 8 n = .ok i' → i.value c = i'.value d := by
    intro n hn i i' e e'
    obtain ⟨j, f1, -, f2⟩ := IBig.fromUnsigned_spec hc (Or.inl rfl : PBits 8) (x := n) (by omega)
    obtain ⟨j', f1', -, f2'⟩ := IBig.fromUnsigned_spec hd (Or.inl rfl : PBits 8) (x := n) (by omega)
    rw [e] at f1; rw [e'] at f1'; cases f1; cases f1'
    rw [f2, f2']
  cases xz with
  | none =>
    cases yz with
    | none => cases h
    | some k =>
      obtain ⟨g, k3, h⟩ := ok_of_bind h
      obtain ⟨g', k3', h'⟩ := ok_of_bind h'
      obtain ⟨i, k4, h⟩ := ok_of_bind h
      obtain ⟨i', k4', h'⟩ := ok_of_bind h'
      obtain ⟨j, k5, h⟩ := ok_of_bind h
      obtain ⟨j', k5', h'⟩ := ok_of_bind h'
      cases h; cases h'
      exact ⟨(hy.clone k3 k3').eq, c0 0 (by omega) k4 k4', c0 1 (by omega) k5 k5'⟩
  | some k =>
    cases yz with
    | none =>
      obtain ⟨g, k3, h⟩ := ok_of_bind h
      obtain ⟨g', k3', h'⟩ := ok_of_bind h'
      obtain ⟨i, k4, h⟩ := ok_of_bind h
      obtain ⟨i', k4', h'⟩ := ok_of_bind h'
      obtain ⟨j, k5, h⟩ := ok_of_bind h
      obtain ⟨j', k5', h'⟩ := ok_of_bind h'
      cases h; cases h'
      exact ⟨(hx.clone k3 k3').eq, c0 1 (by omega) k4 k4', c0 0 (by omega) k5 k5'⟩
    | some k' =>
      have m1 := l1 k rfl
      exact SameG.nonzero hc hd hx hy (lt_of_le_of_lt (Nat.min_le_left _ _) m1.1)
        (lt_of_le_of_lt (Nat.min_le_left _ _) m1.2) h h'

end
end Ibig
