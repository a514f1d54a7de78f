import Verif.Proofs.ModularTime
import Verif.Proofs.ExtGcdCost
import Verif.Proofs.DivPower
import Verif.Proofs.ModularInv
import Verif.Proofs.ModularPow
/-!
How many steps modular arithmetic takes.
-/
namespace Ibig.Timed

variable {cfg : Cfg}

/-- the modulus of a large ring has `n` words and its top bit is set -/
structure RingLarge.Sz (W : Nat) (r : RingLarge) (n : Nat) : Prop where
  len : r.modulus.length = n
  norm : TopNorm W r.modulus

/-- an element of a large ring -/
structure ModLarge.Sz (W : Nat) (x : ModLarge) (n : Nat) : Prop where
  ring : RingLarge.Sz W x.ring n
  len : x.words.length = n

/-- an element of a ring with a modulus of at most `n` words -/
def Modulo.Sz (W : Nat) (x : Modulo) (n : Nat) : Prop :=
  match x with
  | .small _ => True
  | .large x => ∃ k, k ≤ n ∧ 2 ≤ k ∧ ModLarge.Sz W x k

/-- a step without further condition -/
local macro "tp" : tactic => `(tactic|
  refine Takes.bind (P := fun _ => True) (Takes.pass (Post.true _)) (by omega) (fun _ _ _ _ => ?_))

/-! ### Rings -/

theorem takes_ringLargeNew {W : Nat} (hW : 1 ≤ W) (l : List Nat) :
    Takes (RingLarge.new W l) (2 * l.length + 7) (fun r => RingLarge.Sz W r l.length) := by
  unfold RingLarge.new
  refine Takes.bind (P := fun a => a = l) (Takes.pass (Post.ok rfl)) (by omega) ?_
  rintro a M hM rfl
  refine Takes.bind (takes_normalizeLarge hW a) (by omega) ?_
  rintro ⟨ws, s, fd⟩ M hM ⟨h1, h2⟩
  exact Takes.pure ⟨h1, h2⟩

theorem takes_ringNew (hv : cfg.Valid) (addr : Nat) (x : UBig) :
    Takes (Ring.new cfg addr x) (2 * x.len + 7) (fun _ => True) := by
  rcases x with (_ | w) | b
  · exact Takes.throwT
  · unfold Ring.new
    tp
    exact Takes.pure trivial
  · refine Takes.bind (takes_ringLargeNew hv.W1 _) (le_refl (2 * b.words.length + 7)) (fun _ _ _ _ => ?_)
    exact Takes.pure trivial

theorem takes_isValid (W : Nat) (r : RingLarge) (v : List Nat) :
    Takes (RingLarge.isValid W r v) (v.length + 3) (fun b => b = true → v.length = r.modulus.length) := by
  refine Takes.ite (fun h => ?_) (fun _ => Takes.pure (by simp))
  refine Takes.bind (takes_cmpSameLen _ _) (by omega) (fun _ M hM _ => ?_)
  refine Takes.ite (fun _ => ?_) (fun _ => Takes.pure (by simp))
  tp
  tp
  exact Takes.pure fun _ => h

theorem takes_modLargeNew {W addr n : Nat} {r : RingLarge} (hr : RingLarge.Sz W r n) {v : List Nat}
    (hl : v.length = n) : Takes (ModLarge.new W addr r v) (n + 4) (fun x => ModLarge.Sz W x n ∧ x.ring = r) := by
  unfold ModLarge.new
  refine Takes.bind (takes_isValid _ _ _) (by omega) (fun _ M hM _ => ?_)
  tp
  exact Takes.pure ⟨⟨hr, hl⟩, rfl⟩

/-! ### Conversions -/

theorem takes_unshift (l : List Nat) (s : Nat) : Takes (unshift cfg l s) (4 * l.length + 6) (fun _ => True) := by
  unfold unshift
  refine Takes.bind (takes_allocate cfg _) (by omega) (fun b M hM hb => ?_)
  refine Takes.bind (takes_extend _ _) (by omega) (fun c M hM hc => ?_)
  rw [hb, List.length_nil, Nat.zero_add] at hc
  refine Takes.bind (takes_shrInPlace _ _ _) (by omega) ?_
  rintro ⟨ws, low⟩ M hM h
  dsimp only at h ⊢
  tp
  exact (takes_ofBuffer cfg _).mono (by dsimp only; omega) fun _ h => h

theorem takes_ringModulus {r : Ring} {n : Nat}
    (hr : ∀ l, r.repr = .large l → l.modulus.length ≤ n) :
    Takes (Ring.modulus cfg r) (4 * n + 6) (fun _ => True) := by
  rcases r with ⟨addr, s | l⟩
  · unfold Ring.modulus
    tp
    exact Takes.pure trivial
  · exact (takes_unshift _ _).mono (by have := hr l rfl; omega) fun _ h => h

theorem takes_residue {x : Modulo} {W n : Nat} (hx : Modulo.Sz W x n) :
    Takes (Modulo.residue cfg x) (4 * n + 6) (fun _ => True) := by
  rcases x with x | x
  · unfold Modulo.residue
    tp
    exact Takes.pure trivial
  · obtain ⟨k, h1, -, h2⟩ := hx
    exact (takes_unshift _ _).mono (by rw [h2.len]; omega) fun _ h => h

theorem takes_fastRemByNormalizedWord (W : Nat) (l : List Nat) (fd : FastDivideNormalized) :
    Takes (fastRemByNormalizedWord W l fd) l.length (fun _ => True) := by
  unfold fastRemByNormalizedWord
  split
  · exact Takes.pure trivial
  · exact (takes_fastRemLoop W fd _ _).mono (by rw [List.length_dropLast]; omega) fun _ h => h

theorem takes_fromSmall (addr : Nat) (r : RingSmall) (x : UBig) :
    Takes (ModSmall.fromUBig cfg addr r x) (x.len + 2) (fun _ => True) := by
  unfold ModSmall.fromUBig
  cases x with
  | small w =>
    have hl : (UBig.small w).len = 1 := rfl
    rw [hl]
    refine Takes.bind (P := fun _ => True) (n := 2) (Takes.pass (Post.true _)) (by omega) (fun _ _ _ _ => ?_)
    exact (Takes.pass (n := 1) (Post.true _)).mono (by omega) fun _ h => h
  | large b =>
    have hl : (UBig.large b).len = b.words.length := rfl
    rw [hl]
    refine Takes.bind (P := fun _ => True) (n := b.words.length + 1) ?_ (by omega) (fun _ _ _ _ => ?_)
    · unfold RingSmall.fromUBigRaw RingSmall.fromLarge
      refine Takes.bind (takes_fastRemByNormalizedWord _ _ _) (by omega) (fun _ _ _ _ => ?_)
      refine Takes.ite (fun _ => ?_) (fun _ => Takes.pure trivial)
      tp
      exact Takes.pure trivial
    · exact (Takes.pass (n := 1) (Post.true _)).mono (by omega) fun _ h => h

/-- reducing `N` words -/
theorem takes_reduce {r : RingLarge} {n : Nat} (hr : RingLarge.Sz cfg.W r n) (h2 : 2 ≤ n) (x : UBig) {N : Nat}
    (hN : x.len ≤ N) :
    Takes (RingLarge.reduce cfg r x) (inPlaceBound N n + n + 3) (fun v => v.length ≤ n) := by
  cases x with
  | small w => exact Takes.pure (by show 1 ≤ n; omega)
  | large b =>
    have hl : b.words.length ≤ N := hN
    refine Takes.ite (fun h => ?_) (fun h => ?_)
    · have h' : b.words.length < n := by rw [← hr.len]; exact h
      exact (Takes.pass (P := fun v => v.length ≤ n) (Post.ok h'.le)).mono
        (by show b.words.length + 1 ≤ _; omega) fun _ h => h
    · tp
      tp
      have := inPlaceBound_mono (n := r.modulus.length) hl
      rw [hr.len] at this
      refine Takes.bind (takes_divRemInPlace_bound hr.norm) (by rw [hr.len]; omega) ?_
      rintro ⟨ws, q⟩ M hM ⟨h3, h4⟩
      rw [hr.len] at hM ⊢
      refine (Takes.pass (post_sliceR _ _ _)).mono (by omega) ?_
      rintro s ⟨h5, -⟩
      omega

/-- the steps of the conversion of a number of `m` words -/
noncomputable def fromCost (n m : Nat) : Nat := inPlaceBound (m + 1) n + 4 * m + 3 * n + 40

theorem takes_fromLarge (hv : cfg.Valid) {addr : Nat} {r : RingLarge} {n : Nat} (hr : RingLarge.Sz cfg.W r n)
    (h2 : 2 ≤ n) (hs : r.shift < cfg.W) {x : UBig} (hx : x.WF cfg) {m : Nat} (hm : 1 ≤ m)
    (hxm : x.value cfg < 2 ^ (m * cfg.W)) :
    Takes (ModLarge.fromUBig cfg addr r x) (fromCost n m) (fun y => ModLarge.Sz cfg.W y n ∧ y.ring = r) := by
  unfold ModLarge.fromUBig fromCost
  have hl := UBig.len_le hv hx hm hxm
  have hsU : r.shift < 2 ^ cfg.U := by
    have h1 : cfg.W ≤ 64 := by rcases hv.word with h | h | h <;> omega
    have h2 : 2 ^ 16 ≤ 2 ^ cfg.U := Nat.pow_le_pow_right (by norm_num) (by rcases hv.usize with h | h | h <;> omega)
    omega
  have hsw : r.shift / cfg.W = 0 := Nat.div_eq_of_lt hs
  refine Takes.bind (Takes.and (takes_ushl cfg .val x r.shift) (UBig.shl_result _ _ _ _)
    (Yields.post (UBig.shl_spec hv .val hx hsU))) (by rw [hsw]; omega) ?_
  rintro y M hM ⟨-, hy, hy2⟩
  rw [hsw] at hM
  have hyl : y.len ≤ m + 1 := by
    refine UBig.len_le hv hy (by omega) ?_
    rw [hy2, Nat.add_mul, Nat.one_mul, pow_add]
    exact Nat.mul_lt_mul_of_lt_of_le hxm (Nat.pow_le_pow_right (by norm_num) hs.le) (Nat.two_pow_pos _)
  refine Takes.bind (takes_reduce hr h2 y hyl) (by omega) (fun v M hM hv => ?_)
  refine Takes.bind (P := fun k => k = n - v.length) (Takes.pass (n := 1) ?_) (by omega) ?_
  · rw [hr.len, Ibig.ckSub_ok (by omega)]; exact Post.ok rfl
  rintro k M hM rfl
  refine Takes.bind (P := fun w => w.length = n) (Takes.pass (Post.ok ?_)) (by omega) (fun w M hM hw => ?_)
  · rw [List.length_append, List.length_replicate]; omega
  exact (takes_modLargeNew hr hw).mono (by omega) fun _ h => h

/-! ### Negation, addition, subtraction -/

theorem takes_ringNegate {W n : Nat} {r : RingLarge} {v : List Nat} (hl : v.length = n) :
    Takes (RingLarge.negate W r v) (2 * n + 3) (fun w => w.length = n) := by
  unfold RingLarge.negate
  tp
  refine Takes.ite (fun _ => Takes.pure hl) (fun _ => ?_)
  refine Takes.bind (takes_subSameLenSwap _ _ _) (by omega) ?_
  rintro ⟨ws, o⟩ M hM h
  tp
  exact Takes.pure (by dsimp only at h; omega)

theorem takes_addFix {W n : Nat} {r : RingLarge} {v : List Nat} (o : Bool) (hl : v.length = n) :
    Takes (RingLarge.addFix W r v o) (n + 2) (fun w => w.length = n) := by
  refine Takes.bind (takes_subSameLen _ _ _) (by omega) ?_
  rintro ⟨ws, o⟩ M hM h
  tp
  exact Takes.pure (by dsimp only at h; omega)

theorem takes_ringAdd {W n : Nat} {r : RingLarge} {v w : List Nat} (hl : v.length = n) :
    Takes (RingLarge.add W r v w) (3 * n + 4) (fun w => w.length = n) := by
  refine Takes.bind (takes_addSameLen _ _ _) (by omega) ?_
  rintro ⟨ws, o⟩ M hM h
  dsimp only at h
  refine Takes.ite (fun _ => ?_) (fun _ => ?_)
  · exact (takes_addFix _ (h.trans hl)).mono (by omega) fun _ h => h
  · refine Takes.bind (takes_cmpSameLen _ _) (by omega) (fun _ M hM _ => ?_)
    refine Takes.ite (fun _ => Takes.pure (h.trans hl)) (fun _ => ?_)
    exact (takes_addFix _ (h.trans hl)).mono (by omega) fun _ h => h

theorem takes_subFix {W n : Nat} {r : RingLarge} {v : List Nat} (o : Bool) (hl : v.length = n) :
    Takes (RingLarge.subFix W r v o) (n + 2) (fun w => w.length = n) := by
  refine Takes.ite (fun _ => ?_) (fun _ => Takes.pure hl)
  refine Takes.bind (takes_addSameLen _ _ _) (by omega) ?_
  rintro ⟨ws, o⟩ M hM h
  tp
  exact Takes.pure (by dsimp only at h; omega)

theorem takes_ringSub {W n : Nat} {r : RingLarge} {v w : List Nat} (hl : v.length = n) :
    Takes (RingLarge.sub W r v w) (2 * n + 3) (fun w => w.length = n) := by
  refine Takes.bind (takes_subSameLen _ _ _) (by omega) ?_
  rintro ⟨ws, o⟩ M hM h
  dsimp only at h
  exact (takes_subFix _ (h.trans hl)).mono (by omega) fun _ h => h

theorem takes_ringSubSwap {W n : Nat} {r : RingLarge} {v w : List Nat} (hl : w.length = n) :
    Takes (RingLarge.subSwap W r v w) (2 * n + 3) (fun w => w.length = n) := by
  refine Takes.bind (takes_subSameLenSwap _ _ _) (by omega) ?_
  rintro ⟨ws, o⟩ M hM h
  dsimp only at h
  exact (takes_subFix _ (h.trans hl)).mono (by omega) fun _ h => h

theorem takes_mclone {W n : Nat} {x : Modulo} (hx : Modulo.Sz W x n) :
    Takes (Modulo.clone x) (n + 1) (fun y => y = x) := by
  rcases x with x | x
  · exact Takes.pure rfl
  · obtain ⟨k, h1, -, h2⟩ := hx
    exact (Takes.pass (P := fun y => y = .large x) (Post.ok rfl)).mono (by rw [h2.len]; omega) fun _ h => h

theorem takes_mown {W n : Nat} {x : Modulo} (hx : Modulo.Sz W x n) (o : Own) :
    Takes (Modulo.own o x) (n + 1) (fun y => y = x) := by
  cases o
  · exact Takes.pure rfl
  · exact takes_mclone hx

theorem takes_mneg {W n : Nat} {x : Modulo} (hx : Modulo.Sz W x n) :
    Takes (Modulo.neg W x) (4 * n + 8) (fun y => Modulo.Sz W y n) := by
  unfold Modulo.neg
  refine Takes.bind (takes_mclone hx) (by omega) ?_
  rintro x M hM rfl
  rcases x with x | x
  · dsimp only
    tp
    tp
    exact Takes.pure trivial
  · obtain ⟨k, h1, h2, h3⟩ := hx
    refine Takes.bind (takes_ringNegate h3.len) (by omega) (fun v M hM hv => ?_)
    refine Takes.bind (takes_modLargeNew h3.ring hv) (by omega) ?_
    rintro y M hM ⟨hy, -⟩
    exact Takes.pure ⟨k, h1, h2, hy⟩

theorem takes_maddAssign {W n : Nat} {x : Modulo} (hx : Modulo.Sz W x n) (y : Modulo) :
    Takes (Modulo.addAssign W x y) (4 * n + 9) (fun y => Modulo.Sz W y n) := by
  rcases x with x | x <;> rcases y with y | y
  · unfold Modulo.addAssign
    tp
    tp
    tp
    exact Takes.pure trivial
  · exact Takes.throwT
  · exact Takes.throwT
  · obtain ⟨k, h1, h2, h3⟩ := hx
    unfold Modulo.addAssign
    tp
    refine Takes.bind (takes_ringAdd h3.len) (by omega) (fun v M hM hv => ?_)
    refine Takes.bind (takes_modLargeNew h3.ring hv) (by omega) ?_
    rintro y M hM ⟨hy, -⟩
    exact Takes.pure ⟨k, h1, h2, hy⟩

theorem takes_madd {W n : Nat} {x y : Modulo} (o1 o2 : Own) (hx : Modulo.Sz W x n) (hy : Modulo.Sz W y n) :
    Takes (Modulo.add W o1 o2 x y) (5 * n + 10) (fun y => Modulo.Sz W y n) := by
  have key : ∀ o, Takes (do let x ← Modulo.own o x; Modulo.addAssign W x y) (5 * n + 10)
      (fun y => Modulo.Sz W y n) := by
    intro o
    refine Takes.bind (takes_mown hx o) (by omega) ?_
    rintro x M hM rfl
    exact (takes_maddAssign hx y).mono (by omega) fun _ h => h
  cases o1 <;> cases o2
  · exact key _
  · exact key _
  · exact (takes_maddAssign hy x).mono (by omega) fun _ h => h
  · exact key _

theorem takes_msubAssign {W n : Nat} {x : Modulo} (hx : Modulo.Sz W x n) (y : Modulo) :
    Takes (Modulo.subAssign W x y) (4 * n + 9) (fun y => Modulo.Sz W y n) := by
  rcases x with x | x <;> rcases y with y | y
  · unfold Modulo.subAssign
    tp
    tp
    tp
    exact Takes.pure trivial
  · exact Takes.throwT
  · exact Takes.throwT
  · obtain ⟨k, h1, h2, h3⟩ := hx
    unfold Modulo.subAssign
    tp
    refine Takes.bind (takes_ringSub h3.len) (by omega) (fun v M hM hv => ?_)
    refine Takes.bind (takes_modLargeNew h3.ring hv) (by omega) ?_
    rintro y M hM ⟨hy, -⟩
    exact Takes.pure ⟨k, h1, h2, hy⟩

theorem takes_msubSwap {W n : Nat} (x : Modulo) {y : Modulo} (hy : Modulo.Sz W y n) :
    Takes (Modulo.subSwap W x y) (4 * n + 9) (fun y => Modulo.Sz W y n) := by
  rcases x with x | x <;> rcases y with y | y
  · unfold Modulo.subSwap
    tp
    tp
    tp
    exact Takes.pure trivial
  · exact Takes.throwT
  · exact Takes.throwT
  · obtain ⟨k, h1, h2, h3⟩ := hy
    unfold Modulo.subSwap
    tp
    refine Takes.bind (takes_ringSubSwap h3.len) (by omega) (fun v M hM hv => ?_)
    refine Takes.bind (takes_modLargeNew h3.ring hv) (by omega) ?_
    rintro y M hM ⟨hy, -⟩
    exact Takes.pure ⟨k, h1, h2, hy⟩

theorem takes_msub {W n : Nat} {x y : Modulo} (o1 o2 : Own) (hx : Modulo.Sz W x n) (hy : Modulo.Sz W y n) :
    Takes (Modulo.sub W o1 o2 x y) (5 * n + 10) (fun y => Modulo.Sz W y n) := by
  have key : ∀ o, Takes (do let x ← Modulo.own o x; Modulo.subAssign W x y) (5 * n + 10)
      (fun y => Modulo.Sz W y n) := by
    intro o
    refine Takes.bind (takes_mown hx o) (by omega) ?_
    rintro x M hM rfl
    exact (takes_msubAssign hx y).mono (by omega) fun _ h => h
  cases o1 <;> cases o2
  · exact key _
  · exact key _
  · exact (takes_msubSwap x hy).mono (by omega) fun _ h => h
  · exact key _

/-! ### Multiplication -/

/-- the steps of a multiplication, with some to spare -/
noncomputable def modMulCost (n : Nat) : Nat := mulCost (bitLen n + 1) n + inPlaceBound (2 * n) n + 6 * n + 20

theorem takes_mulNormalized {W n : Nat} {r : RingLarge} (hr : RingLarge.Sz W r n) (a b : List Nat) (mem : Nat) :
    Takes (RingLarge.mulNormalized W r a b mem) (mulCost (bitLen n + 1) n + inPlaceBound (2 * n) n + 4 * n + 5)
      (fun v => v.length = n) := by
  unfold RingLarge.mulNormalized
  rw [hr.len]
  dsimp only
  tp
  refine Takes.bind (takes_allocFill _ _ _) (by omega) ?_
  rintro ⟨p, mem⟩ M hM h
  dsimp only at h ⊢
  refine Takes.bind (takes_mulSameLen W _ n p .pos a b mem h) (by omega) ?_
  rintro ⟨p, o⟩ M hM h1
  dsimp only at h1 ⊢
  tp
  refine Takes.bind (takes_shrInPlace _ _ _) (by omega) ?_
  rintro ⟨q, o⟩ M hM h2
  dsimp only at h2 ⊢
  have h3 := h2.trans h1
  refine Takes.bind (takes_divRemInPlace_bound hr.norm) (by rw [h3, hr.len]; omega) ?_
  rintro ⟨q', o⟩ M hM -
  rw [h3, hr.len] at hM
  exact (takes_sliceR _ _ _).mono (by omega) (fun _ h => by omega)

theorem takes_mulBy {W n : Nat} {x : ModLarge} (hx : ModLarge.Sz W x n) (v : List Nat) (mem : Nat) :
    Takes (ModLarge.mulBy W x v mem) (mulCost (bitLen n + 1) n + inPlaceBound (2 * n) n + 6 * n + 10)
      (fun y => ModLarge.Sz W y n ∧ y.ring = x.ring) := by
  unfold ModLarge.mulBy
  refine Takes.bind (takes_mulNormalized hx.ring _ _ _) (by omega) (fun w M hM hw => ?_)
  refine Takes.bind (P := fun v => v = w) (Takes.pass (Post.ok rfl)) (by omega) ?_
  rintro w M hM rfl
  exact (takes_modLargeNew hx.ring hw).mono (by omega) fun _ h => h

theorem takes_mmulAssign {n M : Nat} {x : Modulo} (hx : Modulo.Sz cfg.W x n) (hM : 6 ≤ M)
    (hn : ∀ k, 2 ≤ k → k ≤ n → modMulCost k ≤ M) (y : Modulo) :
    Takes (Modulo.mulAssign cfg x y) M (fun y => Modulo.Sz cfg.W y n) := by
  rcases x with x | x <;> rcases y with y | y
  · unfold Modulo.mulAssign
    tp
    tp
    tp
    exact Takes.pure trivial
  · exact Takes.throwT
  · exact Takes.throwT
  · obtain ⟨k, h1, h2, h3⟩ := hx
    have hk := hn k h2 h1
    unfold modMulCost at hk
    unfold Modulo.mulAssign
    tp
    tp
    tp
    refine Takes.bind (takes_mulBy h3 _ _) (by omega) ?_
    rintro y M hM ⟨hy, -⟩
    exact Takes.pure ⟨k, h1, h2, hy⟩

theorem takes_mmul {n M : Nat} {x y : Modulo} (o1 o2 : Own) (hx : Modulo.Sz cfg.W x n) (hy : Modulo.Sz cfg.W y n)
    (hM : 6 ≤ M) (hn : ∀ k, 2 ≤ k → k ≤ n → modMulCost k ≤ M) :
    Takes (Modulo.mul cfg o1 o2 x y) (M + n + 1) (fun y => Modulo.Sz cfg.W y n) := by
  have key : ∀ o, Takes (do let x ← Modulo.own o x; Modulo.mulAssign cfg x y) (M + n + 1)
      (fun y => Modulo.Sz cfg.W y n) := by
    intro o
    refine Takes.bind (takes_mown hx o) (by omega) ?_
    rintro x M hM rfl
    exact (takes_mmulAssign hx (by assumption) hn y).mono (by omega) fun _ h => h
  cases o1 <;> cases o2
  · exact key _
  · exact key _
  · exact (takes_mmulAssign hy hM hn x).mono (by omega) fun _ h => h
  · exact key _

/-! ### Exponentiation with a modulus of one word -/

theorem takes_powHelper (W : Nat) (r : RingSmall) (b exp bits : Nat) : ∀ res,
    Takes (RingSmall.powHelper W r b exp bits res) (8 * bits) (fun _ => True) := by
  induction bits with
  | zero => intro res; exact Takes.pure trivial
  | succ bits ih =>
    intro res
    unfold RingSmall.powHelper
    refine Takes.bind takes_tick (by omega) (fun _ M hM _ => ?_)
    tp
    tp
    refine Takes.ite (fun _ => ?_) (fun _ => ?_)
    · tp
      exact (ih _).mono (by omega) fun _ h => h
    · exact (ih _).mono (by omega) fun _ h => h

theorem takes_powLoop (W : Nat) (r : RingSmall) (x : Nat) (es : List Nat) : ∀ v,
    Takes (RingSmall.powLoop W r x es v) (es.length * (8 * W + 1)) (fun _ => True) := by
  induction es with
  | nil => intro v; exact Takes.pure trivial
  | cons e es ih =>
    intro v
    unfold RingSmall.powLoop
    rw [List.length_cons, Nat.add_mul, Nat.one_mul]
    refine Takes.bind takes_tick (by omega) (fun _ M hM _ => ?_)
    refine Takes.bind (takes_powHelper _ _ _ _ _ _) (by omega) (fun _ M hM _ => ?_)
    exact (ih _).mono (by omega) fun _ h => h

theorem takes_powWord {W : Nat} (hW : 1 ≤ W) (r : RingSmall) (x e : Nat) :
    Takes (RingSmall.powWord W r x e) (8 * W) (fun _ => True) := by
  unfold RingSmall.powWord
  refine Takes.ite (fun _ => ?_) (fun h0 => ?_)
  · exact (Takes.pass (n := 2) (Post.true _)).mono (by omega) fun _ h => h
  · refine Takes.bind (P := fun b => b < W) (n := 1) (Takes.pass ?_) (by omega) (fun b M hM hb => ?_)
    · unfold Ibig.ckSub
      refine Post.ite (fun _ => Post.ok ?_) (fun _ => Post.error)
      omega
    · exact (takes_powHelper _ _ _ _ _ _).mono (by omega) fun _ h => h

/-- a number below `2^L` has at most `L / W + 1` words -/
theorem len_mul_lt (hv : cfg.Valid) {e : UBig} (he : e.WF cfg) {L : Nat} (hL : 1 ≤ L)
    (h : e.value cfg < 2 ^ L) : (e.len - 1) * cfg.W < L := by
  cases e with
  | small w => show (1 - 1) * _ < _; omega
  | large b =>
    have hb : b.WF cfg := he
    have h1 : base cfg.W ^ (b.words.length - 1) ≤ val cfg.W b.words :=
      val_top_ge (by intro e; have := hb.two; rw [e] at this; simp at this) hb.top
    have h2 : val cfg.W b.words < 2 ^ L := h
    rw [base_eq, ← pow_mul, Nat.mul_comm] at h1
    exact (Nat.pow_lt_pow_iff_right (by norm_num)).mp (lt_of_le_of_lt h1 h2)

theorem takes_powSmall (hv : cfg.Valid) (x : ModSmall) {e : UBig} (he : e.WF cfg) {L : Nat} (hL : 1 ≤ L)
    (h : e.value cfg < 2 ^ L) : Takes (ModSmall.pow cfg x e) (9 * L + 520) (fun _ => True) := by
  have hW : cfg.W ≤ 64 := by rcases hv.word with h | h | h <;> omega
  have key : Takes (ModSmall.powNontrivial cfg x e) (9 * L + 520) (fun _ => True) := by
    unfold ModSmall.powNontrivial
    have h3 : (UBig.small 3).WF cfg := wf_small (by
      rw [base_eq]; exact lt_of_lt_of_le (by norm_num) (Nat.pow_le_pow_right (by norm_num) hv.W16))
    refine Takes.bind (takes_lt hv he h3 (n := 1) (min_le_right _ _)) (by omega) (fun _ M hM _ => ?_)
    tp
    dsimp only
    refine Takes.bind (P := fun k => k ≤ e.len - 1) (Takes.pass (n := 1) ?_) (by omega) (fun k M hM hk => ?_)
    · unfold Ibig.ckSub
      refine Post.ite (fun _ => Post.ok ?_) (fun _ => Post.error)
      cases e with
      | large b => exact le_refl _
      | small w =>
        show (if w = 0 then [] else [w]).length - 1 ≤ 1 - 1
        split <;> simp
    tp
    have hl := len_mul_lt hv he hL h
    have hl2 : e.len - 1 ≤ (e.len - 1) * cfg.W := Nat.le_mul_of_pos_right _ (by have := hv.W16; omega)
    refine Takes.bind (takes_powWord hv.W1 _ _ _) (by omega) (fun _ M hM _ => ?_)
    have hb : (e.asWords.take k).reverse.length * (8 * cfg.W + 1) ≤ 9 * L := by
      rw [List.length_reverse]
      calc _ ≤ (e.len - 1) * (8 * cfg.W + 1) := Nat.mul_le_mul_right _ ((List.length_take_le _ _).trans hk)
        _ = 8 * ((e.len - 1) * cfg.W) + (e.len - 1) := by ring
        _ ≤ 9 * L := by omega
    refine Takes.bind (takes_powLoop _ _ _ _ _) (by omega) (fun _ M hM _ => ?_)
    exact (Takes.pass (n := 1) (Post.true _)).mono (by omega) fun _ h => h
  rcases e with (_ | _ | _ | w) | b
  · exact (takes_fromSmall _ _ _).mono (by show 1 + 2 ≤ _; omega) fun _ h => h
  · exact Takes.pure trivial
  · refine Takes.bind (P := fun _ => True) (n := 3) (Takes.pass (Post.true _)) (by omega) (fun _ _ _ _ => ?_)
    exact (Takes.pass (n := 1) (Post.true _)).mono (by omega) fun _ h => h
  · exact key
  · exact key

/-! ### Exponentiation with longer moduli -/

theorem takes_powWindowLoop {N : Nat} (hN : N < 2 ^ cfg.U) (fuel : Nat) : ∀ w,
    1 ≤ w → w < cfg.U → 2 ^ (w - 1) - 1 + N / (w + 1) ≤ N / 2 →
    Takes (powWindowLoop cfg N fuel w (2 ^ (w - 1) - 1 + N / (w + 1))) (5 * fuel)
      (fun v => 2 ^ (v - 1) - 1 ≤ N / 2) := by
  induction fuel with
  | zero => intro w _ _ _; exact Takes.throwT
  | succ fuel ih =>
    intro w h1 h2 h3
    refine Takes.ite (fun h => ?_) (fun _ => Takes.pure (Nat.le_of_add_right_le h3))
    refine Takes.bind takes_tick (by omega) (fun _ M hM _ => ?_)
    refine Takes.bind (P := fun c => c = 2 ^ (w + 1 - 1) - 1 + N / (w + 1 + 1)) (Takes.pass (n := 4) ?_)
      (by omega) ?_
    · rw [powCost_spec hN (by omega) (by omega)]
      exact Post.ok rfl
    rintro c M hM rfl
    refine Takes.ite (fun _ => Takes.pure (Nat.le_of_add_right_le h3)) (fun h4 => ?_)
    exact (ih (w + 1) (by omega) (by omega) ((not_le.mp h4).le.trans h3)).mono (by omega) fun _ h => h

theorem takes_choosePowWindowLen (hv : cfg.Valid) {N : Nat} (hN : N < 2 ^ cfg.U) :
    Takes (choosePowWindowLen cfg N) 324 (fun v => 2 ^ (v - 1) - 1 ≤ N / 2) := by
  have hW : cfg.W ≤ 64 := by rcases hv.word with h | h | h <;> omega
  have hU : 2 ≤ cfg.U := by rcases hv.usize with h | h | h <;> omega
  unfold choosePowWindowLen
  refine Takes.bind (P := fun c => c = 2 ^ (1 - 1) - 1 + N / (1 + 1)) (Takes.pass (n := 4) ?_) (by omega) ?_
  · rw [powCost_spec hN (by omega) (by omega)]
    exact Post.ok rfl
  rintro c M hM rfl
  exact (takes_powWindowLoop hN _ 1 (by omega) (by omega) (by simp)).mono (by omega) fun _ h => h

theorem takes_powTableLoop {n : Nat} {r : RingLarge} (hr : RingLarge.Sz cfg.W r n) (base sq : List Nat)
    (mem k : Nat) : ∀ i t, Takes (powTableLoop cfg r base sq mem k i t)
      (k * (mulCost (bitLen n + 1) n + inPlaceBound (2 * n) n + 5 * n + 14)) (fun _ => True) := by
  induction k with
  | zero => intro i t; exact Takes.pure trivial
  | succ k ih =>
    intro i t
    unfold powTableLoop
    rw [Nat.add_mul, Nat.one_mul]
    refine Takes.bind takes_tick (by omega) (fun _ M hM _ => ?_)
    refine Takes.bind (P := fun _ => True) (Takes.pass (Post.true _)) (by omega) ?_
    rintro ⟨prev, start⟩ M hM -
    refine Takes.bind (takes_mulNormalized hr _ _ _) (by omega) (fun p M hM hp => ?_)
    refine Takes.bind (Takes.onSlice (Q := True) (n := n + 1) (fun s _ _ _ => ?_)) (by omega) ?_
    · refine Takes.bind (takes_assertR _) (by omega) (fun _ M hM h => ?_)
      exact (Takes.pass (P := fun q => q.1.length = s.length ∧ True) (Post.ok ⟨h.symm, trivial⟩)).mono
        (by omega) fun _ h => h
    rintro ⟨t, -⟩ M hM -
    exact (ih _ _).mono (by omega) fun _ h => h

theorem takes_squares {W n : Nat} (mem k : Nat) : ∀ v : ModLarge, ModLarge.Sz W v n →
    Takes (ModLarge.squares W mem k v)
      (k * (mulCost (bitLen n + 1) n + inPlaceBound (2 * n) n + 6 * n + 11)) (fun y => ModLarge.Sz W y n) := by
  induction k with
  | zero => intro v hv; exact Takes.pure hv
  | succ k ih =>
    intro v hv
    unfold ModLarge.squares
    rw [Nat.add_mul, Nat.one_mul]
    refine Takes.bind takes_tick (by omega) (fun _ M hM _ => ?_)
    refine Takes.bind (takes_mulBy hv _ _) (by omega) ?_
    rintro y M hM ⟨hy, -⟩
    exact (ih _ hy).mono (by omega) fun _ h => h

theorem bind_never {α β : Type} {x : Timed α} {f : α → Timed β} (h : ∀ a, ∃ e, f a = .error e) (r : β × ℕ) :
    x >>= f ≠ .ok r := by
  intro hb
  rcases x with e | ⟨a, l⟩
  · cases hb
  · obtain ⟨e, he⟩ := h a
    replace hb : (match f a with
      | .error e => Except.error e
      | .ok (b, m) => Except.ok (b, l + m) : R (β × Nat)) = .ok r := hb
    rw [he] at hb
    cases hb

/-- One window of `k + 1` bits takes `k` squarings and one multiplication. -/
theorem pays_powStep {n : Nat} (x : ModLarge) (t : List Nat) (w mem : Nat) (ws : List Nat) (bit : Nat)
    {v : ModLarge} (hv : ModLarge.Sz cfg.W v n) :
    Pays (powStep cfg x t w mem ws bit v) (bit * modMulCost n + modMulCost n + 6) (fun p => p.2 * modMulCost n)
      (fun p => ModLarge.Sz cfg.W p.1 n ∧ p.2 ≤ bit) := by
  have hQ : modMulCost n = mulCost (bitLen n + 1) n + inPlaceBound (2 * n) n + 6 * n + 20 := rfl
  have pp : ∀ {α : Type} {y : Timed α} {m : ℕ} {Φ : α → ℕ} {a : α} {P : α → Prop}, y = Pure.pure a → Φ a ≤ m → P a →
      Pays y m Φ P := by
    intro α y m Φ a P h1 h2 h3 b k hb
    rw [h1] at hb
    cases hb
    exact ⟨by omega, h3⟩
  unfold powStep
  dsimp only
  refine Pays.bind (P := fun _ => True) (n := 1) (Takes.pass (Post.true _)) (by omega) (fun cur M1 hM1 _ => ?_)
  refine Pays.bind (P := fun _ => True) (n := 1) (Takes.pass (Post.true _)) (by omega) (fun m M2 hM2 _ => ?_)
  by_cases hc : cur &&& m ≠ 0
  · rw [if_pos hc]
    refine Pays.bind (P := fun _ => True) (n := 1) (Takes.pass (Post.true _)) (by omega) (fun _ M3 hM3 _ => ?_)
    refine Pays.bind (P := fun _ => True) (n := 6) (Takes.pass (Post.true _)) (by omega) ?_
    rintro ⟨win, nb⟩ M4 hM4 -
    dsimp only
    refine Pays.bind (P := fun _ => True) (n := 1) (Takes.pass (Post.true _)) (by omega) (fun k M5 hM5 _ => ?_)
    by_cases hk : k ≤ bit
    · have e : bit * modMulCost n = (bit - k) * modMulCost n + k * modMulCost n := by
        rw [← Nat.add_mul, Nat.sub_add_cancel hk]
      have hq : k * (mulCost (bitLen n + 1) n + inPlaceBound (2 * n) n + 6 * n + 11) ≤ k * modMulCost n :=
        Nat.mul_le_mul_left _ (by omega)
      refine Pays.bind (takes_squares mem k v hv) (by omega) (fun v' M6 hM6 hv' => ?_)
      refine Pays.bind (P := fun b => b = bit - k) (n := 1) (Takes.pass (by rw [Ibig.ckSub_ok hk]; exact Post.ok rfl))
        (by omega) ?_
      rintro b M7 hM7 rfl
      refine Pays.bind (P := fun _ => True) (n := 1) (Takes.pass (Post.true _)) (by omega) (fun _ M8 hM8 _ => ?_)
      refine Pays.bind (P := fun _ => True) (n := 4) (Takes.pass (Post.true _)) (by omega) (fun _ M9 hM9 _ => ?_)
      refine Pays.bind (takes_mulBy hv' _ _) (by omega) (fun y M10 hM10 hy => ?_)
      exact pp rfl (by dsimp only; omega) ⟨hy.1, Nat.sub_le _ _⟩
    · intro p K hp
      refine absurd hp (bind_never (fun a => ?_) _)
      have : ckSub bit k = .error .overflow := by
        unfold ckSub Ibig.ckSub
        rw [if_neg hk]
        rfl
      rw [this]
      exact ⟨_, rfl⟩
  · rw [if_neg hc]
    exact pp rfl (by dsimp only; omega) ⟨hv, le_refl _⟩

/-- Each bit of the exponent takes at most two multiplications. -/
theorem takes_powLargeLoop {n : Nat} (x : ModLarge) (t : List Nat) (w mem : Nat) (ws : List Nat) (fuel : Nat) :
    ∀ (bit : Nat) (v : ModLarge), ModLarge.Sz cfg.W v n →
    Takes (powLargeLoop cfg x t w mem ws fuel bit v) ((2 * bit + 2) * modMulCost n)
      (fun y => ModLarge.Sz cfg.W y n) := by
  have hQ : modMulCost n = mulCost (bitLen n + 1) n + inPlaceBound (2 * n) n + 6 * n + 20 := rfl
  induction fuel with
  | zero => intro bit v _; exact Takes.throwT
  | succ fuel ih =>
    intro bit v hv
    have e : (2 * bit + 2) * modMulCost n = 2 * (bit * modMulCost n) + 2 * modMulCost n := by ring
    unfold powLargeLoop
    refine Takes.bind takes_tick (by omega) (fun _ M hM _ => ?_)
    refine Pays.takes (pays_powStep x t w mem ws bit hv) (by omega) ?_
    rintro ⟨y, b⟩ ⟨hy, hb⟩
    dsimp only at hy hb ⊢
    have h1 := Nat.mul_le_mul_right (modMulCost n) hb
    refine Takes.ite (fun _ => Takes.pure hy) (fun h0 => ?_)
    have e2 : (2 * (b - 1) + 2) * modMulCost n = 2 * (b * modMulCost n) := by
      rw [show 2 * (b - 1) + 2 = 2 * b by omega, Nat.mul_assoc]
    refine Takes.bind (takes_mulBy hy _ _) (by omega) ?_
    rintro z M2 hM2 ⟨hz, -⟩
    exact (ih (b - 1) z hz).mono (by omega) fun _ h => h

theorem takes_powMemory {n : Nat} {r : RingLarge} (hr : RingLarge.Sz cfg.W r n) {w E : Nat}
    (hw : 2 ^ (w - 1) - 1 ≤ E) : Takes (powMemory cfg r w) (E * n + 8) (fun p => p.1 ≤ E) := by
  unfold powMemory
  refine Takes.bind (P := fun s => s = w - 1) (n := 1) (Takes.pass ?_) (by omega) ?_
  · unfold Ibig.ckSub
    exact Post.ite (fun _ => Post.ok rfl) (fun _ => Post.error)
  rintro s M hM rfl
  refine Takes.bind (P := fun p => p ≤ 2 ^ (w - 1)) (n := 1) (Takes.pass ?_) (by omega) (fun p M hM hp => ?_)
  · unfold Ibig.shlW
    refine Post.ite (fun _ => Post.ok ?_) (fun _ => Post.error)
    rw [Nat.one_mul]
    exact Nat.mod_le _ _
  refine Takes.bind (P := fun e => e ≤ E) (n := 1) (Takes.pass ?_) (by omega) (fun e M hM he => ?_)
  · unfold Ibig.ckSub
    exact Post.ite (fun _ => Post.ok (by omega)) (fun _ => Post.error)
  dsimp only
  rw [hr.len]
  have := Nat.mul_le_mul_right n he
  refine Takes.ite (fun _ => ?_) (fun _ => Takes.throwT)
  tp
  tp
  refine Takes.bind (takes_allocFill _ _ _) (by omega) ?_
  rintro ⟨t, m⟩ M hM -
  exact Takes.pure he

/-- the steps of an exponentiation by an exponent of `L` bits -/
noncomputable def modPowCost (n L : Nat) : Nat := (L / 2 + 2 * L) * modMulCost n + n + 350

theorem takes_powNontrivial (hv : cfg.Valid) {n : Nat} {x : ModLarge} (hx : ModLarge.Sz cfg.W x n) {e : UBig}
    (he : e.WF cfg) {L : Nat} (hL : 2 ≤ L) (h : e.value cfg < 2 ^ L) :
    Takes (ModLarge.powNontrivial cfg x e) (modPowCost n L) (fun y => ModLarge.Sz cfg.W y n) := by
  have hQ : modMulCost n = mulCost (bitLen n + 1) n + inPlaceBound (2 * n) n + 6 * n + 20 := rfl
  unfold ModLarge.powNontrivial modPowCost
  have h2 : (UBig.small 2).WF cfg := wf_small (by
    rw [base_eq]; exact lt_of_lt_of_le (by norm_num) (Nat.pow_le_pow_right (by norm_num) hv.W16))
  refine Takes.bind (takes_lt hv he h2 (n := 1) (min_le_right _ _)) (by omega) (fun _ M hM _ => ?_)
  tp
  have hbl : bitLen (e.value cfg) ≤ L := bitLen_le_iff.mpr h
  have hbU : bitLen (e.value cfg) < 2 ^ cfg.U := by
    refine lt_of_le_of_lt ?_ hv.bits
    have hf := UBig.WF.fits hv he
    rw [fits_iff] at hf
    rw [bitLen_le_iff, Nat.mul_comm, pow_mul, ← base_eq]
    exact hf
  refine Takes.bind (P := fun b => b = bitLen (e.value cfg)) (n := 4)
    (Takes.pass (by rw [UBig.bitLen_spec hv he]; exact Post.ok rfl)) (by omega) ?_
  rintro b M hM rfl
  refine Takes.bind (takes_choosePowWindowLen hv hbU) (by omega) (fun w M hM hw => ?_)
  have e1 : (L / 2 + 2 * L) * modMulCost n = L / 2 * modMulCost n + 2 * L * modMulCost n := by ring
  have e2 : L / 2 * (mulCost (bitLen n + 1) n + inPlaceBound (2 * n) n + 5 * n + 14) + L / 2 * n
      ≤ L / 2 * modMulCost n := by
    rw [← Nat.mul_add]
    exact Nat.mul_le_mul_left _ (by omega)
  have e3 : 4 * modMulCost n ≤ 2 * L * modMulCost n := Nat.mul_le_mul_right _ (by omega)
  refine Takes.bind (takes_powMemory hx.ring (E := L / 2) (hw.trans (Nat.div_le_div_right hbl))) (by omega) ?_
  rintro ⟨entries, table, mem⟩ M hM hen
  dsimp only at hen ⊢
  refine Takes.bind (P := fun y => y = x) (Takes.pass (Post.ok rfl)) (by rw [hx.len]; omega) ?_
  rintro y M hM rfl
  rw [hx.len] at hM
  refine Takes.bind (takes_mulBy hx _ _) (by omega) ?_
  rintro z M hM ⟨hz, -⟩
  have e4 := Nat.mul_le_mul_right (mulCost (bitLen n + 1) n + inPlaceBound (2 * n) n + 5 * n + 14) hen
  refine Takes.bind (takes_powTableLoop hx.ring _ _ _ _ _ _) (by omega) (fun t M hM _ => ?_)
  refine Takes.bind (P := fun b => b + 2 ≤ L) (n := 1) (Takes.pass ?_) (by omega) (fun b M hM hb => ?_)
  · unfold Ibig.ckSub
    exact Post.ite (fun _ => Post.ok (by omega)) (fun _ => Post.error)
  have e5 : (2 * b + 2) * modMulCost n + 2 * modMulCost n ≤ 2 * L * modMulCost n := by
    rw [← Nat.add_mul]
    exact Nat.mul_le_mul_right _ (by omega)
  exact (takes_powLargeLoop _ _ _ _ _ _ _ _ hz).mono (by omega) fun _ h => h

theorem takes_powLarge (hv : cfg.Valid) {n : Nat} (h2 : 2 ≤ n) {x : ModLarge} (hx : ModLarge.Sz cfg.W x n)
    (hs : x.ring.shift < cfg.W) {e : UBig} (he : e.WF cfg) {L : Nat} (hL : 1 ≤ L) (h : e.value cfg < 2 ^ L) :
    Takes (ModLarge.pow cfg x e) (max (modPowCost n L) (fromCost n 1)) (fun y => ModLarge.Sz cfg.W y n) := by
  have key : 2 ≤ e.value cfg → Takes (ModLarge.powNontrivial cfg x e) (max (modPowCost n L) (fromCost n 1))
      (fun y => ModLarge.Sz cfg.W y n) := by
    intro h2
    refine (takes_powNontrivial hv hx he ?_ h).mono (le_max_left _ _) fun _ h => h
    by_contra hc
    have := Nat.pow_le_pow_right (n := 2) (by norm_num) (show L ≤ 1 by omega)
    omega
  rcases e with (_ | _ | w) | b
  · have h1 : 1 < base cfg.W := lt_of_lt_of_le one_lt_two (two_le_base hv.W1)
    refine (takes_fromLarge hv hx.ring h2 hs (wf_small h1) (m := 1) le_rfl ?_).mono (le_max_right _ _) fun _ h => h.1
    rw [Nat.one_mul, ← base_eq]
    exact h1
  · refine (Takes.pass (P := fun y => ModLarge.Sz cfg.W y n) (Post.ok hx)).mono ?_ fun _ h => h
    rw [hx.len]
    unfold modPowCost
    exact le_trans (by omega) (le_max_left _ _)
  · exact key (by show 2 ≤ w + 1 + 1; omega)
  · refine key ?_
    have hb : b.WF cfg := he
    have h1 : base cfg.W ^ (b.words.length - 1) ≤ val cfg.W b.words :=
      val_top_ge (by intro e; have := hb.two; rw [e] at this; simp at this) hb.top
    have h3 : base cfg.W ^ 1 ≤ base cfg.W ^ (b.words.length - 1) :=
      Nat.pow_le_pow_right (base_pos _) (by have := hb.two; omega)
    rw [pow_one] at h3
    have h4 := two_le_base hv.W1
    show 2 ≤ val cfg.W b.words
    omega

/-! ### Inverse and division -/

theorem euclidCost_mono {a b c d : Nat} (h1 : a ≤ c) (h2 : b ≤ d) : euclidCost a b ≤ euclidCost c d := by
  unfold euclidCost
  have := Nat.floor_le_floor (divBound_mono h1 h2)
  omega

/-- the coefficient of the inverse is not longer than the modulus -/
theorem post_extendedGcd (hv : cfg.Valid) {a b : UBig} (ha : a.WF cfg) (hb : b.WF cfg) (h0 : b.value cfg ≠ 0) :
    Post (Ibig.UBig.extendedGcd cfg a b) (fun g => g.2.1.WF cfg ∧ (g.2.1.value cfg).natAbs ≤ b.value cfg) := by
  refine (rt_post ((UBig.extendedGcd_spec hv ha hb).1 (Or.inr h0))).mono ?_
  rintro g ⟨-, h1, -, h2⟩
  have := h2.x_le
  exact ⟨h1, by omega⟩

/-- the reduction of the coefficient -/
theorem takes_reduceCoefficient (hv : cfg.Valid) {x m : IBig} (hx : x.WF cfg) (hm : m.WF cfg)
    (h0 : 0 < m.value cfg) {n : Nat} (hn : 1 ≤ n) (hmn : m.mag.value cfg < 2 ^ (n * cfg.W))
    (h : (x.value cfg).natAbs ≤ m.mag.value cfg) :
    Takes (IBig.remEuclid cfg .val .val x m) (euclidCost n n)
      (fun e => e.WF cfg ∧ 0 ≤ e.value cfg ∧ e.mag.value cfg < m.mag.value cfg) := by
  have l1 : m.mag.len ≤ n := UBig.len_le hv hm.mag hn hmn
  have l2 : x.mag.len ≤ n := UBig.len_le hv hx.mag hn (by rw [mag_natAbs]; omega)
  refine Takes.post ((takes_iremEuclid hv .val .val hx hm).mono (euclidCost_mono l2 l1) fun _ h => h)
    (IBig.remEuclid_result _ _ _ _ _) ?_
  obtain ⟨c, e, c1, c2⟩ := (IBig.remEuclid_spec hv .val .val hx hm).1 (by omega)
  rw [e]
  have e1 : 0 ≤ c.value cfg := by rw [c2]; exact Int.emod_nonneg _ (by omega)
  have e2 : c.value cfg < m.value cfg := by rw [c2]; exact Int.emod_lt_of_pos _ (by omega)
  have e3 := mag_natAbs (cfg := cfg) c
  have e4 := mag_natAbs (cfg := cfg) m
  exact Post.ok ⟨c1, e1, by omega⟩

/-- the steps of an inverse -/
noncomputable def modInvCost (W n : Nat) : Nat := extGcdCost W n n + euclidCost n n + fromCost n n + 9 * n + 200

theorem takes_inverseLarge (hv : cfg.Valid) {N n : Nat} {x : ModLarge} (hN : x.ring.OK cfg N) {k : Nat}
    (hk : RingLarge.Has cfg x.ring x.words k) (hkN : k < N) (h2 : 2 ≤ n) (hx : ModLarge.Sz cfg.W x n) :
    Takes (ModLarge.inverse cfg x) (modInvCost cfg.W n)
      (fun y => ∀ z, y = some z → ModLarge.Sz cfg.W z n ∧ z.ring = x.ring) := by
  unfold ModLarge.inverse modInvCost
  have hlt := hN.lt
  rw [hx.ring.len, base_eq, ← pow_mul, Nat.mul_comm] at hlt
  refine Takes.bind (Takes.post (takes_unshift _ _) (unshift_result _ _ _)
    (Post.of_returns (unshift_spec hv hk.words (by rw [hk.len]; exact hN.len) hN.shift hk.eq)))
    (by rw [hx.len]; omega) ?_
  rintro a M hM ⟨ha, ha2⟩
  rw [hx.len] at hM
  refine Takes.bind (Takes.post (takes_unshift _ _) (unshift_result _ _ _)
    (Post.of_returns (unshift_spec hv hN.words hN.len hN.shift hN.eq))) (by rw [hx.ring.len]; omega) ?_
  rintro b M hM ⟨hb, hb2⟩
  rw [hx.ring.len] at hM
  have hpos := hN.pos
  refine Takes.bind (Takes.post (takes_uextendedGcd hv ha hb (n := n) (m := n) (by omega) (by omega)
    (by rw [ha2]; omega) (by rw [hb2]; exact hlt)) (UBig.extendedGcd_result _ _ _)
    (post_extendedGcd hv ha hb (by omega))) (by omega) ?_
  rintro ⟨g, c, d⟩ M hM ⟨h3, h4⟩
  dsimp only at h3 h4 ⊢
  refine Takes.ite (fun _ => ?_) (fun _ => Takes.pure (by simp))
  refine Takes.bind (P := fun y => ModLarge.Sz cfg.W y n ∧ y.ring = x.ring)
    (n := euclidCost n n + fromCost n n + n + 2) ?_ (by omega) ?_
  · unfold ModLarge.inverseOf
    obtain ⟨m1, m2⟩ := IBig.ofUBig_spec hv hb
    have m3 := mag_natAbs (cfg := cfg) (Ibig.IBig.ofUBig b)
    refine Takes.bind (takes_reduceCoefficient hv h3 m1 (n := n) (by omega) (by omega) (by
      rw [m3, m2, hb2, Int.natAbs_natCast]; exact hlt) (by rw [m3, m2, Int.natAbs_natCast]; exact h4)) (by omega) ?_
    rintro e M hM ⟨e1, e2, e3⟩
    rw [m3, m2, hb2, Int.natAbs_natCast] at e3
    have el : e.mag.len ≤ n := UBig.len_le hv e1.mag (by omega) (e3.trans hlt)
    obtain ⟨f, f1, f2, f3⟩ := (UBig.tryFromIBig_spec .val e1).1 e2
    refine Takes.bind (P := fun o => o = some f) (Takes.pass (by rw [f1]; exact Post.ok rfl)) (by omega) ?_
    rintro o M hM rfl
    refine Takes.bind (P := fun u => u = f) (n := 1) (Takes.pass (Post.ok rfl)) (by omega) ?_
    rintro u M hM rfl
    have e4 := mag_natAbs (cfg := cfg) e
    exact (takes_fromLarge hv hx.ring h2 hN.shift f2 (m := n) (by omega) (lt_trans (by omega) hlt)).mono
      (by omega) fun _ h => h
  · rintro y M hM hy
    exact Takes.pure (by rintro z hz; cases hz; exact hy)

theorem takes_inverseSmall (hv : cfg.Valid) {N : Nat} {x : ModSmall} (hN : x.ring.OK cfg.W N) {k : Nat}
    (hk : x.raw = k * 2 ^ x.ring.shift) (hkN : k < N) :
    Takes (ModSmall.inverse cfg x) (modInvCost cfg.W 1) (fun _ => True) := by
  have hn : N < base cfg.W := by
    have := hN.lt
    have h2 := Nat.le_mul_of_pos_right N (Nat.two_pow_pos x.ring.shift)
    rw [← hN.eq] at h2
    omega
  have hn' : N < 2 ^ (1 * cfg.W) := by rw [Nat.one_mul, ← base_eq]; exact hn
  have hpos := hN.pos
  unfold ModSmall.inverse modInvCost
  refine Takes.bind (P := fun a => a = k) (n := 2) (Takes.pass ?_) (by omega) ?_
  · unfold Ibig.RingSmall.residue
    rw [hk, assertR_true (RingSmall.isValid_mul hN hkN), shrW_ok hN.shift, Nat.mul_div_cancel _ (Nat.two_pow_pos _)]
    exact Post.ok rfl
  rintro a M hM rfl
  refine Takes.bind (P := fun b => b = N) (n := 1) (Takes.pass ?_) (by omega) ?_
  · unfold Ibig.RingSmall.getModulus
    rw [shrW_ok hN.shift, hN.eq, Nat.mul_div_cancel _ (Nat.two_pow_pos _)]
    exact Post.ok rfl
  rintro b M hM rfl
  obtain ⟨ua, e1, a1, a2⟩ := UBig.fromUnsigned_ok hv hv.pbits (x := a) (by rw [← base_eq]; omega)
  obtain ⟨ub, e2, b1, b2⟩ := UBig.fromUnsigned_ok hv hv.pbits (x := b) (by rw [← base_eq]; omega)
  refine Takes.bind (P := fun u => u = ua) (n := 32) (Takes.pass (by rw [e1]; exact Post.ok rfl)) (by omega) ?_
  rintro u M hM rfl
  refine Takes.bind (P := fun u => u = ub) (n := 32) (Takes.pass (by rw [e2]; exact Post.ok rfl)) (by omega) ?_
  rintro w M hM rfl
  refine Takes.bind (Takes.post (takes_uextendedGcd hv a1 b1 (n := 1) (m := 1) (by omega) (by omega)
    (by rw [a2]; omega) (by rw [b2]; exact hn')) (UBig.extendedGcd_result _ _ _)
    (post_extendedGcd hv a1 b1 (by omega))) (by omega) ?_
  rintro ⟨g, c, d⟩ M hM ⟨h3, h4⟩
  dsimp only at h3 h4 ⊢
  refine Takes.ite (fun _ => ?_) (fun _ => Takes.pure trivial)
  refine Takes.bind (P := fun _ => True) (n := euclidCost 1 1 + 68) ?_ (by omega) (fun _ _ _ _ => Takes.pure trivial)
  unfold ModSmall.inverseOf
  obtain ⟨m, e, m1, m2⟩ := IBig.fromUnsigned_spec hv hv.pbits (x := b) (by rw [← base_eq]; exact hn)
  refine Takes.bind (P := fun u => u = m) (n := 32) (Takes.pass (by rw [e]; exact Post.ok rfl)) (by omega) ?_
  rintro u M hM rfl
  have m3 := mag_natAbs (cfg := cfg) u
  refine Takes.bind (takes_reduceCoefficient hv h3 m1 (n := 1) (by omega) (by omega) (by
      rw [m3, m2, Int.natAbs_natCast]; exact hn') (by rw [m3, m2, Int.natAbs_natCast, ← b2]; exact h4)) (by omega) ?_
  rintro e M hM -
  tp
  tp
  tp
  exact (Takes.pass (n := 1) (Post.true _)).mono (by omega) fun _ h => h

/-! ### Elements of rings -/

/-- an element of a ring with a modulus of at most `n` words, with its value -/
theorem sz_large {l : RingLarge} {N n : Nat} (hW : 1 ≤ cfg.W) (hl : l.OK cfg N) (hn : N < 2 ^ (n * cfg.W)) :
    RingLarge.Sz cfg.W l l.modulus.length ∧ l.modulus.length ≤ n := by
  refine ⟨⟨rfl, ?_⟩, ?_⟩
  · obtain ⟨rl, v1, v0, h⟩ := hl.norm
    intro x hx
    rw [h.eq] at hx
    simp at hx
    rw [← hx]
    exact h.norm
  · have h1 := hl.ge
    have h2 : base cfg.W ^ (l.modulus.length - 1) < base cfg.W ^ n := by
      refine lt_of_le_of_lt h1 ?_
      rw [base_eq, ← pow_mul, Nat.mul_comm]
      exact hn
    have := (Nat.pow_lt_pow_iff_right (two_le_base hW)).mp h2
    have := hl.two
    omega

theorem sz_elem {r : Ring} {N n : Nat} (hW : 1 ≤ cfg.W) (hr : r.OK cfg N) (hn : N < 2 ^ (n * cfg.W)) {x : Modulo}
    {k : Nat} (hx : Elem cfg r x k) : Modulo.Sz cfg.W x n := by
  obtain ⟨-, ⟨s, -, -, rfl⟩ | ⟨l, v, -, h1, rfl, h2⟩⟩ := elem_cases hr hx
  · trivial
  · obtain ⟨h3, h4⟩ := sz_large hW h1 hn
    exact ⟨_, h4, h1.two, h3, h2.len⟩

/-! ### Bounds -/

theorem inPlaceBound_le (N n : Nat) : (inPlaceBound N n : ℝ) ≤ 195 * N * (n : ℝ) ^ (47 / 100 : ℝ) := by
  have h := rpow47_nonneg n
  have h0 : (0 : ℝ) ≤ N * (n : ℝ) ^ (47 / 100 : ℝ) := by positivity
  unfold inPlaceBound
  split
  · exact (Nat.floor_le (by positivity)).trans (by nlinarith)
  · exact Nat.floor_le (by positivity)

theorem modMulCost_le {n : Nat} (h2 : 2 ≤ n) : (modMulCost n : ℝ) ≤ 427 * (n : ℝ) ^ (147 / 100 : ℝ) := by
  have h1 := mulCost_le (bitLen n + 1) (n := n) (by omega)
  have h3 := inPlaceBound_le (2 * n) n
  have hn : (2 : ℝ) ≤ n := by exact_mod_cast h2
  have hQ := one_le_rpow47 (b := n) (by omega)
  unfold modMulCost
  rw [rpow147 (by omega)] at h1 ⊢
  push_cast at h1 h3 ⊢
  generalize (n : ℝ) ^ (47 / 100 : ℝ) = Q at *
  have := mul_le_mul_of_nonneg_left hQ (show (0 : ℝ) ≤ n by linarith)
  nlinarith

/-- the largest number of steps of a multiplication -/
noncomputable def modMulBound (n : Nat) : Nat := ⌊427 * (n : ℝ) ^ (147 / 100 : ℝ)⌋₊

theorem modMulCost_bound {n k : Nat} (h2 : 2 ≤ k) (h : k ≤ n) : modMulCost k ≤ modMulBound n := by
  refine Nat.le_floor ((modMulCost_le h2).trans ?_)
  have : (k : ℝ) ^ (147 / 100 : ℝ) ≤ (n : ℝ) ^ (147 / 100 : ℝ) :=
    Real.rpow_le_rpow (Nat.cast_nonneg k) (by exact_mod_cast h) (by norm_num)
  linarith

theorem le_rpow147 {n : Nat} (hn : 1 ≤ n) : (n : ℝ) ≤ (n : ℝ) ^ (147 / 100 : ℝ) := by
  rw [rpow147 hn]
  have := one_le_rpow47 (b := n) hn
  have h0 : (0 : ℝ) ≤ n := Nat.cast_nonneg n
  nlinarith

theorem modMulBound_ge {n : Nat} (hn : 1 ≤ n) : 6 ≤ modMulBound n := by
  refine Nat.le_floor ?_
  have h1 := le_rpow147 hn
  have h2 : (1 : ℝ) ≤ n := by exact_mod_cast hn
  push_cast
  linarith

theorem modMulBound_le (n : Nat) : (modMulBound n : ℝ) ≤ 427 * (n : ℝ) ^ (147 / 100 : ℝ) :=
  Nat.floor_le (by positivity)

/-- multiplication -/
theorem mmul_steps {n : Nat} (hn : 1 ≤ n) {x y : Modulo} (o1 o2 : Own) (hx : Modulo.Sz cfg.W x n)
    (hy : Modulo.Sz cfg.W y n) {z : Modulo} {t : Nat} (h : Modulo.mul cfg o1 o2 x y = .ok (z, t)) :
    (t : ℝ) ≤ 430 * (n : ℝ) ^ (147 / 100 : ℝ) := by
  have h1 := (takes_mmul o1 o2 hx hy (modMulBound_ge hn) (fun k => modMulCost_bound) z t h).1
  have h2 := modMulBound_le n
  have h3 := le_rpow147 hn
  have h4 : (1 : ℝ) ≤ n := by exact_mod_cast hn
  have h1' : (t : ℝ) ≤ modMulBound n + n + 1 := by exact_mod_cast h1
  linarith

theorem mpow_steps (hv : cfg.Valid) {r : Ring} {N n : Nat} (hr : r.OK cfg N) (hn : 1 ≤ n)
    (hN : N < 2 ^ (n * cfg.W)) {x : Modulo} {k : Nat} (hx : Elem cfg r x k) {e : UBig} (he : e.WF cfg) {L : Nat}
    (hL : 1 ≤ L) (h : e.value cfg < 2 ^ L) {z : Modulo} {t : Nat} (hz : Modulo.pow cfg x e = .ok (z, t)) :
    (t : ℝ) ≤ 1250 * L * (n : ℝ) ^ (147 / 100 : ℝ) := by
  have hL' : (1 : ℝ) ≤ L := by exact_mod_cast hL
  have hn' : (1 : ℝ) ≤ n := by exact_mod_cast hn
  have hnR := le_rpow147 hn
  obtain ⟨-, ⟨s, -, h1, rfl⟩ | ⟨l, v, -, h1, rfl, h2⟩⟩ := elem_cases hr hx
  · obtain ⟨h3, -⟩ := (Takes.bind (takes_powSmall hv ⟨r.addr, s, k * 2 ^ s.shift⟩ he hL h) (le_refl _)
      (fun a _ _ _ => Takes.pure trivial) : Takes (Modulo.pow cfg (.small ⟨r.addr, s, k * 2 ^ s.shift⟩) e)
        (9 * L + 520) (fun _ => True)) z t hz
    have h3' : (t : ℝ) ≤ 9 * L + 520 := by exact_mod_cast h3
    nlinarith
  · obtain ⟨h3, h4⟩ := sz_large hv.W1 h1 hN
    have h5 := h1.two
    obtain ⟨h6, -⟩ := (Takes.bind (takes_powLarge hv h5 (x := ⟨r.addr, l, v⟩) ⟨h3, h2.len⟩ h1.shift he hL h) (le_refl _)
      (fun a _ _ _ => Takes.pure trivial) : Takes (Modulo.pow cfg (.large ⟨r.addr, l, v⟩) e) _ (fun _ => True)) z t hz
    generalize hm : l.modulus.length = m at *
    have hmn : (m : ℝ) ≤ n := by exact_mod_cast h4
    have hm2 : (2 : ℝ) ≤ m := by exact_mod_cast h5
    rcases le_max_iff.mp h6 with h6 | h6
    · have hM := (Nat.cast_le (α := ℝ)).mpr (modMulCost_bound h5 h4)
      have hM2 := hM.trans (modMulBound_le n)
      unfold modPowCost at h6
      have h7 : (t : ℝ) ≤ ((L / 2 : ℕ) + 2 * L) * modMulCost m + m + 350 := by exact_mod_cast h6
      have h8 : ((L / 2 : ℕ) : ℝ) ≤ L / 2 := by simpa using Nat.cast_div_le (α := ℝ) (m := L) (n := 2)
      have h9 : ((L / 2 : ℕ) + 2 * (L : ℝ)) * modMulCost m ≤ (5 / 2 * L) * (427 * (n : ℝ) ^ (147 / 100 : ℝ)) :=
        mul_le_mul (by linarith) hM2 (Nat.cast_nonneg _) (by linarith)
      generalize (n : ℝ) ^ (147 / 100 : ℝ) = Q at *
      have h10 : (m : ℝ) + 350 ≤ 182 * Q := by linarith
      have h11 : Q ≤ L * Q := by nlinarith
      linarith
    · have h7 := inPlaceBound_le 2 m
      unfold fromCost at h6
      have h8 : (t : ℝ) ≤ inPlaceBound 2 m + 4 + 3 * m + 40 := by exact_mod_cast h6
      have h9 := rpow47_mono h4
      have h10 := rpow147 hn
      push_cast at h7
      rw [h10]
      have h11 := one_le_rpow47 (b := n) hn
      generalize (n : ℝ) ^ (47 / 100 : ℝ) = Q at *
      generalize (m : ℝ) ^ (47 / 100 : ℝ) = P at *
      have h12 : 2 * Q ≤ n * Q := by nlinarith
      have h13 : (n : ℝ) ≤ n * Q := by nlinarith
      have h14 : n * Q ≤ L * (n * Q) := by nlinarith
      linarith

theorem modInvCost_le {W n : Nat} (hW : 16 ≤ W) (hn : 1 ≤ n) : modInvCost W n ≤ 1115 * n ^ 2 * W := by
  have h1 := extGcdCost_le hW hn hn
  have h2 : (euclidCost n n : ℝ) ≤ 210 * n * (n : ℝ) ^ (47 / 100 : ℝ) + 43 * n + 14 := by
    have h := Nat.floor_le (show 0 ≤ divBound n n by unfold divBound; positivity)
    unfold divBound at h
    rw [Nat.min_self] at h
    unfold euclidCost
    unfold divBound
    rw [Nat.min_self]
    push_cast
    linarith
  have h3 := inPlaceBound_le (n + 1) n
  have h4 : (n : ℝ) ^ (47 / 100 : ℝ) ≤ n := by
    calc (n : ℝ) ^ (47 / 100 : ℝ) ≤ (n : ℝ) ^ (1 : ℝ) :=
          Real.rpow_le_rpow_of_exponent_le (by exact_mod_cast hn) (by norm_num)
      _ = _ := Real.rpow_one _
  have hn' : (1 : ℝ) ≤ n := by exact_mod_cast hn
  have h5 : ((euclidCost n n + fromCost n n + 9 * n + 200 : ℕ) : ℝ) ≤ ((59 * n ^ 2 * 16 : ℕ) : ℝ) := by
    unfold fromCost
    push_cast at h3 ⊢
    have h0 := rpow47_nonneg n
    generalize (n : ℝ) ^ (47 / 100 : ℝ) = Q at *
    have a1 : n * Q ≤ n * n := mul_le_mul_of_nonneg_left h4 (by linarith)
    nlinarith
  have h6 : euclidCost n n + fromCost n n + 9 * n + 200 ≤ 59 * n ^ 2 * 16 := by exact_mod_cast h5
  have h7 : 59 * n ^ 2 * 16 ≤ 59 * n ^ 2 * W := Nat.mul_le_mul_left _ hW
  rw [Nat.min_self] at h1
  unfold modInvCost
  have e : 528 * (n + n) * n * W + 59 * n ^ 2 * W = 1115 * n ^ 2 * W := by ring
  omega

theorem modInvCost_mono {W n m : Nat} (h : n ≤ m) : 1115 * n ^ 2 * W ≤ 1115 * m ^ 2 * W := by gcongr

theorem takes_minverse (hv : cfg.Valid) {r : Ring} {N n : Nat} (hr : r.OK cfg N) (hn : 1 ≤ n)
    (hN : N < 2 ^ (n * cfg.W)) {x : Modulo} {k : Nat} (hx : Elem cfg r x k) :
    Takes (Modulo.inverse cfg x) (1115 * n ^ 2 * cfg.W) (fun y => ∀ z, y = some z → ∃ j, Elem cfg r z j) := by
  refine Takes.post (P := fun _ => True) ?_ (Modulo.inverse_result _ _)
    ((rt_post (Modulo.inverse_spec hv hr hx)).mono ?_)
  · obtain ⟨hk, ⟨s, -, h1, rfl⟩ | ⟨l, v, -, h1, rfl, h2⟩⟩ := elem_cases hr hx
    · refine Takes.bind (takes_inverseSmall hv (x := ⟨r.addr, s, k * 2 ^ s.shift⟩) h1 rfl hk) ?_
        (fun _ _ _ _ => Takes.pure trivial)
      exact (modInvCost_le hv.W16 le_rfl).trans (modInvCost_mono hn)
    · obtain ⟨h3, h4⟩ := sz_large hv.W1 h1 hN
      refine Takes.bind (takes_inverseLarge hv (x := ⟨r.addr, l, v⟩) h1 h2 hk h1.two ⟨h3, h2.len⟩) ?_
        (fun _ _ _ _ => Takes.pure trivial)
      exact (modInvCost_le hv.W16 (by have := h1.two; omega)).trans (modInvCost_mono h4)
  · rintro o (⟨-, m, i, rfl, h1, -⟩ | ⟨-, rfl⟩)
    · rintro z ⟨⟩
      exact ⟨i, h1⟩
    · rintro z ⟨⟩

theorem takes_mdiv (hv : cfg.Valid) {r : Ring} {N n : Nat} (hr : r.OK cfg N) (hn : 1 ≤ n)
    (hN : N < 2 ^ (n * cfg.W)) {x y : Modulo} {j k : Nat} (hx : Elem cfg r x j) (hy : Elem cfg r y k) :
    Takes (Modulo.div cfg x y) (1145 * n ^ 2 * cfg.W) (fun _ => True) := by
  have hW := hv.W16
  have h1 : modMulBound n + n + 1 ≤ 30 * n ^ 2 * cfg.W := by
    have h2 : (n : ℝ) ^ (147 / 100 : ℝ) ≤ (n : ℝ) ^ (2 : ℕ) := by
      rw [← Real.rpow_natCast]
      exact Real.rpow_le_rpow_of_exponent_le (by exact_mod_cast hn) (by norm_num)
    have h3 : modMulBound n ≤ 427 * n ^ 2 := by
      have := (modMulBound_le n).trans (mul_le_mul_of_nonneg_left h2 (show (0 : ℝ) ≤ 427 by norm_num))
      exact_mod_cast this
    have h4 : 30 * n ^ 2 * 16 ≤ 30 * n ^ 2 * cfg.W := Nat.mul_le_mul_left _ hW
    have h5 : n ≤ n ^ 2 := Nat.le_self_pow (by norm_num) n
    omega
  have e : 1145 * n ^ 2 * cfg.W = 1115 * n ^ 2 * cfg.W + 30 * n ^ 2 * cfg.W := by ring
  unfold Modulo.div
  refine Takes.bind (takes_minverse hv hr hn hN hy) (by omega) (fun i M hM hi => ?_)
  cases i with
  | none => exact Takes.throwT
  | some z =>
    obtain ⟨i, hz⟩ := hi z rfl
    exact (takes_mmul .ref .val (sz_elem hv.W1 hr hN hx) (sz_elem hv.W1 hr hN hz) (modMulBound_ge hn)
      (fun k => modMulCost_bound)).mono (by omega) fun _ _ => trivial

theorem mpowSigned_steps (hv : cfg.Valid) {r : Ring} {N n : Nat} (hr : r.OK cfg N) (hn : 1 ≤ n)
    (hN : N < 2 ^ (n * cfg.W)) {x : Modulo} {k : Nat} (hx : Elem cfg r x k) {e : IBig} (he : e.WF cfg) {L : Nat}
    (hL : 1 ≤ L) (h : e.mag.value cfg < 2 ^ L) {z : Modulo} {t : Nat}
    (hz : Modulo.powSigned cfg x e = .ok (z, t)) :
    (t : ℝ) ≤ 1250 * L * (n : ℝ) ^ (147 / 100 : ℝ) + 1115 * n ^ 2 * cfg.W := by
  have key : Costs (Modulo.powSigned cfg x e)
      (1250 * L * (n : ℝ) ^ (147 / 100 : ℝ) + 1115 * n ^ 2 * cfg.W) (fun _ => True) := by
    unfold Modulo.powSigned
    cases e.sign with
    | pos =>
      intro z t hz
      have := mpow_steps hv hr hn hN hx he.mag hL h hz
      have h0 : (0 : ℝ) ≤ 1115 * n ^ 2 * cfg.W := by positivity
      exact ⟨by linarith, trivial⟩
    | neg =>
      refine Costs.step (Takes.costs (takes_minverse hv hr hn hN hx)) (fun i hi => ?_)
      cases i with
      | none => intro z t h; cases h
      | some y =>
        obtain ⟨j, hy⟩ := hi y rfl
        intro z t hz
        have := mpow_steps hv hr hn hN hy he.mag hL h hz
        push_cast
        exact ⟨by linarith, trivial⟩
  exact (key z t hz).1

theorem from_steps (hv : cfg.Valid) {r : Ring} {N n : Nat} (hr : r.OK cfg N) (hn : 1 ≤ n)
    (hN : N < 2 ^ (n * cfg.W)) (o : Own) {x : UBig} (hx : x.WF cfg) {m : Nat} (hm : 1 ≤ m)
    (hxm : x.value cfg < 2 ^ (m * cfg.W)) :
    Costs (Ring.fromUBig cfg r o x) (195 * (m + 1) * (n : ℝ) ^ (47 / 100 : ℝ) + 5 * m + 3 * n + 41)
      (fun y => Modulo.Sz cfg.W y n) := by
  have hl := UBig.len_le hv hx hm hxm
  have h0 := rpow47_nonneg n
  rcases r with ⟨addr, s | l⟩
  · have h1 : Takes (Ring.fromUBig cfg ⟨addr, .small s⟩ o x) (m + 2) (fun y => Modulo.Sz cfg.W y n) :=
      Takes.bind (takes_fromSmall addr s x) (by omega) (fun _ _ _ _ => Takes.pure trivial)
    refine (Takes.costs h1).mono ?_ fun _ h => h
    push_cast
    have : (0 : ℝ) ≤ 195 * (m + 1) * (n : ℝ) ^ (47 / 100 : ℝ) := by positivity
    have : (0 : ℝ) ≤ m := Nat.cast_nonneg m
    have : (0 : ℝ) ≤ n := Nat.cast_nonneg n
    linarith
  · obtain ⟨h1, h2⟩ := sz_large hv.W1 (l := l) hr hN
    have hr' : l.OK cfg N := hr
    have h3 := hr'.two
    have h4 : Takes (Ring.fromUBig cfg ⟨addr, .large l⟩ o x) (m + 1 + fromCost l.modulus.length m)
        (fun y => Modulo.Sz cfg.W y n) := by
      refine Takes.bind (P := fun y => y.WF cfg ∧ y.value cfg = x.value cfg) (n := m + 1) ?_ (by omega) ?_
      · cases o
        · exact Takes.pure ⟨hx, rfl⟩
        · exact (takes_uclone hx).mono (by omega) fun _ h => h
      rintro y M hM ⟨hy, hy2⟩
      refine Takes.bind (takes_fromLarge hv h1 h3 hr'.shift hy hm (by rw [hy2]; exact hxm)) (by omega) ?_
      rintro z M hM ⟨hz, -⟩
      exact Takes.pure ⟨_, h2, h3, hz⟩
    refine (Takes.costs h4).mono ?_ fun _ h => h
    have h5 := inPlaceBound_le (m + 1) l.modulus.length
    have h6 := rpow47_mono h2
    have h7 : (l.modulus.length : ℝ) ≤ n := by exact_mod_cast h2
    have h8 := mul_le_mul_of_nonneg_left h6 (show (0 : ℝ) ≤ 195 * (m + 1) by positivity)
    unfold fromCost
    push_cast at h5 ⊢
    linarith

theorem fromI_steps (hv : cfg.Valid) {r : Ring} {N n : Nat} (hr : r.OK cfg N) (hn : 1 ≤ n)
    (hN : N < 2 ^ (n * cfg.W)) (o : Own) {x : IBig} (hx : x.WF cfg) {m : Nat} (hm : 1 ≤ m)
    (hxm : x.mag.value cfg < 2 ^ (m * cfg.W)) :
    Costs (Ring.fromIBig cfg r o x) (195 * (m + 1) * (n : ℝ) ^ (47 / 100 : ℝ) + 5 * m + 7 * n + 49)
      (fun _ => True) := by
  unfold Ring.fromIBig
  refine Costs.step (from_steps hv hr hn hN o hx.mag hm hxm) (fun y hy => ?_)
  cases x.sign with
  | pos =>
    refine (Costs.pure trivial).mono ?_ fun _ h => h
    have : (0 : ℝ) ≤ n := Nat.cast_nonneg n
    linarith
  | neg =>
    refine (Takes.costs (takes_mneg hy)).mono ?_ fun _ _ => trivial
    push_cast
    linarith

end Ibig.Timed
