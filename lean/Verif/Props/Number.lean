import Verif.Proofs.AddOps
import Verif.Spec.Examples
/-! # Properties C09, C10, C35, C37: equality, hashing, ordering, clones, signs -/
namespace Ibig

/-- C09: `==` on `UBig` is numeric equality, and equal numbers (only) feed the same data to a hasher.
That every operation produces `WF` values is part of every operation's theorem; `WF` excludes leading zero
words and one-word buffers. -/
theorem C09_ubig_eq_hash {cfg : Cfg} (hv : cfg.Valid) {a b : UBig} (ha : a.WF cfg) (hb : b.WF cfg) :
    (a.beq b = true ↔ a.value cfg = b.value cfg) ∧
    (a.hashTokens = b.hashTokens ↔ a.value cfg = b.value cfg) := by
  refine ⟨UBig.beq_iff hv ha hb, ?_, UBig.hash_eq hv ha hb⟩
  intro h
  cases a <;> cases b <;> simp_all [UBig.hashTokens, UBig.value]

/-- Two different two-word numbers. -/
example : exA.beq exB = false ∧ exA.hashTokens ≠ exB.hashTokens :=
  have h := C09_ubig_eq_hash cfg64_valid exA_wf exB_wf
  ⟨Bool.eq_false_iff.mpr fun e => absurd (h.1.mp e) (by decide +kernel),
    fun e => absurd (h.2.mp e) (by decide +kernel)⟩

example : exA.beq exA = true ∧ exA.beq exB = false ∧ exA.hashTokens ≠ exB.hashTokens := by
  decide +kernel
/-- capacities are ignored -/
example : (UBig.large ⟨[5, 1], 2⟩).beq (UBig.large ⟨[5, 1], 6⟩) = true := by decide +kernel

/-- C09: the same for `IBig`; there is no negative zero. -/
theorem C09_ibig_eq_hash {cfg : Cfg} (hv : cfg.Valid) {a b : IBig} (ha : a.WF cfg) (hb : b.WF cfg) :
    (a.beq b = true ↔ a.value cfg = b.value cfg) ∧
    (a.hashTokens = b.hashTokens ↔ a.value cfg = b.value cfg) ∧
    (a.value cfg = 0 → a.sign = .pos) := by
  refine ⟨IBig.beq_iff hv ha hb, ⟨?_, IBig.hash_eq hv ha hb⟩, ?_⟩
  · intro h
    simp only [IBig.hashTokens, List.cons.injEq] at h
    have hs : a.sign = b.sign := by
      have := h.1
      cases ha' : a.sign <;> cases hb' : b.sign <;> simp_all [Sign.discriminant]
    have hm := (C09_ubig_eq_hash hv ha.mag hb.mag).2.mp h.2
    rw [IBig.value_def, IBig.value_def, hs, hm]
  · intro h
    exact (IBig.value_nonneg_iff ha).mpr h.ge

/-- Two opposite integers. -/
example : exNegB.beq exPosB = false :=
  Bool.eq_false_iff.mpr fun e =>
    absurd ((C09_ibig_eq_hash cfg64_valid exNegB_wf exPosB_wf).1.mp e) (by decide +kernel)

example : exNegB.beq exPosB = false := by decide +kernel

/-- C10: comparison is the numeric order, for `UBig` and `IBig`. -/
theorem C10_cmp {cfg : Cfg} (hv : cfg.Valid) :
    (∀ {a b : UBig}, a.WF cfg → b.WF cfg → a.cmp b = .ok (compare (a.value cfg) (b.value cfg))) ∧
    (∀ {a b : IBig}, a.WF cfg → b.WF cfg → a.cmp b = .ok (compare (a.value cfg) (b.value cfg))) :=
  ⟨fun ha hb => UBig.cmp_spec hv ha hb, fun ha hb => IBig.cmp_spec hv ha hb⟩

/-- A 300-word number and a 100-word number; a negative and a positive integer. -/
example := (C10_cmp cfg64_valid).1 exLong_wf exMid_wf
example := (C10_cmp cfg64_valid).2 exNegA_wf exPosB_wf

example : exNegA.cmp exNegB = .ok .lt ∧ exA.cmp exB = .ok .gt := by decide +kernel

/-- C35: `clone` and `clone_from` (whatever the destination held) give an equal value in canonical form
with compact capacity. -/
theorem C35_clone {cfg : Cfg} {src : UBig} (hs : src.WF cfg) :
    (∃ c, src.clone cfg = .ok c ∧ c.WF cfg ∧ c.value cfg = src.value cfg) ∧
    (∀ dst : UBig, ∃ c, dst.cloneFrom cfg src = .ok c ∧ c.WF cfg ∧ c.value cfg = src.value cfg) :=
  ⟨UBig.clone_spec hs, fun _ => UBig.cloneFrom_spec hs⟩

/-- C35 for `IBig` (/repo/src/ibig.rs derives `Clone`). -/
theorem C35_ibig_clone {cfg : Cfg} {src : IBig} (hs : src.WF cfg) :
    ∃ c, src.clone cfg = .ok c ∧ c.WF cfg ∧ c.value cfg = src.value cfg :=
  (IBig.clone_spec hs).mono fun _ h => ⟨h.1, h.2.1⟩

/-- The case of a negative two-word integer. -/
example := C35_ibig_clone exNegA_wf

example : ∃ c, exB.cloneFrom cfg64 exLong = .ok c := by
  obtain ⟨c, h, -⟩ := (C35_clone exLong_wf).2 exB
  exact ⟨c, h⟩

/-- C37: sign functions. -/
theorem C37_signs {cfg : Cfg} (hv : cfg.Valid) (o : Own) {a : IBig} (ha : a.WF cfg) :
    (∃ c, a.negOwn cfg o = .ok c ∧ c.WF cfg ∧ c.value cfg = -a.value cfg) ∧
    (∃ c, a.abs cfg o = .ok c ∧ c.WF cfg ∧ c.value cfg = |a.value cfg|) ∧
    (∃ c, a.unsignedAbs cfg o = .ok c ∧ c.WF cfg ∧ c.value cfg = (a.value cfg).natAbs) ∧
    (a.signum.WF cfg ∧ a.signum.value cfg = (a.value cfg).sign) :=
  ⟨IBig.negOwn_spec hv o ha, IBig.abs_spec hv o ha, IBig.unsignedAbs_spec o ha,
    IBig.signum_spec hv ha⟩

/-- The case of a negative two-word integer. -/
example := C37_signs cfg64_valid .ref exNegA_wf

example : exNegA.negOwn cfg64 .ref = .ok ⟨.pos, .large ⟨[2 ^ 64 - 1, 2 ^ 64 - 1], 4⟩⟩ := by
  decide +kernel

end Ibig
