import Verif.Model.Accumulate
import Verif.Proofs.AddOpsTime
import Verif.Proofs.Counted
import Verif.Proofs.Buffer
/-!
Adding numbers to an owned number again and again: the steps of each operation and the change of a potential are together
linear in the number that is added (for C81).
-/
namespace Ibig.Timed.Exact

/-! ### Counting does not change the results -/

theorem Buffer.ensureCapacity_result (cfg : Cfg) (b : Buffer) (n : Nat) :
    (Buffer.ensureCapacity cfg b n).result = Ibig.Buffer.ensureCapacity cfg b n := by
  unfold Buffer.ensureCapacity Ibig.Buffer.ensureCapacity
  exact (result_bind_ok (a := ()) rfl _).trans (result_ite (fun _ => result_pass _ _) (fun _ => rfl))

theorem Buffer.shrink_result (cfg : Cfg) (b : Buffer) : (Buffer.shrink cfg b).result = Ibig.Buffer.shrink cfg b := by
  unfold Buffer.shrink Ibig.Buffer.shrink
  exact result_bind (result_pass _ _) fun _ => result_ite (fun _ => result_pass _ _) (fun _ => rfl)

theorem Buffer.pushMayReallocate_result (cfg : Cfg) (b : Buffer) (w : Nat) :
    (Buffer.pushMayReallocate cfg b w).result = Ibig.Buffer.pushMayReallocate cfg b w := by
  unfold Buffer.pushMayReallocate Ibig.Buffer.pushMayReallocate
  exact result_bind (Buffer.ensureCapacity_result _ _ _) fun _ => result_pass _ _

theorem UBig.ofBuffer_result (cfg : Cfg) (b : Buffer) : (UBig.ofBuffer cfg b).result = Ibig.UBig.ofBuffer cfg b := by
  unfold UBig.ofBuffer Ibig.UBig.ofBuffer
  refine (result_bind_ok (a := b.popLeadingZeros) rfl _).trans ?_
  generalize b.popLeadingZeros = c
  match hc : c.words with
  | [] => simp only [hc]; rfl
  | [_] => simp only [hc]; rfl
  | _ :: _ :: _ =>
    simp only [hc]
    exact result_ite (fun _ => rfl) (fun _ => result_bind (Buffer.shrink_result _ _) fun _ => rfl)

theorem UBig.addWord_result (cfg : Cfg) (a b : Nat) :
    (UBig.addWord cfg a b).result = Ibig.UBig.addWord cfg a b := by
  unfold UBig.addWord Ibig.UBig.addWord
  refine (result_bind_ok (a := ()) rfl _).trans ?_
  refine result_ite (fun _ => ?_) (fun _ => rfl)
  refine result_bind (result_pass _ _) (fun _ => ?_)
  refine result_bind (result_pass _ _) (fun _ => ?_)
  exact result_bind (result_pass _ _) (fun _ => UBig.ofBuffer_result _ _)

theorem UBig.addLargeWord_result (cfg : Cfg) (b : Buffer) (x : Nat) :
    (UBig.addLargeWord cfg b x).result = Ibig.UBig.addLargeWord cfg b x := by
  unfold UBig.addLargeWord Ibig.UBig.addLargeWord
  refine result_bind (result_pass _ _) (fun _ => ?_)
  refine result_bind (Timed.addWord_result _ _ _) ?_
  rintro ⟨ws, o⟩
  refine result_ite (fun _ => ?_) (fun _ => UBig.ofBuffer_result _ _)
  exact result_bind (Buffer.pushMayReallocate_result _ _ _) (fun _ => UBig.ofBuffer_result _ _)

theorem appendRest_result (cfg : Cfg) (b : Buffer) (r : List Nat) (n : Nat) :
    (appendRest cfg b r n).result = Ibig.appendRest cfg b r n := by
  unfold appendRest Ibig.appendRest
  refine result_ite (fun _ => ?_) (fun _ => rfl)
  refine result_bind (Buffer.ensureCapacity_result _ _ _) (fun _ => ?_)
  exact result_bind (result_pass _ _) (fun _ => result_pass _ _)

theorem UBig.addLarge_result (cfg : Cfg) (b : Buffer) (r : List Nat) :
    (UBig.addLarge cfg b r).result = Ibig.UBig.addLarge cfg b r := by
  unfold UBig.addLarge Ibig.UBig.addLarge
  refine result_bind (result_pass _ _) (fun _ => ?_)
  refine result_bind (result_onSlice _ _ _ fun _ => addSameLen_result _ _ _) ?_
  rintro ⟨ws, o⟩
  refine result_bind (appendRest_result _ _ _ _) (fun _ => ?_)
  refine result_ite (fun _ => ?_) (fun _ => UBig.ofBuffer_result _ _)
  refine result_bind (result_onSlice _ _ _ fun _ => addOne_result _ _) ?_
  rintro ⟨ws, c⟩
  refine result_ite (fun _ => ?_) (fun _ => UBig.ofBuffer_result _ _)
  exact result_bind (Buffer.pushMayReallocate_result _ _ _) (fun _ => UBig.ofBuffer_result _ _)

theorem UBig.add_result (cfg : Cfg) (o : Own) (a b : UBig) :
    (UBig.add cfg o a b).result = Ibig.UBig.add cfg .val o a b := by
  cases o <;> cases a <;> cases b
  · exact UBig.addWord_result _ _ _
  · exact UBig.addLargeWord_result _ _ _
  · exact UBig.addLargeWord_result _ _ _
  · exact result_ite (fun _ => UBig.addLarge_result _ _ _) (fun _ => UBig.addLarge_result _ _ _)
  · exact UBig.addWord_result _ _ _
  · exact result_bind (result_pass _ _) (fun _ => UBig.addLargeWord_result _ _ _)
  · exact UBig.addLargeWord_result _ _ _
  · exact UBig.addLarge_result _ _ _

theorem UBig.subLargeWord_result (cfg : Cfg) (b : Buffer) (x : Nat) :
    (UBig.subLargeWord cfg b x).result = Ibig.UBig.subLargeWord cfg b x := by
  unfold UBig.subLargeWord Ibig.UBig.subLargeWord
  refine result_bind (Timed.subWord_result _ _ _) ?_
  rintro ⟨ws, o⟩
  exact result_bind (result_pass _ _) (fun _ => UBig.ofBuffer_result _ _)

theorem UBig.subLarge_result (cfg : Cfg) (b : Buffer) (r : List Nat) :
    (UBig.subLarge cfg b r).result = Ibig.UBig.subLarge cfg b r := by
  unfold UBig.subLarge Ibig.UBig.subLarge
  refine result_ite (fun _ => rfl) (fun _ => ?_)
  refine result_bind (subInPlace_result _ _ _) ?_
  rintro ⟨ws, o⟩
  exact result_ite (fun _ => rfl) (fun _ => UBig.ofBuffer_result _ _)

theorem UBig.sub_result (cfg : Cfg) (o : Own) (a b : UBig) :
    (UBig.sub cfg a b).result = Ibig.UBig.sub cfg .val o a b := by
  cases o <;> cases a <;> cases b <;>
    first
    | rfl
    | exact (result_bind_ok (a := ()) rfl _).trans (Timed.UBig.subWord_result _ _)
    | exact UBig.subLargeWord_result _ _ _
    | exact UBig.subLarge_result _ _ _

/-! ### The potential -/

/-- Words that a carry (or a borrow) passes over, words of the number, words until the buffer is full, and words until it is
too large. -/
def pot (cfg : Cfg) (special len cap : Nat) : Nat :=
  special + 10 * len + (if cap < cfg.maxCap then 9 * len - 8 * cap else 0) + (8 * cap - 9 * len - 16)

/-- The potential of a buffer; `c` is the word over which a carry passes. -/
def potB (cfg : Cfg) (c : Nat) (b : Buffer) : Nat := pot cfg (b.words.count c) b.words.length b.cap

/-- The potential of a number. -/
def potU (cfg : Cfg) (c : Nat) : UBig → Nat
  | .small _ => 0
  | .large b => potB cfg c b

variable {cfg : Cfg} {c : Nat}

theorem sat_reallocate (hs : ∀ n, cfg.spare n = 0) (b : Buffer) (n : Nat) :
    Sat (Buffer.reallocate cfg b n) fun a k => k = b.words.length + 1 ∧ a.words = b.words ∧
      a.cap = min (n + n / 8 + 2) cfg.maxCap ∧ b.words.length ≤ n ∧ n ≤ cfg.maxCap := by
  refine sat_pass fun a ha => ?_
  unfold Ibig.Buffer.reallocate at ha
  by_cases h1 : b.len ≤ n
  · rw [assertR_true h1] at ha
    by_cases h2 : n ≤ cfg.maxLen + 4
    · rw [Buffer.allocate_ok h2] at ha
      have h3 : b.len ≤ allocCap cfg n := by
        unfold allocCap; have : b.len ≤ n := h1; omega
      replace ha : Ibig.Buffer.cloneFrom ⟨[], allocCap cfg n⟩ b = .ok a := ha
      unfold Ibig.Buffer.cloneFrom at ha
      rw [assertR_true h3] at ha
      cases ha
      refine ⟨rfl, rfl, ?_, h1, h2⟩
      show allocCap cfg n = _
      unfold allocCap Cfg.maxCap
      rw [hs]; omega
    · rw [Buffer.allocate_err (by omega)] at ha; cases ha
  · unfold Ibig.assertR at ha; rw [if_neg h1] at ha; cases ha

theorem pops (b : Buffer) (c : Nat) : b.popLeadingZeros.words.length ≤ b.words.length ∧
    b.popLeadingZeros.words.count c ≤ b.words.count c := by
  have h : b.popLeadingZeros.words.Sublist b.words := by
    have := (List.dropWhile_sublist (l := b.words.reverse) (fun w => w == 0)).reverse
    rwa [List.reverse_reverse] at this
  exact ⟨h.length_le, h.count_le c⟩

theorem sat_ofBuffer (hs : ∀ n, cfg.spare n = 0) {b : Buffer} (hb : b.cap ≤ cfg.maxCap) :
    Sat (UBig.ofBuffer cfg b) fun x k => k + potU cfg c x ≤ potB cfg c b + 4 := by
  unfold UBig.ofBuffer
  refine Sat.bind (Q := fun a k => a = b.popLeadingZeros ∧ k = b.words.length - a.words.length + 1)
    (sat_pass fun a ha => by cases ha; exact ⟨rfl, rfl⟩) ?_
  rintro a k ⟨ha, hk⟩
  obtain ⟨h1, h2⟩ := pops b c
  rw [← ha] at h1 h2
  have hcap : a.cap = b.cap := by rw [ha]; rfl
  have hb0 : pot cfg (a.words.count c) a.words.length a.cap + k ≤ potB cfg c b + 1 := by
    unfold potB pot; rw [hcap]; split_ifs <;> omega
  split
  · refine sat_pure ?_
    show k + 0 + 0 ≤ _; omega
  · refine sat_pure ?_
    show k + 0 + 0 ≤ _; omega
  · refine sat_ite (fun _ => sat_throw) (fun hl => ?_)
    refine Sat.bind (Q := fun d l => l + potB cfg c d ≤ potB cfg c a + 3) ?_ ?_
    · unfold Buffer.shrink
      refine Sat.bind (Q := fun d l => d = min (a.words.length + a.words.length / 4 + 4) cfg.maxCap ∧ l = 1)
        (sat_pass fun d hd => ⟨?_, rfl⟩) ?_
      · unfold maxCompactCapacity at hd
        have hl' : a.len ≤ cfg.maxCap := by unfold Cfg.maxCap; omega
        rw [assertR_true hl'] at hd; cases hd; rfl
      · rintro d l ⟨rfl, rfl⟩
        refine sat_ite (fun hc => ?_) (fun _ => sat_pure (by omega))
        refine (sat_reallocate hs a a.len).mono ?_
        rintro e m ⟨rfl, he, hec, -, hm⟩
        have hlen : a.len = a.words.length := rfl
        rw [hlen] at hec
        unfold potB pot
        rw [he, hec]
        split_ifs <;> omega
    · intro d l hd
      refine sat_pure ?_
      show k + (l + 0) + potB cfg c d ≤ _
      have e : potB cfg c a = pot cfg (a.words.count c) a.words.length a.cap := rfl
      omega

theorem sat_pushMayReallocate (hs : ∀ n, cfg.spare n = 0) {b : Buffer} (hb : b.cap ≤ cfg.maxCap)
    (hf : b.words.length ≤ b.cap) (w : Nat) :
    Sat (Buffer.pushMayReallocate cfg b w) fun a k => k + potB cfg c a ≤ potB cfg c b + 24 ∧ a.cap ≤ cfg.maxCap := by
  unfold Buffer.pushMayReallocate Buffer.ensureCapacity
  have hlen : b.len = b.words.length := rfl
  refine Sat.bind (Q := fun a k => a.words = b.words ∧ a.cap ≤ cfg.maxCap ∧
    k + pot cfg (b.words.count c + 1) (b.words.length + 1) a.cap ≤ potB cfg c b + 23) ?_ ?_
  · refine Sat.bind (Q := fun _ k => k = 1) (sat_tick rfl) ?_
    rintro _ k rfl
    refine sat_ite (fun h => ?_) (fun h => sat_pure ⟨rfl, hb, ?_⟩)
    · refine (sat_reallocate hs b _).mono ?_
      rintro a m ⟨rfl, h1, h2, h3, h4⟩
      rw [hlen] at h2 h3 h4 h
      refine ⟨h1, by omega, ?_⟩
      unfold potB pot
      rw [h2]
      split_ifs <;> omega
    · rw [hlen] at h
      unfold potB pot
      split_ifs <;> omega
  · rintro a k ⟨h1, h2, h3⟩
    refine sat_pass fun d hd => ?_
    unfold Ibig.Buffer.push at hd
    by_cases hp : a.len < a.cap
    · rw [assertR_true hp] at hd
      cases hd
      refine ⟨?_, h2⟩
      have : potB cfg c { a with words := a.words ++ [w] } ≤ pot cfg (b.words.count c + 1) (b.words.length + 1) a.cap := by
        have hc : (b.words ++ [w]).count c ≤ b.words.count c + 1 := by
          rw [List.count_append]
          have := List.count_le_length (a := c) (l := [w])
          simp only [List.length_singleton] at this
          omega
        unfold potB pot
        simp only [h1, List.length_append, List.length_singleton]
        omega
      omega
    · unfold Ibig.assertR at hd; rw [if_neg hp] at hd; cases hd

/-! ### Carries and borrows -/

theorem sat_addOne {W : Nat} (hW : 1 ≤ W) {l : List Nat} (hl : IsWords W l) :
    Sat (addOne W l) fun p k => k + p.1.count (base W - 1) ≤ l.count (base W - 1) + 2 ∧ p.1.length = l.length := by
  have hB : 2 ≤ base W := by
    have := Nat.pow_le_pow_right (n := 2) (by norm_num) hW
    unfold base; omega
  induction l with
  | nil => exact sat_pure ⟨by simp, rfl⟩
  | cons w ws ih =>
    have hw : w < base W := hl w (by simp)
    unfold addOne
    refine Sat.bind (Q := fun _ k => k = 1) (sat_tick rfl) ?_
    rintro _ k rfl
    refine sat_ite (fun h => sat_pure ⟨?_, rfl⟩) (fun h => ?_)
    · simp only [List.count_cons]
      split_ifs <;> omega
    · have hov : base W ≤ w + 1 := by
        unfold overflowingAdd at h
        simpa using h
      have hw1 : w = base W - 1 := by omega
      refine Sat.bind (ih fun x hx => hl x (by simp [hx])) ?_
      rintro ⟨r, o⟩ k ⟨h1, h2⟩
      refine sat_pure ⟨?_, by simp only [List.length_cons]; simpa using h2⟩
      have hz : ((base W - 1 + 1) % base W == base W - 1) = false := by
        rw [show base W - 1 + 1 = base W by omega, Nat.mod_self, beq_eq_false_iff_ne]; omega
      simp only at h1 h2
      simp only [overflowingAdd, List.count_cons, hw1, hz]
      simp only [beq_self_eq_true, if_true, Bool.false_eq_true, if_false]
      omega

theorem sat_subOne {W : Nat} (hW : 1 ≤ W) (l : List Nat) :
    Sat (subOne W l) fun p k => k + p.1.count 0 ≤ l.count 0 + 2 ∧ p.1.length = l.length := by
  have hB : 2 ≤ base W := by
    have := Nat.pow_le_pow_right (n := 2) (by norm_num) hW
    unfold base; omega
  induction l with
  | nil => exact sat_pure ⟨by simp, rfl⟩
  | cons w ws ih =>
    unfold subOne
    refine Sat.bind (Q := fun _ k => k = 1) (sat_tick rfl) ?_
    rintro _ k rfl
    refine sat_ite (fun h => sat_pure ⟨?_, rfl⟩) (fun h => ?_)
    · simp only [List.count_cons]
      split_ifs <;> omega
    · have hw : w = 0 := by
        unfold overflowingSub at h
        simpa using h
      refine Sat.bind ih ?_
      rintro ⟨r, o⟩ k ⟨h1, h2⟩
      refine sat_pure ⟨?_, by simp only [List.length_cons]; simpa using h2⟩
      have hz : ((0 + base W - 1) % base W == 0) = false := by
        rw [beq_eq_false_iff_ne, Nat.zero_add, Nat.mod_eq_of_lt (by omega)]
        omega
      simp only at h1 h2
      simp only [overflowingSub, List.count_cons, hw, hz]
      simp only [beq_self_eq_true, if_true, Bool.false_eq_true, if_false]
      omega

theorem sat_addLoop (W : Nat) (l r : List Nat) (o : Bool) :
    Sat (addLoop W l r o) fun p k => k ≤ r.length ∧ p.1.length = l.length := by
  induction l generalizing r o with
  | nil => cases r <;> exact sat_pure ⟨Nat.zero_le _, rfl⟩
  | cons a as ih =>
    cases r with
    | nil => exact sat_pure ⟨Nat.zero_le _, rfl⟩
    | cons b bs =>
      unfold addLoop
      refine Sat.bind (Q := fun _ k => k = 1) (sat_tick rfl) ?_
      rintro _ k rfl
      refine Sat.bind (ih bs _) ?_
      rintro ⟨r, o⟩ k ⟨h1, h2⟩
      exact sat_pure ⟨by simp only [List.length_cons]; omega, by simp only [List.length_cons]; simpa using h2⟩

theorem sat_subLoop (W : Nat) (l r : List Nat) (o : Bool) :
    Sat (subLoop W l r o) fun p k => k ≤ r.length ∧ p.1.length = l.length := by
  induction l generalizing r o with
  | nil => cases r <;> exact sat_pure ⟨Nat.zero_le _, rfl⟩
  | cons a as ih =>
    cases r with
    | nil => exact sat_pure ⟨Nat.zero_le _, rfl⟩
    | cons b bs =>
      unfold subLoop
      refine Sat.bind (Q := fun _ k => k = 1) (sat_tick rfl) ?_
      rintro _ k rfl
      refine Sat.bind (ih bs _) ?_
      rintro ⟨r, o⟩ k ⟨h1, h2⟩
      exact sat_pure ⟨by simp only [List.length_cons]; omega, by simp only [List.length_cons]; simpa using h2⟩

theorem sat_addWord {W : Nat} (hW : 1 ≤ W) {l : List Nat} (hl : IsWords W l) (x : Nat) :
    Sat (Timed.addWord W l x) fun p k => k + p.1.count (base W - 1) ≤ l.count (base W - 1) + 4 ∧ p.1.length = l.length := by
  cases l with
  | nil => exact sat_throw
  | cons w ws =>
    unfold Timed.addWord
    refine Sat.bind (Q := fun _ k => k = 1) (sat_tick rfl) ?_
    rintro _ k rfl
    refine sat_ite (fun h => ?_) (fun h => sat_pure ⟨?_, rfl⟩)
    · refine Sat.bind (sat_addOne hW fun x hx => hl x (by simp [hx])) ?_
      rintro ⟨r, o⟩ k ⟨h1, h2⟩
      refine sat_pure ⟨?_, by simp only [List.length_cons]; simpa using h2⟩
      simp only [List.count_cons] at h1 ⊢
      split_ifs <;> omega
    · simp only [List.count_cons]
      split_ifs <;> omega

theorem sat_subWord {W : Nat} (hW : 1 ≤ W) (l : List Nat) (x : Nat) :
    Sat (Timed.subWord W l x) fun p k => k + p.1.count 0 ≤ l.count 0 + 4 ∧ p.1.length = l.length := by
  cases l with
  | nil => exact sat_throw
  | cons w ws =>
    unfold Timed.subWord
    refine Sat.bind (Q := fun _ k => k = 1) (sat_tick rfl) ?_
    rintro _ k rfl
    refine sat_ite (fun h => ?_) (fun h => sat_pure ⟨?_, rfl⟩)
    · refine Sat.bind (sat_subOne hW ws) ?_
      rintro ⟨r, o⟩ k ⟨h1, h2⟩
      refine sat_pure ⟨?_, by simp only [List.length_cons]; simpa using h2⟩
      simp only [List.count_cons] at h1 ⊢
      split_ifs <;> omega
    · simp only [List.count_cons]
      split_ifs <;> omega

end Ibig.Timed.Exact
