import Verif.Proofs.ParseTime
import Verif.Proofs.DivPower
/-!
The number of steps of parsing.
-/
namespace Ibig.Timed

/-- a property of the value, if the result is not a parse error -/
def OkP {α : Type} (P : α → Prop) : PRes α → Prop := fun r => ∀ a, r = .ok a → P a

theorem Takes.tryP {α β : Type} {x : Timed (PRes α)} {f : α → Timed (PRes β)} {P : α → Prop} {Q : β → Prop}
    {n N : Nat} (hx : Takes x n (OkP P)) (hn : n ≤ N)
    (hf : ∀ a M, N = n + M → P a → Takes (f a) M (OkP Q)) : Takes (tryP x f) N (OkP Q) := by
  unfold Timed.tryP
  refine Takes.bind hx hn ?_
  rintro (e | a) M hM h
  · exact Takes.pure (by intro b hb; cases hb)
  · exact hf a M hM (h a rfl)

theorem Costs.tryP {α β : Type} {x : Timed (PRes α)} {f : α → Timed (PRes β)} {P : α → Prop} {Q : β → Prop}
    {B C : ℝ} (hx : Costs x B (OkP P)) (h : B ≤ C) (hf : ∀ a, P a → Costs (f a) (C - B) (OkP Q)) :
    Costs (tryP x f) C (OkP Q) := by
  unfold Timed.tryP
  refine Costs.step hx ?_
  rintro (e | a) hP
  · exact (Costs.pure (by intro b hb; cases hb)).mono (by linarith) (fun _ h => h)
  · exact hf a (hP a rfl)

theorem Takes.okP {α : Type} {x : Timed α} {P : α → Prop} {n : Nat} (hx : Takes x n P) :
    Takes (okP x) n (OkP P) :=
  Takes.bind hx (le_refl n) fun a M _ h => Takes.pure (by intro b hb; cases hb; exact h)

theorem Costs.okP {α : Type} {x : Timed α} {P : α → Prop} {B : ℝ} (hx : Costs x B P) :
    Costs (okP x) B (OkP P) :=
  Costs.step hx fun a h => (Costs.pure (by intro b hb; cases hb; exact h)).mono (by linarith) (fun _ h => h)

theorem takes_digitP (c r : Nat) : Takes (digitP c r) 1 (OkP fun _ => True) :=
  (Takes.pass (Post.true _)).mono (le_refl 1) (fun _ _ _ _ => trivial)

theorem takes_word1 {α : Type} (x : R α) : Takes (pass 1 x) 1 (fun _ => True) := Takes.pass (Post.true _)

/-! ### Power-of-two radix -/

theorem takes_pow2WordLoop (W r : Nat) (l : List Nat) : ∀ w b,
    Takes (pow2WordLoop W r l w b) (3 * l.length) (OkP fun _ => True) := by
  induction l with
  | nil => intro w b; exact Takes.pure (fun _ _ => trivial)
  | cons c l ih =>
    intro w b
    rw [pow2WordLoop]
    refine Takes.tryP (takes_digitP _ _) (by simp only [List.length_cons]; omega) fun d M hM _ => ?_
    rw [List.length_cons] at hM
    refine Takes.bind (takes_word1 _) (by omega) fun x M1 hM1 _ => ?_
    refine Takes.bind (takes_word1 _) (by omega) fun y M2 hM2 _ => ?_
    exact (ih _ _).mono (by omega) (fun _ h => h)

theorem takes_pow2ParseWord (W r : Nat) (l : List Nat) :
    Takes (pow2ParseWord W r l) (3 * l.length + 3) (OkP fun _ => True) := by
  unfold pow2ParseWord
  refine Takes.bind (takes_word1 _) (by omega) fun x M1 hM1 _ => ?_
  refine Takes.bind (takes_word1 _) (by omega) fun y M2 hM2 _ => ?_
  refine Takes.bind (takes_word1 _) (by omega) fun z M3 hM3 _ => ?_
  refine (takes_pow2WordLoop _ _ _ _ _).mono ?_ (fun _ h => h)
  rw [List.length_reverse]
  omega

theorem takes_pow2Step (W r d : Nat) (s : Buffer × Nat × Nat) :
    Takes (pow2Step W r d s) 5 (fun t => t.1.words.length ≤ s.1.words.length + 1) := by
  unfold pow2Step
  refine Takes.bind (takes_word1 _) (by omega) fun x M1 hM1 _ => ?_
  refine Takes.bind (takes_word1 _) (by omega) fun y M2 hM2 _ => ?_
  refine Takes.ite (fun _ => ?_) (fun _ => Takes.pure (by dsimp only; omega))
  refine Takes.bind (takes_push _ _) (by omega) fun b M3 hM3 hb => ?_
  refine Takes.bind (takes_word1 _) (by omega) fun k M4 hM4 _ => ?_
  refine Takes.bind (takes_word1 _) (by omega) fun w M5 hM5 _ => ?_
  refine Takes.pure ?_
  dsimp only
  rw [hb, List.length_append]
  exact le_refl _

theorem takes_pow2LargeLoop (W r : Nat) (l : List Nat) : ∀ s : Buffer × Nat × Nat,
    Takes (pow2LargeLoop W r l s) (6 * l.length) (OkP fun t => t.1.words.length ≤ s.1.words.length + l.length) := by
  induction l with
  | nil => intro s; exact Takes.pure (by intro a ha; cases ha; simp)
  | cons c l ih =>
    intro s
    rw [pow2LargeLoop]
    refine Takes.tryP (takes_digitP _ _) (by simp only [List.length_cons]; omega) fun d M hM _ => ?_
    rw [List.length_cons] at hM
    refine Takes.bind (takes_pow2Step _ _ _ _) (by omega) fun t M1 hM1 ht => ?_
    refine (ih t).mono (by omega) (fun u hu a ha => ?_)
    have := hu a ha
    rw [List.length_cons]
    omega

theorem takes_pow2Finish (cfg : Cfg) (s : Buffer × Nat × Nat) :
    Takes (pow2Finish cfg s) (2 * s.1.words.length + 5) (fun _ => True) := by
  unfold pow2Finish
  refine Takes.ite (fun _ => ?_) (fun _ => (takes_ofBuffer _ _).mono (by omega) (fun _ h => h))
  refine Takes.bind (takes_push _ _) (by omega) fun b M hM hb => ?_
  refine (takes_ofBuffer _ _).mono ?_ (fun _ h => h)
  rw [hb, List.length_append, List.length_singleton]
  omega

theorem takes_pow2ParseLarge (cfg : Cfg) (r : Nat) (l : List Nat) :
    Takes (pow2ParseLarge cfg r l) (8 * l.length + 8) (OkP fun _ => True) := by
  unfold pow2ParseLarge
  refine Takes.bind (takes_word1 _) (by omega) fun x M1 hM1 _ => ?_
  refine Takes.ite (fun _ => Takes.throwT) (fun _ => ?_)
  refine Takes.bind (takes_word1 _) (by omega) fun y M2 hM2 _ => ?_
  refine Takes.bind (takes_allocate _ _) (by omega) fun b M3 hM3 hb => ?_
  refine Takes.tryP (takes_pow2LargeLoop _ _ _ _) (by rw [List.length_reverse]; omega) fun t M4 hM4 ht => ?_
  rw [List.length_reverse] at hM4 ht
  dsimp only at ht
  rw [hb, List.length_nil] at ht
  refine (Takes.okP (takes_pow2Finish cfg t)).mono (by omega) (fun _ h => h)

theorem takes_pow2Parse (cfg : Cfg) (r : Nat) (l : List Nat) :
    Takes (pow2Parse cfg r l) (8 * l.length + 10) (OkP fun _ => True) := by
  unfold pow2Parse
  refine Takes.bind (takes_word1 _) (by omega) fun x M1 hM1 _ => ?_
  refine Takes.bind (takes_word1 _) (by omega) fun y M2 hM2 _ => ?_
  refine Takes.ite (fun _ => ?_) (fun _ => (takes_pow2ParseLarge _ _ _).mono (by omega) (fun _ h => h))
  refine Takes.tryP (takes_pow2ParseWord _ _ _) (by omega) fun w M hM _ => ?_
  exact Takes.pure (fun _ _ => trivial)

/-! ### Other radixes: one chunk -/

theorem takes_npWordLoop (W r : Nat) (l : List Nat) : ∀ w,
    Takes (npWordLoop W r l w) (3 * l.length) (OkP fun _ => True) := by
  induction l with
  | nil => intro w; exact Takes.pure (fun _ _ => trivial)
  | cons c l ih =>
    intro w
    rw [npWordLoop]
    refine Takes.tryP (takes_digitP _ _) (by simp only [List.length_cons]; omega) fun d M hM _ => ?_
    rw [List.length_cons] at hM
    refine Takes.bind (takes_word1 _) (by omega) fun x M1 hM1 _ => ?_
    refine Takes.bind (takes_word1 _) (by omega) fun y M2 hM2 _ => ?_
    exact (ih _).mono (by omega) (fun _ h => h)

theorem takes_npParseWord (W r : Nat) (l : List Nat) :
    Takes (npParseWord W r l) (3 * l.length + 3) (OkP fun _ => True) := by
  unfold npParseWord
  refine Takes.bind (takes_word1 _) (by omega) fun x M1 hM1 _ => ?_
  refine Takes.bind (takes_word1 _) (by omega) fun y M2 hM2 _ => ?_
  refine Takes.bind (takes_word1 _) (by omega) fun z M3 hM3 _ => ?_
  exact (takes_npWordLoop _ _ _ _).mono (by omega) (fun _ h => h)

theorem takes_npChunkStep (W range next : Nat) (b : Buffer) :
    Takes (npChunkStep W range next b) (b.words.length + 1)
      (fun c => c.words.length ≤ b.words.length + 1) := by
  unfold npChunkStep
  refine Takes.bind (takes_mulWordLoop _ _ _ _) (by omega) ?_
  rintro ⟨ws, c⟩ M hM h
  dsimp only at h ⊢
  refine Takes.ite (fun _ => ?_) (fun _ => Takes.pure (by dsimp only; omega))
  refine (takes_push _ _).mono (by omega) (fun d hd => ?_)
  rw [hd, List.length_append, List.length_singleton]
  dsimp only
  omega

theorem takes_npChunkLoop (W r range : Nat) (gs : List (List Nat)) : ∀ b : Buffer,
    Takes (npChunkLoop W r range gs b) (3 * gs.flatten.length + gs.length * (4 + b.words.length + gs.length))
      (OkP fun c => c.words.length ≤ b.words.length + gs.length) := by
  induction gs with
  | nil => intro b; exact Takes.pure (by intro a ha; cases ha; simp)
  | cons g gs ih =>
    intro b
    have e : (gs.length + 1) * (4 + b.words.length + (gs.length + 1)) =
      gs.length * (4 + (b.words.length + 1) + gs.length) + (5 + b.words.length + gs.length) := by ring
    rw [npChunkLoop, List.flatten_cons, List.length_append, List.length_cons, e]
    generalize he : gs.length * (4 + (b.words.length + 1) + gs.length) = E
    refine Takes.tryP (takes_npParseWord _ _ _) (by omega) fun d M hM _ => ?_
    refine Takes.bind (takes_npChunkStep _ _ _ _) (by omega) fun c M1 hM1 hc => ?_
    refine (ih c).mono ?_ (fun u hu a ha => ?_)
    · have : gs.length * (4 + c.words.length + gs.length) ≤ E := by
        rw [← he]; exact Nat.mul_le_mul_left _ (by omega)
      omega
    · have := hu a ha
      omega

/-- the number of groups of digits -/
def groupsOf (n d : Nat) : Nat := (n + d - 1) / d

theorem rchunks_flatten {d : Nat} (hd : 1 ≤ d) (l : List Nat) :
    (rchunks d l.length l).reverse.flatten = l ∧ (rchunks d l.length l).length ≤ groupsOf l.length d := by
  by_cases hl : l = []
  · subst hl; exact ⟨rfl, Nat.zero_le _⟩
  · obtain ⟨g, gs, h1, h2, h3, h4, h5⟩ := rchunks_spec hd l.length l (le_refl _) hl
    refine ⟨by rw [h1, List.flatten_cons, h2], ?_⟩
    have : (rchunks d l.length l).length = gs.length + 1 := by
      rw [← List.length_reverse, h1, List.length_cons]
    rw [this]
    unfold groupsOf
    rw [Nat.le_div_iff_mul_le (by omega), Nat.succ_mul]
    omega

theorem takes_npParseChunk (cfg : Cfg) (r : Nat) {info : RadixInfo} (hi : Ibig.radixInfo cfg.W r = .ok info)
    (hd : 1 ≤ info.digitsPerWord) (l : List Nat) :
    Takes (npParseChunk cfg r l) (3 * l.length + groupsOf l.length info.digitsPerWord *
      (6 + groupsOf l.length info.digitsPerWord) + 6) (OkP fun _ => True) := by
  unfold npParseChunk radixInfo
  rw [hi]
  refine Takes.bind (takes_word1 _) (by omega) fun x M1 hM1 _ => ?_
  refine Takes.bind (n := 1) (P := fun i => i = info) (Takes.pass (Post.ok rfl)) (by omega) fun y M2 hM2 hy => ?_
  subst hy
  refine Takes.bind (takes_word1 _) (by omega) fun z M3 hM3 _ => ?_
  obtain ⟨h1, h2⟩ := rchunks_flatten hd l
  dsimp only
  refine Takes.bind (takes_allocate _ _) (by omega) fun b M4 hM4 hb => ?_
  generalize hN : groupsOf l.length y.digitsPerWord = N at *
  have hL := takes_npChunkLoop cfg.W r y.rangePerWord (rchunks y.digitsPerWord l.length l).reverse b
  rw [h1, List.length_reverse, hb, List.length_nil] at hL
  have e : N * (6 + N) = N * (4 + N) + 2 * N := by ring
  have e2 : (rchunks y.digitsPerWord l.length l).length * (4 + 0 + (rchunks y.digitsPerWord l.length l).length) ≤
    N * (4 + N) := Nat.mul_le_mul h2 (by omega)
  refine Takes.tryP (hL.mono (m := 3 * l.length + N * (4 + N)) (by omega) (fun _ h => h)) (by omega)
    fun c M5 hM5 hc => ?_
  exact (Takes.okP (takes_ofBuffer cfg c)).mono (by omega) (fun _ h => h)

end Ibig.Timed
