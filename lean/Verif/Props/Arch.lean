import Verif.Model.Arch
import Verif.Model.Buffer
import Verif.Proofs.Add
import Verif.Spec.Examples
/-! C52: whichever architecture is chosen, the architecture-specific code adds and subtracts with carry. -/
namespace Ibig

/-- Addition with carry: result and carry-out are the sum of the words and the carry-in, and they are words. -/
theorem C52_add (arch : Arch) {a b : Nat} (carry : Bool) (ha : a < 2 ^ arch.W) (hb : b < 2 ^ arch.W) :
    (arch.addWithCarry a b carry).1 < 2 ^ arch.W ∧
    (arch.addWithCarry a b carry).1 + (if (arch.addWithCarry a b carry).2 then 2 ^ arch.W else 0) =
      a + b + if carry then 1 else 0 := by
  have gen := addWithCarry_spec (W := arch.W) carry ha hb
  unfold base at gen
  have x86 : (addWithCarryX86 arch.W a b carry).1 < 2 ^ arch.W ∧
      (addWithCarryX86 arch.W a b carry).1 + (if (addWithCarryX86 arch.W a b carry).2 then 2 ^ arch.W else 0) =
        a + b + if carry then 1 else 0 := by
    unfold addWithCarryX86 addcarryU
    generalize 2 ^ arch.W = N at *
    have h1 : (if carry.toNat > 0 then 1 else 0) = if carry then 1 else 0 := by cases carry <;> rfl
    simp only [h1]
    have h2 : (if carry then 1 else 0) ≤ 1 := by cases carry <;> decide
    generalize (if carry then 1 else 0) = c at *
    have hN : 0 < N := by omega
    have hdm := Nat.div_add_mod (a + b + c) N
    have hlt := Nat.mod_lt (a + b + c) hN
    have hq : (a + b + c) / N < 2 := Nat.div_lt_of_lt_mul (by omega)
    refine ⟨hlt, ?_⟩
    rw [Nat.mod_eq_of_lt hq]
    generalize (a + b + c) / N = q at *
    generalize (a + b + c) % N = r at *
    rcases (by omega : q = 0 ∨ q = 1) with rfl | rfl <;> simp at hdm ⊢ <;> omega
  have gen' : (Ibig.addWithCarry arch.W a b carry).1 < 2 ^ arch.W ∧
      (Ibig.addWithCarry arch.W a b carry).1 + (if (Ibig.addWithCarry arch.W a b carry).2 then 2 ^ arch.W else 0) =
        a + b + if carry then 1 else 0 := by
    refine ⟨gen.1, ?_⟩
    have := gen.2
    cases h1 : (Ibig.addWithCarry arch.W a b carry).2 <;> cases carry <;> simp [h1] at this ⊢ <;> omega
  cases arch <;> assumption

/-- The largest words, with a carry. -/
example (arch : Arch) := C52_add arch (a := 2 ^ arch.W - 1) (b := 2 ^ arch.W - 1) true
  (Nat.sub_lt (Nat.two_pow_pos _) one_pos) (Nat.sub_lt (Nat.two_pow_pos _) one_pos)

/-- Subtraction with borrow. -/
theorem C52_sub (arch : Arch) {a b : Nat} (borrow : Bool) (ha : a < 2 ^ arch.W) (hb : b < 2 ^ arch.W) :
    (arch.subWithBorrow a b borrow).1 < 2 ^ arch.W ∧
    (arch.subWithBorrow a b borrow).1 + b + (if borrow then 1 else 0) =
      a + if (arch.subWithBorrow a b borrow).2 then 2 ^ arch.W else 0 := by
  have gen := subWithBorrow_spec (W := arch.W) borrow ha hb
  unfold base at gen
  have x86 : (subWithBorrowX86 arch.W a b borrow).1 < 2 ^ arch.W ∧
      (subWithBorrowX86 arch.W a b borrow).1 + b + (if borrow then 1 else 0) =
        a + if (subWithBorrowX86 arch.W a b borrow).2 then 2 ^ arch.W else 0 := by
    unfold subWithBorrowX86 subborrowU
    have h0 : 2 ^ (arch.W + 1) = 2 * 2 ^ arch.W := by rw [pow_succ]; ring
    rw [h0]
    have hN8 : 8 ≤ 2 ^ arch.W := by cases arch <;> simp [Arch.W]
    generalize 2 ^ arch.W = N at *
    have h1 : (if borrow.toNat > 0 then 1 else 0) = if borrow then 1 else 0 := by cases borrow <;> rfl
    simp only [h1]
    have h2 : (if borrow then 1 else 0) ≤ 1 := by cases borrow <;> decide
    generalize (if borrow then 1 else 0) = c at *
    by_cases hle : b + c ≤ a
    · have e : (a + 2 * N - (b + c)) % (2 * N) = a - (b + c) := by
        rw [show a + 2 * N - (b + c) = (a - (b + c)) + 2 * N by omega, Nat.add_mod_right,
          Nat.mod_eq_of_lt (by omega)]
      rw [e, Nat.div_eq_of_lt (by omega), Nat.mod_eq_of_lt (a := a - (b + c)) (by omega)]
      simp
      omega
    · have e : (a + 2 * N - (b + c)) % (2 * N) = N + (a + N - (b + c)) := by
        rw [Nat.mod_eq_of_lt (by omega)]; omega
      rw [e, Nat.add_div_left _ (by omega), Nat.add_mod_left]
      rw [Nat.div_eq_of_lt (by omega), Nat.mod_eq_of_lt (a := a + N - (b + c)) (by omega)]
      simp
      omega
  have gen' : (Ibig.subWithBorrow arch.W a b borrow).1 < 2 ^ arch.W ∧
      (Ibig.subWithBorrow arch.W a b borrow).1 + b + (if borrow then 1 else 0) =
        a + if (Ibig.subWithBorrow arch.W a b borrow).2 then 2 ^ arch.W else 0 := by
    refine ⟨gen.1, ?_⟩
    have := gen.2
    cases h1 : (Ibig.subWithBorrow arch.W a b borrow).2 <;> cases borrow <;> simp [h1] at this ⊢ <;> omega
  cases arch <;> assumption

/-- The largest word subtracted from zero, with a borrow. -/
example (arch : Arch) := C52_sub arch (a := 0) (b := 2 ^ arch.W - 1) true
  (Nat.two_pow_pos _) (Nat.sub_lt (Nat.two_pow_pos _) one_pos)

/-- So the code specific to x86 and x86-64 is the generic code that all other theorems are about. -/
theorem C52_generic (arch : Arch) {a b : Nat} (carry : Bool) (ha : a < 2 ^ arch.W) (hb : b < 2 ^ arch.W) :
    arch.addWithCarry a b carry = addWithCarry arch.W a b carry ∧
    arch.subWithBorrow a b carry = subWithBorrow arch.W a b carry := by
  have hN : 0 < 2 ^ arch.W := Nat.two_pow_pos _
  constructor
  · obtain ⟨h1, h2⟩ := C52_add arch carry ha hb
    obtain ⟨k1, k2⟩ := addWithCarry_spec (W := arch.W) carry ha hb
    unfold base at k1 k2
    generalize arch.addWithCarry a b carry = p at *
    generalize addWithCarry arch.W a b carry = q at *
    obtain ⟨p1, p2⟩ := p
    obtain ⟨q1, q2⟩ := q
    cases p2 <;> cases q2 <;> cases carry <;> simp at h1 h2 k1 k2 ⊢ <;> omega
  · obtain ⟨h1, h2⟩ := C52_sub arch carry ha hb
    obtain ⟨k1, k2⟩ := subWithBorrow_spec (W := arch.W) carry ha hb
    unfold base at k1 k2
    generalize arch.subWithBorrow a b carry = p at *
    generalize subWithBorrow arch.W a b carry = q at *
    obtain ⟨p1, p2⟩ := p
    obtain ⟨q1, q2⟩ := q
    cases p2 <;> cases q2 <;> cases carry <;> simp at h1 h2 k1 k2 ⊢ <;> omega

/-- The largest words, with a carry. -/
example (arch : Arch) := C52_generic arch (a := 2 ^ arch.W - 1) (b := 2 ^ arch.W - 1) true
  (Nat.sub_lt (Nat.two_pow_pos _) one_pos) (Nat.sub_lt (Nat.two_pow_pos _) one_pos)

/-- Whatever is forced or targeted, the result is one of the builds that the other theorems are about, for every
size of `usize`; a forced word size is respected. -/
theorem C52_choice (forceBits : Option Nat) (target : TargetArch) (pointerWidth : Nat) :
    (∀ U ∈ usizeSizes, ∃ p ∈ buildSizes, p.1 = (chooseArch forceBits target pointerWidth).W ∧ p.2.1 = U) ∧
    (∀ f, f = 16 ∨ f = 32 ∨ f = 64 → forceBits = some f →
      (chooseArch forceBits target pointerWidth).W = f) := by
  constructor
  · have all : ∀ arch : Arch, ∀ U ∈ usizeSizes, ∃ p ∈ buildSizes, p.1 = arch.W ∧ p.2.1 = U := by
      intro arch; cases arch <;> decide +kernel
    exact all _
  · intro f hf h
    subst h
    unfold chooseArch
    rcases hf with rfl | rfl | rfl <;> rfl

example : Arch.x86_64.addWithCarry (2 ^ 64 - 1) (2 ^ 64 - 1) true = (2 ^ 64 - 1, true) := by decide +kernel
example : Arch.x86.subWithBorrow 0 (2 ^ 32 - 1) true = (0, true) := by decide +kernel
example : chooseArch none .arm 32 = .generic32 ∧ chooseArch (some 64) .x86 32 = .generic64 := by decide

end Ibig
