import Verif.Spec.Rand
/-!
# Specification: several random numbers in a row

A program draws numbers one after another.  It may choose the range of each number after seeing the numbers before.
-/
namespace Ibig

/-- Draw `k` numbers.  `next past t` draws one number, giving up (`none`) after `t` failed attempts, if the numbers drawn
before are `past`; `value` is the integer that a result stands for. -/
def successive {α : Type} (value : α → Int) (next : List Int → Nat → Draw (Option α)) (t : Nat) :
    Nat → List Int → Draw (Option (List α))
  | 0, _ => .ret (some [])
  | k + 1, past => do
    match ← next past t with
    | none => .ret none
    | some y =>
      match ← successive value next t k (past ++ [value y]) with
      | none => .ret none
      | some ys => .ret (some (y :: ys))

/-- `vs` can follow `past` if each number is in the range that belongs to the numbers before it. -/
def Possible (low high : List Int → Int) : List Int → List Int → Prop
  | _, [] => True
  | past, v :: vs => low past ≤ v ∧ v < high past ∧ Possible low high (past ++ [v]) vs

/-- The product of the probabilities of the single numbers: `1 / (high - low)` for each. -/
def chance (low high : List Int → Int) : List Int → List Int → ℚ
  | _, [] => 1
  | past, v :: vs => 1 / ((high past : ℚ) - low past) * chance low high (past ++ [v]) vs

/-- `rng.gen_range(low..high)`, or `rng.gen_range(low..=high)`, with at most `t` attempts -/
def genUBig (cfg : Cfg) (inclusive : Bool) (low high : UBig) (t : Nat) : Draw (Option UBig) := do
  let d ← Draw.ofR (if inclusive then UniformUBig.newInclusive cfg low high else UniformUBig.new cfg low high)
  d.sample cfg t

/-- the same for `IBig` -/
def genIBig (cfg : Cfg) (inclusive : Bool) (low high : IBig) (t : Nat) : Draw (Option IBig) := do
  let d ← Draw.ofR (if inclusive then UniformIBig.newInclusive cfg low high else UniformIBig.new cfg low high)
  d.sample cfg t

end Ibig
