import Verif.Spec.Number
/-!
# How much scratch memory arithmetic in a ring needs (specification)
-/
namespace Ibig

/-- The number of words of `n`. -/
def wordCount (W n : Nat) : Nat := (bitLen n + W - 1) / W

/-- Scratch memory, in words, for one multiplication modulo a number of `l` words: the double-length product, and what
the multiplication algorithm needs (nothing for the simple one, `2 * l` and a little for Karatsuba's, `4 * l` and a
little for Toom-3; `bitLen (l - 1)` is the logarithm of `l`, rounded up). -/
def ringScratch (l : Nat) : Nat :=
  2 * l + if l ≤ 24 then 0 else if l ≤ 192 then 2 * l + 2 * bitLen (l - 1) else 4 * l + 13 * bitLen (l - 1)

/-- The number of multiplications besides squarings, on average at most, for an exponent of `bits` bits that is cut
into windows of `w` bits: the table of the odd powers, and one for every window. -/
def windowCost (bits w : Nat) : Nat := 2 ^ (w - 1) - 1 + bits / (w + 1)

/-- `w` is the length of the windows into which an exponent of `bits` bits is cut: the first one for which the next
length is not cheaper (or not below the numbers of bits of a word and of a `usize`). -/
def IsWindow (cfg : Cfg) (bits w : Nat) : Prop :=
  1 ≤ w ∧ w < min cfg.W cfg.U ∧ (∀ v, 1 ≤ v → v < w → windowCost bits (v + 1) < windowCost bits v) ∧
    (w + 1 < min cfg.W cfg.U → windowCost bits w ≤ windowCost bits (w + 1))

/-- So many words are more than `isize::MAX` bytes. -/
def BeyondMemory (cfg : Cfg) (words : Nat) : Prop := 2 ^ (cfg.U - 1) - 1 < words * (cfg.W / 8)

end Ibig
