import Verif.Spec.Number
import Verif.Spec.Radix
/-!
# Texts too long to be looked at (specification)

Parsing prepares for a number of the length of the text before it has looked at all the characters.  A text
that is too long for this preparation makes it panic even if it is no numeral.
-/
namespace Ibig

/-- A text of `n` characters (without leading zeros) is too long to be examined completely:
 * in radix `2 ^ b`, if the `n * b` bits of a numeral of that length cannot be counted in a `usize`, or not
   be stored in the longest possible buffer, of `MAX_LEN + 4` words;
 * in any other radix, of which `d` digits fit into one word, if one of the powers
   `radix ^ (256 * d)`, `radix ^ (256 * d * 2)`, `radix ^ (256 * d * 4)`, … with an exponent below `n` is
   beyond the size limit. -/
def Overlong (cfg : Cfg) (radix n : Nat) : Prop :=
  (∃ b, radix = 2 ^ b ∧ (2 ^ cfg.U ≤ n * b ∨ (cfg.maxLen + 4) * cfg.W < n * b)) ∨
  ((∀ b, radix ≠ 2 ^ b) ∧ ∃ d k, radix ^ d < 2 ^ cfg.W ∧ 2 ^ cfg.W ≤ radix ^ (d + 1) ∧ 256 * d * 2 ^ k < n ∧
    ¬Fits cfg (radix ^ (256 * d * 2 ^ k)))

end Ibig
