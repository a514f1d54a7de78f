/-!
What a sequence of `set_bit` and `clear_bit` does to one bit.
-/
namespace Ibig

/-- Bit `i` after the operations, each of which gives the bit at one position a value; `b`: bit `i` before. -/
def bitAfter (i : Nat) (b : Bool) : List (Bool × Nat) → Bool
  | [] => b
  | (v, n) :: ps => bitAfter i (if n = i then v else b) ps

end Ibig
