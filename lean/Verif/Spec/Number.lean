import Verif.Model.UBig
/-!
# Specification: what a `UBig` / `IBig` means, and what "the result is exactly n" means

The property theorems are stated with these definitions.
-/
namespace Ibig

/-- The builds the theorems range over: word of 16, 32 or 64 bits, `usize` of 16, 32 or 64 bits, and a
limit `MAX_LEN` as described in /repo/src/ubig.rs:83-93.  `Proofs/Cfg.lean` proves that every real build
satisfies this. -/
structure Cfg.Valid (cfg : Cfg) : Prop where
  word : cfg.W = 16 ∨ cfg.W = 32 ∨ cfg.W = 64
  usize : cfg.U = 16 ∨ cfg.U = 32 ∨ cfg.U = 64
  even : cfg.maxLen % 2 = 0
  large : 512 ≤ cfg.maxLen
  bits : cfg.maxLen * cfg.W < 2 ^ cfg.U

/-- The number a `UBig` stands for. -/
def UBig.value (cfg : Cfg) : UBig → Nat
  | .small w => w
  | .large b => val cfg.W b.words

/-- The integer an `IBig` stands for. -/
def IBig.value (cfg : Cfg) (x : IBig) : Int := x.sign.toInt * (x.mag.value cfg : Int)

/-- A buffer that can occur inside a `UBig` (/repo/src/ubig.rs:17-23): at least two words, no leading
zero word, at most `MAX_LEN` words, and compact capacity (if vectors have the requested capacity). -/
structure Buffer.WF (cfg : Cfg) (b : Buffer) : Prop where
  words : IsWords cfg.W b.words
  two : 2 ≤ b.words.length
  top : b.words.getLast? ≠ some 0
  len : b.words.length ≤ cfg.maxLen
  fits : b.words.length ≤ b.cap
  compact : (∀ n, cfg.spare n = 0) → b.cap ≤ min (b.words.length + b.words.length / 4 + 4) (cfg.maxLen + 4)

/-- The values that the type `UBig` can hold. -/
def UBig.WF (cfg : Cfg) : UBig → Prop
  | .small w => w < 2 ^ cfg.W
  | .large b => b.WF cfg

/-- The values that the type `IBig` can hold (no negative zero). -/
structure IBig.WF (cfg : Cfg) (x : IBig) : Prop where
  mag : x.mag.WF cfg
  zero : x.mag.value cfg = 0 → x.sign = .pos

/-- `n` has at most `UBig::MAX_BIT_LEN` bits. -/
def Fits (cfg : Cfg) (n : Nat) : Prop := n < 2 ^ (cfg.maxLen * cfg.W)

/-- The computation `x` produces exactly the number `n`: it returns a `UBig` with that value if `n` is
within the documented size limit, and otherwise it panics with "number too large". -/
def Yields (cfg : Cfg) (x : R UBig) (n : Nat) : Prop :=
  (Fits cfg n → ∃ c, x = .ok c ∧ c.WF cfg ∧ c.value cfg = n) ∧ (¬Fits cfg n → x = .error .tooLarge)

/-- The computation `x` produces exactly the integer `z` (or panics if its magnitude is beyond the size
limit). -/
def IYields (cfg : Cfg) (x : R IBig) (z : Int) : Prop :=
  (Fits cfg z.natAbs → ∃ c, x = .ok c ∧ c.WF cfg ∧ c.value cfg = z) ∧
  (¬Fits cfg z.natAbs → x = .error .tooLarge)

/-- The computation `x` produces exactly the integer `z` as a `UBig`: as `Yields` if `z` is not negative;
otherwise it panics, with "negative UBig" (or with "number too large" if even the magnitude of `z` is
beyond the limit). -/
def SYields (cfg : Cfg) (x : R UBig) (z : Int) : Prop :=
  (0 ≤ z → Yields cfg x z.toNat) ∧
  (z < 0 → Fits cfg z.natAbs → x = .error .negativeUBig) ∧
  (z < 0 → ¬Fits cfg z.natAbs → x = .error .tooLarge)

end Ibig
