import Verif.Model.Expr
import Verif.Spec.History
/-!
# What an expression means in the unlimited integers

`meaning` evaluates an expression with ordinary integers of unlimited size; `none` means that it has no
meaning: a division by zero, a negative natural number or the greatest common divisor of two zeros.
-/
namespace Ibig

/-- Binary operations on natural numbers. -/
def UBin.meaning (op : UBin) (a b : Nat) : Option Nat :=
  match op with
  | .add => some (a + b)
  | .sub => if b ≤ a then some (a - b) else none
  | .mul => some (a * b)
  | .div | .divEuclid => if b = 0 then none else some (a / b)
  | .rem | .remEuclid => if b = 0 then none else some (a % b)
  | .and => some (a &&& b)
  | .or => some (a ||| b)
  | .xor => some (a ^^^ b)
  | .andNot => some (a.ldiff b)
  | .gcd => if a = 0 ∧ b = 0 then none else some (a.gcd b)

/-- Binary operations on integers (`Int.land` etc. are the operations on infinite two's complement). -/
def IBin.meaning (op : IBin) (a b : Int) : Option Int :=
  match op with
  | .add => some (a + b)
  | .sub => some (a - b)
  | .mul => some (a * b)
  | .div => if b = 0 then none else some (a.tdiv b)
  | .rem => if b = 0 then none else some (a.tmod b)
  | .divEuclid => if b = 0 then none else some (a.ediv b)
  | .remEuclid => if b = 0 then none else some (a.emod b)
  | .and => some (a.land b)
  | .or => some (a.lor b)
  | .xor => some (a.xor b)
  | .andNot => some (a.ldiff b)
  | .gcd => if a = 0 ∧ b = 0 then none else some (a.gcd b)

/-- Unary operations on integers. -/
def IUn.meaning (op : IUn) (a : Int) : Int :=
  match op with
  | .neg => -a
  | .abs => |a|
  | .signum => a.sign
  | .not => -a - 1
  | .clone => a

/-- The meaning of an expression whose variables are natural numbers. -/
def UExpr.meaning (v : Nat → Nat) : UExpr → Option Nat
  | .var k => some (v k)
  | .lit _ x => some x
  | .bin op _ _ x y => (x.meaning v).bind fun a => (y.meaning v).bind fun b => op.meaning a b
  | .shl _ x n => (x.meaning v).map fun a => a * 2 ^ n
  | .shr _ x n => (x.meaning v).map fun a => a / 2 ^ n
  | .pow x n => (x.meaning v).map fun a => a ^ n

/-- The meaning of an expression with variables of both types; `>>` rounds down. -/
def IExpr.meaning (u : Nat → Nat) (v : Nat → Int) : IExpr → Option Int
  | .var k => some (v k)
  | .lit _ z => some z
  | .ofU x => (x.meaning u).map fun a : Nat => (a : Int)
  | .bin op _ _ x y => (x.meaning u v).bind fun a => (y.meaning u v).bind fun b => op.meaning a b
  | .un op _ x => (x.meaning u v).map op.meaning
  | .shl _ x n => (x.meaning u v).map fun a => a * 2 ^ n
  | .shr _ x n => (x.meaning u v).map fun a => a.ediv (2 ^ n)
  | .pow x n => (x.meaning u v).map fun a => a ^ n

/-- The expression and all its parts have a meaning of at most `N` bits. -/
def UExpr.Within (N : Nat) (v : Nat → Nat) (e : UExpr) : Prop :=
  (∃ n, e.meaning v = some n ∧ n < 2 ^ N) ∧
  match e with
  | .var _ | .lit _ _ => True
  | .bin _ _ _ x y => x.Within N v ∧ y.Within N v
  | .shl _ x _ | .shr _ x _ | .pow x _ => x.Within N v

/-- The same for integers: at most `N` bits besides the sign. -/
def IExpr.Within (N : Nat) (u : Nat → Nat) (v : Nat → Int) (e : IExpr) : Prop :=
  (∃ z, e.meaning u v = some z ∧ z.natAbs < 2 ^ N) ∧
  match e with
  | .var _ | .lit _ _ => True
  | .ofU x => x.Within N u
  | .bin _ _ _ x y => x.Within N u v ∧ y.Within N u v
  | .un _ _ x | .shl _ x _ | .shr _ x _ | .pow x _ => x.Within N u v

/-- Shift amounts and exponents are of type `usize`, constants are values of their primitive types. -/
def UExpr.OK (cfg : Cfg) : UExpr → Prop
  | .var _ => True
  | .lit bits x => (PTy.u bits).Valid ∧ x < 2 ^ bits
  | .bin _ _ _ x y => x.OK cfg ∧ y.OK cfg
  | .shl _ x n | .shr _ x n | .pow x n => x.OK cfg ∧ n < 2 ^ cfg.U

/-- The same for integer expressions. -/
def IExpr.OK (cfg : Cfg) : IExpr → Prop
  | .var _ => True
  | .lit bits z => (PTy.i bits).Valid ∧ (PTy.i bits).InRange z
  | .ofU x => x.OK cfg
  | .bin _ _ _ x y => x.OK cfg ∧ y.OK cfg
  | .un _ _ x => x.OK cfg
  | .shl _ x n | .shr _ x n | .pow x n => x.OK cfg ∧ n < 2 ^ cfg.U

/-- The expression with every operand passed by reference. -/
def UExpr.byRef : UExpr → UExpr
  | .var k => .var k
  | .lit bits x => .lit bits x
  | .bin op _ _ x y => .bin op .ref .ref x.byRef y.byRef
  | .shl _ x n => .shl .ref x.byRef n
  | .shr _ x n => .shr .ref x.byRef n
  | .pow x n => .pow x.byRef n

/-- The same for integer expressions. -/
def IExpr.byRef : IExpr → IExpr
  | .var k => .var k
  | .lit bits z => .lit bits z
  | .ofU x => .ofU x.byRef
  | .bin op _ _ x y => .bin op .ref .ref x.byRef y.byRef
  | .un op _ x => .un op .ref x.byRef
  | .shl _ x n => .shl .ref x.byRef n
  | .shr _ x n => .shr .ref x.byRef n
  | .pow x n => .pow x.byRef n

/-! Operator notation (every operand by reference). -/

instance : Add UExpr := ⟨.bin .add .ref .ref⟩
instance : Sub UExpr := ⟨.bin .sub .ref .ref⟩
instance : Mul UExpr := ⟨.bin .mul .ref .ref⟩
instance : Div UExpr := ⟨.bin .div .ref .ref⟩
instance : Mod UExpr := ⟨.bin .rem .ref .ref⟩
instance : AndOp UExpr := ⟨.bin .and .ref .ref⟩
instance : OrOp UExpr := ⟨.bin .or .ref .ref⟩
instance : XorOp UExpr := ⟨.bin .xor .ref .ref⟩
instance : HShiftLeft UExpr Nat UExpr := ⟨.shl .ref⟩
instance : HShiftRight UExpr Nat UExpr := ⟨.shr .ref⟩
instance : HPow UExpr Nat UExpr := ⟨.pow⟩

instance : Add IExpr := ⟨.bin .add .ref .ref⟩
instance : Sub IExpr := ⟨.bin .sub .ref .ref⟩
instance : Mul IExpr := ⟨.bin .mul .ref .ref⟩
instance : Div IExpr := ⟨.bin .div .ref .ref⟩
instance : Mod IExpr := ⟨.bin .rem .ref .ref⟩
instance : AndOp IExpr := ⟨.bin .and .ref .ref⟩
instance : OrOp IExpr := ⟨.bin .or .ref .ref⟩
instance : XorOp IExpr := ⟨.bin .xor .ref .ref⟩
instance : Neg IExpr := ⟨.un .neg .ref⟩
instance : Complement IExpr := ⟨.un .not .ref⟩
instance : HShiftLeft IExpr Nat IExpr := ⟨.shl .ref⟩
instance : HShiftRight IExpr Nat IExpr := ⟨.shr .ref⟩
instance : HPow IExpr Nat IExpr := ⟨.pow⟩

/-- Wherever both expressions, each with any choice of passing operands by value or by reference, evaluate
without a panic, the crate's `==`, `cmp` and `Hash` do not tell the results apart. -/
def UAgree (cfg : Cfg) (env : Nat → UBig) (e e' : UExpr) : Prop :=
  ∀ x x' : UExpr, x.byRef = e.byRef → x'.byRef = e'.byRef → x.OK cfg → x'.OK cfg →
  ∀ c c', x.run cfg env = .ok c → x'.run cfg env = .ok c' →
    c.beq c' = true ∧ c.cmp c' = .ok .eq ∧ c.hashTokens = c'.hashTokens

/-- The same for integer expressions. -/
def IAgree (cfg : Cfg) (uenv : Nat → UBig) (env : Nat → IBig) (e e' : IExpr) : Prop :=
  ∀ x x' : IExpr, x.byRef = e.byRef → x'.byRef = e'.byRef → x.OK cfg → x'.OK cfg →
  ∀ c c', x.run cfg uenv env = .ok c → x'.run cfg uenv env = .ok c' →
    c.beq c' = true ∧ c.cmp c' = .ok .eq ∧ c.hashTokens = c'.hashTokens

end Ibig
