import Mathlib.Data.Int.Bitwise
import Mathlib.Data.Int.GCD
import Mathlib.Data.Nat.Log
import Mathlib.Data.Nat.Size
import Mathlib.Data.Nat.Digits.Defs
import Mathlib.NumberTheory.Padics.PadicVal.Defs
import Verif.Model.History
import Verif.Spec.Parse
import Verif.Spec.Fmt
import Verif.Spec.Float
/-!
# What a program should compute (specification)

The same programs, over the mathematical natural numbers and integers.  The only parameter is the number `N`
of bits a number may have.
-/
namespace Ibig

/-- A natural number result: too large beyond `N` bits. -/
def lim (N n : Nat) : R Nat := if n < 2 ^ N then .ok n else .error .tooLarge

/-- An integer result: too large if the magnitude is beyond `N` bits. -/
def limI (N : Nat) (z : Int) : R Int := if z.natAbs < 2 ^ N then .ok z else .error .tooLarge

/-- An integer result to be stored in a `UBig`: too large beyond `N` bits, and otherwise it must not be
negative. -/
def limS (N : Nat) (z : Int) : R Nat :=
  if 2 ^ N ≤ z.natAbs then .error .tooLarge else if z < 0 then .error .negativeUBig else .ok z.toNat

/-- A quotient or remainder: division by zero panics. -/
def unlessZero {α β : Type} [Zero α] [DecidableEq α] (b : α) (q : β) : R β :=
  if b = 0 then .error .divideByZero else .ok q

/-- Binary operations on natural numbers. -/
def UBin.math (N : Nat) (op : UBin) (a b : Nat) : R Nat :=
  match op with
  | .add => lim N (a + b)
  | .sub => if b ≤ a then .ok (a - b) else .error .negativeUBig
  | .mul => lim N (a * b)
  | .div => unlessZero b (a / b)
  | .rem => unlessZero b (a % b)
  | .divEuclid => unlessZero b (a / b)
  | .remEuclid => unlessZero b (a % b)
  | .and => .ok (a &&& b)
  | .or => .ok (a ||| b)
  | .xor => .ok (a ^^^ b)
  | .andNot => .ok (a.ldiff b)
  | .gcd => if a = 0 ∧ b = 0 then .error .gcdZero else .ok (a.gcd b)

/-- Binary operations on integers (`Int.land` etc. are the operations on infinite two's complement). -/
def IBin.math (N : Nat) (op : IBin) (a b : Int) : R Int :=
  match op with
  | .add => limI N (a + b)
  | .sub => limI N (a - b)
  | .mul => limI N (a * b)
  | .div => unlessZero b (a.tdiv b)
  | .rem => unlessZero b (a.tmod b)
  | .divEuclid => unlessZero b (a.ediv b)
  | .remEuclid => unlessZero b (a.emod b)
  | .and => limI N (a.land b)
  | .or => limI N (a.lor b)
  | .xor => limI N (a.xor b)
  | .andNot => limI N (a.ldiff b)
  | .gcd => if a = 0 ∧ b = 0 then .error .gcdZero else .ok (a.gcd b)

/-- Quotient and remainder of natural numbers. -/
def DRem.mathU (_ : DRem) (a b : Nat) : R (Nat × Nat) := unlessZero b (a / b, a % b)

/-- Quotient and remainder of integers. -/
def DRem.mathI (k : DRem) (a b : Int) : R (Int × Int) :=
  match k with
  | .trunc => unlessZero b (a.tdiv b, a.tmod b)
  | .euclid => unlessZero b (a.ediv b, a.emod b)

/-- Unary operations on integers. -/
def IUn.math (N : Nat) (op : IUn) (a : Int) : R Int :=
  match op with
  | .neg => .ok (-a)
  | .abs => .ok |a|
  | .signum => .ok a.sign
  | .not => limI N (-a - 1)
  | .clone => .ok a

/-- Operations with an unsigned primitive integer. -/
def UPrim.math (N : Nat) (op : UPrim) (a x : Nat) : R Nat :=
  match op with
  | .add => lim N (a + x)
  | .sub => if x ≤ a then .ok (a - x) else .error .negativeUBig
  | .mul => lim N (a * x)
  | .div => unlessZero x (a / x)
  | .rem => unlessZero x (a % x)
  | .and => .ok (a &&& x)
  | .or => .ok (a ||| x)
  | .xor => .ok (a ^^^ x)
  | .andNot => .ok (a.ldiff x)

/-- Operations of a natural number with a signed primitive integer: the integer operation, whose result must
not be negative. -/
def SPrim.math (N : Nat) (op : SPrim) (a : Nat) (z : Int) : R Nat :=
  match op with
  | .add => limS N (a + z)
  | .sub => limS N (a - z)
  | .mul => limS N (a * z)
  | .div => if z = 0 then .error .divideByZero else limS N ((a : Int).tdiv z)
  | .rem => if z = 0 then .error .divideByZero else limS N ((a : Int).tmod z)
  | .divEuclid => if z = 0 then .error .divideByZero else limS N ((a : Int).ediv z)
  | .and => limS N ((a : Int).land z)
  | .or => limS N ((a : Int).lor z)
  | .xor => limS N ((a : Int).xor z)
  | .andNot => limS N ((a : Int).ldiff z)

/-- Quotient, which must not be negative, and remainder by a signed primitive integer. -/
def DRem.mathS (k : DRem) (a z : Int) : R (Nat × Int) :=
  let (q, r) := match k with
    | .trunc => (a.tdiv z, a.tmod z)
    | .euclid => (a.ediv z, a.emod z)
  if z = 0 then .error .divideByZero else if q < 0 then .error .negativeUBig else .ok (q.toNat, r)

/-- Operations with a primitive integer. -/
def IPrim.math (N : Nat) (op : IPrim) (a z : Int) : R Int :=
  match op with
  | .add => limI N (a + z)
  | .sub => limI N (a - z)
  | .subFrom => limI N (z - a)
  | .mul => limI N (a * z)
  | .div => unlessZero z (a.tdiv z)
  | .rem => unlessZero z (a.tmod z)
  | .divEuclid => unlessZero z (a.ediv z)
  | .and => limI N (a.land z)
  | .or => limI N (a.lor z)
  | .xor => limI N (a.xor z)
  | .andNot => limI N (a.ldiff z)

/-- The numeral of `n`, as text. -/
def numeralText (radix : Nat) (upper : Bool) (n : Nat) : List Nat :=
  (if n = 0 then [0] else (Nat.digits radix n).reverse).map
    fun d => (if upper then upperDigits else lowerDigits).getD d 0

/-- The digit with this character. -/
def readDigit (radix c : Nat) : Option Nat :=
  (List.range radix).find? fun d => lowerDigits[d]? == some c || upperDigits[d]? == some c

/-- The numeral with this text. -/
def readDigits (radix : Nat) : List Nat → Option (List Nat)
  | [] => some []
  | c :: s =>
    match readDigit radix c, readDigits radix s with
    | some d, some ds => some (d :: ds)
    | _, _ => none

/-- The number with this text (without sign), with the given sign. -/
def readNumber {α : Type} (N radix : Nat) (text : List Nat) (f : Nat → α) : R (PRes α) :=
  if radix < 2 ∨ 36 < radix then .error .radixOutOfRange
  else if text = [] then .ok (.error .noDigits)
  else match readDigits radix text with
    | none => .ok (.error .invalidDigit)
    | some ds => if digitsValue radix ds < 2 ^ N then .ok (.ok (f (digitsValue radix ds))) else .error .tooLarge

/-- A number made of sign, prefix and digits, padded as the flags ask for. -/
def padText (f : FmtFlags) (sign pre digits : List Nat) : List Nat :=
  match f.width with
  | none => sign ++ pre ++ digits
  | some w =>
    let body := sign ++ pre ++ digits
    let n := w - body.length
    if f.zero then sign ++ pre ++ List.replicate n '0'.toNat ++ digits
    else
      let l := match f.align with
        | some .left => 0
        | some .center => n / 2
        | some .right | none => n
      List.replicate l f.fill ++ body ++ List.replicate (n - l) f.fill

/-- The text of an integer. -/
def numberText (radix : Nat) (upper : Bool) (pre : List Nat) (f : FmtFlags) (z : Int) : List Nat :=
  padText f (signText (decide (z < 0)) f.plus) pre (numeralText radix upper z.natAbs)

/-- The text of an integer in a radix: uppercase with the `#` flag. -/
def radixText (radix : Nat) (f : FmtFlags) (z : Int) : R Obs :=
  if radix < 2 ∨ 36 < radix then .error .radixOutOfRange else .ok (.list (numberText radix f.alternate [] f z))

/-- The text that `format!` prints of an integer: a prefix with the `#` flag. -/
def traitText (t : FmtTrait) (f : FmtFlags) (z : Int) : List Nat :=
  numberText (traitRadix t) (decide (t = .upperHex))
    (if f.alternate then (traitPrefix t).toList.map Char.toNat else []) f z

/-- The number of trailing zero bits. -/
noncomputable def trailing (n : Nat) : Option Nat := if n = 0 then none else some (padicValNat 2 n)

open Classical in
/-- The value, if it is one of the primitive type. -/
noncomputable def inPrim (t : PTy) (z : Int) : Option Int := if t.InRange z then some z else none

/-- The bits of the nearest float (`C19_unique`: there is only one). -/
noncomputable def FloatFmt.round (f : FloatFmt) (n : Nat) : Nat := Classical.epsilon (f.Nearest n)

/-- The bits of the nearest float of an integer. -/
noncomputable def FloatFmt.roundI (f : FloatFmt) (z : Int) : Nat :=
  if z < 0 then f.signBit + f.round z.natAbs else f.round z.natAbs

/-- Observations. -/
noncomputable def Look.math (s : Store Nat Int) : Look → R Obs
  | .ucmp a b => .ok (.ord (compare (s.u a) (s.u b)))
  | .icmp a b => .ok (.ord (compare (s.i a) (s.i b)))
  | .ueq a b => .ok (.bool (decide (s.u a = s.u b)))
  | .ieq a b => .ok (.bool (decide (s.i a = s.i b)))
  | .ubit a n => .ok (.bool ((s.u a).testBit n))
  | .ubitLen a => .ok (.nat (s.u a).size)
  | .utrailingZeros a => .ok (.optNat (trailing (s.u a)))
  | .uisPowerOfTwo a => .ok (.bool (decide (s.u a = 2 ^ Nat.log 2 (s.u a))))
  | .ubytes a => .ok (.list (Nat.digits 256 (s.u a)))
  | .ubytesBe a => .ok (.list (Nat.digits 256 (s.u a)).reverse)
  | .itrailingZeros a => .ok (.optNat (trailing (s.i a).natAbs))
  | .uisZero a => .ok (.bool (decide (s.u a = 0)))
  | .iisZero a => .ok (.bool (decide (s.i a = 0)))
  | .iisPositive a => .ok (.bool (decide (0 < s.i a)))
  | .iisNegative a => .ok (.bool (decide (s.i a < 0)))
  | .utoPrim t a => .ok (.optInt (inPrim t (s.u a)))
  | .itoPrim t a => .ok (.optInt (inPrim t (s.i a)))
  | .uremU _ a _ x => unlessZero x (.nat (s.u a % x))
  | .uremS _ a _ z => unlessZero z (.int ((s.u a : Int).tmod z))
  | .uandU _ a _ x => .ok (.nat (s.u a &&& x))
  | .iremS _ a _ z => unlessZero z (.int ((s.i a).tmod z))
  | .iremEuclid _ a _ z => unlessZero z (.int ((s.i a).emod z))
  | .iandU _ a _ x => .ok (.nat ((s.i a).land x).toNat)
  | .uF32 a => .ok (.nat (f32.round (s.u a)))
  | .uF64 a => .ok (.nat (f64.round (s.u a)))
  | .iF32 a => .ok (.nat (f32.roundI (s.i a)))
  | .iF64 a => .ok (.nat (f64.roundI (s.i a)))
  | .utext radix f a => radixText radix f (s.u a)
  | .itext radix f a => radixText radix f (s.i a)
  | .ufmt t f a => .ok (.list (traitText t f (s.u a)))
  | .ifmt t f a => .ok (.list (traitText t f (s.i a)))

/-- One instruction over the mathematical numbers. -/
noncomputable def Instr.math (N : Nat) (s : Store Nat Int) : Instr → R (Store Nat Int × List Obs)
  | .ubin op _ _ d a b => s.putU d (op.math N (s.u a) (s.u b))
  | .ibin op _ _ d a b => s.putI d (op.math N (s.i a) (s.i b))
  | .udivrem k _ _ d e a b => s.putUU d e (k.mathU (s.u a) (s.u b))
  | .idivrem k _ _ d e a b => s.putII d e (k.mathI (s.i a) (s.i b))
  | .iun op _ d a => s.putI d (op.math N (s.i a))
  | .ushl _ d a n => s.putU d (lim N (s.u a * 2 ^ n))
  | .ushr _ d a n => s.putU d (.ok (s.u a / 2 ^ n))
  | .ishl _ d a n => s.putI d (limI N (s.i a * 2 ^ n))
  | .ishr _ d a n => s.putI d (.ok ((s.i a).ediv (2 ^ n)))
  | .upow d a n => s.putU d (lim N (s.u a ^ n))
  | .ipow d a n => s.putI d (limI N (s.i a ^ n))
  | .setBit d n => s.putU d (lim N (s.u d ||| 2 ^ n))
  | .clearBit d n => s.putU d (.ok ((s.u d).ldiff (2 ^ n)))
  | .nextPow2 _ d a => s.putU d (lim N (2 ^ Nat.clog 2 (s.u a)))
  | .uclone d a => s.putU d (.ok (s.u a))
  | .ucloneFrom d a => s.putU d (.ok (s.u a))
  | .ufromUnsigned d _ x => s.putU d (.ok x)
  | .ifromUnsigned d _ x => s.putI d (.ok x)
  | .ifromSigned d _ z => s.putI d (.ok z)
  | .uprim op _ d a _ x => s.putU d (op.math N (s.u a) x)
  | .sprim op _ d a _ z => s.putU d (op.math N (s.u a) z)
  | .iprim op _ d a _ z => s.putI d (op.math N (s.i a) z)
  | .udivremU _ d a _ x => s.putUZ d (unlessZero x (s.u a / x, ((s.u a % x : Nat) : Int)))
  | .udivremS k _ d a _ z => s.putUZ d (k.mathS (s.u a) z)
  | .idivremU _ d e a _ x => s.putII d e (DRem.trunc.mathI (s.i a) x)
  | .idivremS _ d a _ z => s.putIZ d (DRem.trunc.mathI (s.i a) z)
  | .idivremE _ d a _ z => s.putIZ d (DRem.euclid.mathI (s.i a) z)
  | .utryFromPrim d _ z => s.putOptU d (.ok (if z < 0 then none else some z.toNat))
  | .ofUBig d a => s.putI d (.ok (s.u a))
  | .unsignedAbs _ d a => s.putU d (.ok (s.i a).natAbs)
  | .tryFromIBig _ d a => s.putOptU d (.ok (if s.i a < 0 then none else some (s.i a).toNat))
  | .fromLeBytes d l => s.putU d (lim N (Nat.ofDigits 256 l))
  | .fromBeBytes d l => s.putU d (lim N (Nat.ofDigits 256 l.reverse))
  | .uparse radix d text => s.putParsedU d (readNumber N radix (splitPlus text) id)
  | .iparse radix d text =>
    s.putParsedI d (readNumber N radix (splitSign text).2 (signed (splitSign text).1))
  | .uparsePrefix d text =>
    let (radix, digits) := splitRadix (splitPlus text)
    s.putParsedU d (readNumber N radix digits id)
  | .iparsePrefix d text =>
    let (radix, digits) := splitRadix (splitSign text).2
    s.putParsedI d (readNumber N radix digits (signed (splitSign text).1))
  | .look l => s.see (l.math s)

/-- A program over the mathematical numbers. -/
noncomputable def mathProgram (N : Nat) : List Instr → Store Nat Int → R (Store Nat Int × List Obs)
  | [], s => .ok (s, [])
  | c :: p, s => do
    let (s, o) ← c.math N s
    let (s, os) ← mathProgram N p s
    return (s, o ++ os)

/-- The text is a numeral, or short enough for any numeral of its length to fit. (On a longer text with a bad
character the crate may report "number too large" before it has seen the bad character.) -/
def ShortOrNumeral (cfg : Cfg) (radix : Nat) (text : List Nat) : Prop :=
  (∃ ds, IsNumeral radix text ds) ∨ Fits cfg (radix ^ text.length)

/-- The primitive arguments of an observation are values of their types. -/
def Look.OK : Look → Prop
  | .utoPrim t _ | .itoPrim t _ => t.Valid
  | .uremU _ _ bits x | .uandU _ _ bits x | .iandU _ _ bits x => (PTy.u bits).Valid ∧ x < 2 ^ bits
  | .uremS _ _ bits z | .iremS _ _ bits z => (PTy.i bits).Valid ∧ (PTy.i bits).InRange z
  | .iremEuclid _ _ t z => t.Valid ∧ t.InRange z
  | _ => True

/-- The primitive arguments are values of their types in this build: shift amounts, exponents and bit positions are of
type `usize`, byte strings and texts fit into memory.  Excluded are also: `clear_bit` of a position beyond
the first word (`C15_clear_bit_violated`), a byte string longer than the longest number, and a text that has a
bad character and is too long (`C20`). -/
def Instr.OK (cfg : Cfg) : Instr → Prop
  | .ushl _ _ _ n | .ushr _ _ _ n | .ishl _ _ _ n | .ishr _ _ _ n | .upow _ _ n | .ipow _ _ n
  | .setBit _ n => n < 2 ^ cfg.U
  | .clearBit _ n => n < cfg.W
  | .ufromUnsigned _ bits x | .ifromUnsigned _ bits x | .uprim _ _ _ _ bits x | .udivremU _ _ _ bits x
  | .idivremU _ _ _ _ bits x => (PTy.u bits).Valid ∧ x < 2 ^ bits
  | .ifromSigned _ bits z | .sprim _ _ _ _ bits z | .udivremS _ _ _ _ bits z | .idivremS _ _ _ bits z =>
    (PTy.i bits).Valid ∧ (PTy.i bits).InRange z
  | .iprim _ _ _ _ t z | .idivremE _ _ _ t z | .utryFromPrim _ t z => t.Valid ∧ t.InRange z
  | .fromLeBytes _ l | .fromBeBytes _ l => (∀ x ∈ l, x < 256) ∧ l.length ≤ cfg.maxLen * (cfg.W / 8)
  | .uparse radix _ text => text.length < 2 ^ (cfg.U - 1) ∧ ShortOrNumeral cfg radix (splitPlus text)
  | .iparse radix _ text => text.length < 2 ^ (cfg.U - 1) ∧ ShortOrNumeral cfg radix (splitSign text).2
  | .uparsePrefix _ text => text.length < 2 ^ (cfg.U - 1) ∧
    ShortOrNumeral cfg (splitRadix (splitPlus text)).1 (splitRadix (splitPlus text)).2
  | .iparsePrefix _ text => text.length < 2 ^ (cfg.U - 1) ∧
    ShortOrNumeral cfg (splitRadix (splitSign text).2).1 (splitRadix (splitSign text).2).2
  | .look l => l.OK
  | _ => True

/-- Every variable holds a value that its type can hold: no leading zero words, no large representation of a
single word, no negative zero, and capacity within the bound (see `UBig.WF`). -/
def Store.WF (cfg : Cfg) (s : Store UBig IBig) : Prop := (∀ k, (s.u k).WF cfg) ∧ ∀ k, (s.i k).WF cfg

/-- The numbers that the variables stand for. -/
def Store.values (cfg : Cfg) (s : Store UBig IBig) : Store Nat Int :=
  ⟨fun k => (s.u k).value cfg, fun k => (s.i k).value cfg⟩

/-- The panics documented for the operations of programs. -/
def Documented (p : Panic) : Prop :=
  p = .negativeUBig ∨ p = .divideByZero ∨ p = .gcdZero ∨ p = .radixOutOfRange ∨ p = .tooLarge

end Ibig
