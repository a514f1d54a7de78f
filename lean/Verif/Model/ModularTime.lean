import Verif.Model.GcdTime
import Verif.Model.EuclidTime
import Verif.Model.Modular
/-!
Modular arithmetic with the number of its steps: the text of Model/Modular.lean with counting functions.
-/
namespace Ibig.Timed

/-- /repo/src/modular/modulo.rs:123-127, 163-167 `check_same_ring` compares two addresses. -/
def checkSameRing (a b : Nat) : Timed Unit := pass 1 (Ibig.checkSameRing a b)

/-! ### Rings -/

/-- /repo/src/modular/modulo_ring.rs:78-88 `ModuloRingSmall::new` -/
def RingSmall.new (W n : Nat) : Timed RingSmall := pass 3 (Ibig.RingSmall.new W n)

/-- /repo/src/modular/modulo_ring.rs:108-116 `ModuloRingLarge::new`; `to_vec` copies the words -/
def RingLarge.new (W : Nat) (n : List Nat) : Timed RingLarge := do
  let n ← pass (n.length + 1) (.ok n)
  let (ws, shift, fd) ← normalizeLarge W n
  pure ⟨ws, shift, fd⟩

/-- /repo/src/modular/modulo_ring.rs:61-67 `ModuloRing::new` -/
def Ring.new (cfg : Cfg) (addr : Nat) : UBig → Timed Ring
  | .small 0 => throwT .divideByZero
  | .small word => do
    let r ← RingSmall.new cfg.W word
    pure ⟨addr, .small r⟩
  | .large b => do
    let r ← RingLarge.new cfg.W b.words
    pure ⟨addr, .large r⟩

/-- /repo/src/modular/modulo_ring.rs:130-134 `ModuloRingLarge::is_valid` -/
def RingLarge.isValid (W : Nat) (ring : RingLarge) (v : List Nat) : Timed Bool :=
  if v.length = ring.modulus.length then do
    let o ← cmpSameLen v ring.modulus
    if o = .lt then do
      let w ← getR v 0
      let m ← ones W ring.shift
      pure (decide (w &&& m = 0))
    else pure false
  else pure false

/-- /repo/src/modular/modulo.rs:99-102 `ModuloSmall::new` (also 116-119 `set_raw`) -/
def ModSmall.new (W addr : Nat) (ring : RingSmall) (raw : Nat) : Timed ModSmall :=
  pass 1 (Ibig.ModSmall.new W addr ring raw)

/-- /repo/src/modular/modulo.rs:135-141 `ModuloLarge::new` (also the end of 154-160
`modify_normalized_value`) -/
def ModLarge.new (W addr : Nat) (ring : RingLarge) (words : List Nat) : Timed ModLarge := do
  let v ← RingLarge.isValid W ring words
  assertR (v = true)
  pure ⟨addr, ring, words⟩

/-! ### Conversions -/

/-- /repo/src/modular/convert.rs:58-60 `ModuloRingSmall::modulus` -/
def RingSmall.getModulus (W : Nat) (r : RingSmall) : Timed Nat := pass 1 (Ibig.RingSmall.getModulus W r)

/-- The body shared by /repo/src/modular/convert.rs:64-71 and 128-135 -/
def unshift (cfg : Cfg) (words : List Nat) (shift : Nat) : Timed UBig := do
  let b ← Buffer.allocate cfg words.length
  let b ← Buffer.extend b words
  let (ws, low) ← shrInPlace cfg.W b.words shift
  assertR (low = 0)
  UBig.ofBuffer cfg { b with words := ws }

/-- /repo/src/modular/convert.rs:64-71 `ModuloRingLarge::modulus` -/
def RingLarge.getModulus (cfg : Cfg) (r : RingLarge) : Timed UBig := unshift cfg r.modulus r.shift

/-- /repo/src/modular/convert.rs:32-37 `ModuloRing::modulus` -/
def Ring.modulus (cfg : Cfg) (r : Ring) : Timed UBig :=
  match r.repr with
  | .small s => do
    let w ← RingSmall.getModulus cfg.W s
    pure (.small w)
  | .large l => RingLarge.getModulus cfg l

/-- /repo/src/modular/convert.rs:96-99 `ModuloSmallRaw::residue` -/
def RingSmall.residue (W : Nat) (r : RingSmall) (raw : Nat) : Timed Nat := pass 2 (Ibig.RingSmall.residue W r raw)

/-- /repo/src/modular/convert.rs:128-135 `ModuloLarge::residue` -/
def ModLarge.residue (cfg : Cfg) (x : ModLarge) : Timed UBig := unshift cfg x.words x.ring.shift

/-- /repo/src/modular/convert.rs:86-91 `Modulo::residue` -/
def Modulo.residue (cfg : Cfg) : Modulo → Timed UBig
  | .small x => do
    let w ← RingSmall.residue cfg.W x.ring x.raw
    pure (.small w)
  | .large x => ModLarge.residue cfg x

/-- /repo/src/modular/convert.rs:102-109 `ModuloSmallRaw::from_word` -/
def RingSmall.fromWord (W : Nat) (r : RingSmall) (word : Nat) : Timed Nat := pass 2 (Ibig.RingSmall.fromWord W r word)

/-- /repo/src/modular/convert.rs:111-117 `ModuloSmallRaw::from_large` -/
def RingSmall.fromLarge (W : Nat) (r : RingSmall) (words : List Nat) : Timed Nat := do
  let rem ← fastRemByNormalizedWord W words r.fd
  if r.shift ≠ 0 then do
    let (_, rem) ← FastDivideNormalized.divRem W r.fd (rem * 2 ^ r.shift)
    pure rem
  else pure rem

/-- /repo/src/modular/convert.rs:191-194 -/
def RingSmall.fromUBigRaw (cfg : Cfg) (r : RingSmall) : UBig → Timed Nat
  | .small word => RingSmall.fromWord cfg.W r word
  | .large b => RingSmall.fromLarge cfg.W r b.words

/-- /repo/src/modular/convert.rs:190-196 `ModuloSmall::from_ubig` -/
def ModSmall.fromUBig (cfg : Cfg) (addr : Nat) (r : RingSmall) (x : UBig) : Timed ModSmall := do
  let raw ← RingSmall.fromUBigRaw cfg r x
  ModSmall.new cfg.W addr r raw

/-- /repo/src/modular/convert.rs:204-224: the words of the remainder before padding; they are copied -/
def RingLarge.reduce (cfg : Cfg) (r : RingLarge) : UBig → Timed (List Nat)
  | .small word => pure [word]
  | .large b =>
    if b.len < r.modulus.length then pass (b.len + 1) (.ok b.words)
    else do
      let req ← divMemoryRequirement b.len r.modulus.length
      let mem ← allocMemory cfg req
      let (ws, _) ← divRemInPlace cfg.W b.words r.modulus r.fd mem
      pass (r.modulus.length + 1) (Ibig.sliceR ws 0 r.modulus.length)

/-- /repo/src/modular/convert.rs:200-227 `ModuloLarge::from_ubig` -/
def ModLarge.fromUBig (cfg : Cfg) (addr : Nat) (r : RingLarge) (x : UBig) : Timed ModLarge := do
  let x ← UBig.shl cfg .val x r.shift
  let v ← RingLarge.reduce cfg r x
  let k ← ckSub r.modulus.length v.length
  let v ← pass (k + 1) (.ok (v ++ List.replicate k 0))
  ModLarge.new cfg.W addr r v

/-- `x` or `x.clone()`, by ownership of the operand -/
def UBig.own (cfg : Cfg) (o : Own) (x : UBig) : Timed UBig :=
  match o with
  | .val => pure x
  | .ref => UBig.clone cfg x

/-- /repo/src/modular/convert.rs:143-163 `IntoModulo for UBig`, `IntoModulo for &UBig` -/
def Ring.fromUBig (cfg : Cfg) (ring : Ring) (o : Own) (x : UBig) : Timed Modulo :=
  match ring.repr with
  | .small r => do
    let m ← ModSmall.fromUBig cfg ring.addr r x
    pure (.small m)
  | .large r => do
    let x ← UBig.own cfg o x
    let m ← ModLarge.fromUBig cfg ring.addr r x
    pure (.large m)

/-! ### Negation, addition, subtraction -/

/-- /repo/src/modular/add.rs:167-174 `ModuloSmallRaw::negate` -/
def RingSmall.negate (W : Nat) (r : RingSmall) (x : Nat) : Timed Nat := pass 2 (Ibig.RingSmall.negate W r x)
/-- /repo/src/modular/add.rs:178-188 `ModuloSmallRaw::add` -/
def RingSmall.add (W : Nat) (r : RingSmall) (x y : Nat) : Timed Nat := pass 2 (Ibig.RingSmall.add W r x y)
/-- /repo/src/modular/add.rs:192-202 `ModuloSmallRaw::sub` -/
def RingSmall.sub (W : Nat) (r : RingSmall) (x y : Nat) : Timed Nat := pass 2 (Ibig.RingSmall.sub W r x y)

/-- the closure of /repo/src/modular/add.rs:238-243 (`ModuloLarge::negate_in_place`) -/
def RingLarge.negate (W : Nat) (r : RingLarge) (words : List Nat) : Timed (List Nat) := do
  let z ← pass (words.length + 1) (.ok (words.all (fun w => w == 0)))
  if z then pure words
  else do
    let (ws, overflow) ← subSameLenSwap W r.modulus words
    assertR (overflow = false)
    pure ws

/-- /repo/src/modular/add.rs:253-255 -/
def RingLarge.addFix (W : Nat) (r : RingLarge) (words : List Nat) (overflow : Bool) : Timed (List Nat) := do
  let (ws, overflow2) ← subSameLen W words r.modulus
  assertR (overflow = overflow2)
  pure ws

/-- the closure of /repo/src/modular/add.rs:250-257 (`ModuloLarge::add_in_place`) -/
def RingLarge.add (W : Nat) (r : RingLarge) (words rhs : List Nat) : Timed (List Nat) := do
  let (ws, overflow) ← addSameLen W words rhs
  if overflow = true then RingLarge.addFix W r ws overflow
  else do
    let o ← cmpSameLen ws r.modulus
    if o = .lt then pure ws else RingLarge.addFix W r ws overflow

/-- /repo/src/modular/add.rs:267-270, 281-284 -/
def RingLarge.subFix (W : Nat) (r : RingLarge) (words : List Nat) (overflow : Bool) : Timed (List Nat) :=
  if overflow = true then do
    let (ws, overflow2) ← addSameLen W words r.modulus
    assertR (overflow2 = true)
    pure ws
  else pure words

/-- the closure of /repo/src/modular/add.rs:264-271 (`ModuloLarge::sub_in_place`) -/
def RingLarge.sub (W : Nat) (r : RingLarge) (words rhs : List Nat) : Timed (List Nat) := do
  let (ws, overflow) ← subSameLen W words rhs
  RingLarge.subFix W r ws overflow

/-- the closure of /repo/src/modular/add.rs:278-285 (`ModuloLarge::sub_in_place_swap`) -/
def RingLarge.subSwap (W : Nat) (r : RingLarge) (words rhs : List Nat) : Timed (List Nat) := do
  let (ws, overflow) ← subSameLenSwap W words rhs
  RingLarge.subFix W r ws overflow

/-- /repo/src/modular/modulo.rs:171-174, 182-189, 203-208 `Clone::clone` for `Modulo` copies the words. -/
def Modulo.clone : Modulo → Timed Modulo
  | .small x => pure (.small x)
  | .large x => pass (x.words.length + 1) (.ok (.large x))

/-- `x` or `x.clone()`, by ownership of the operand -/
def Modulo.own (o : Own) (x : Modulo) : Timed Modulo :=
  match o with
  | .val => pure x
  | .ref => Modulo.clone x

/-- /repo/src/modular/add.rs:15-35 `Neg for Modulo`, `Neg for &Modulo` (which makes a copy) -/
def Modulo.neg (W : Nat) (x : Modulo) : Timed Modulo := do
  let x ← Modulo.clone x
  match x with
  | .small x => do
    let v ← RingSmall.negate W x.ring x.raw
    let m ← ModSmall.new W x.addr x.ring v
    pure (.small m)
  | .large x => do
    let v ← RingLarge.negate W x.ring x.words
    let m ← ModLarge.new W x.addr x.ring v
    pure (.large m)

/-- /repo/src/modular/add.rs:75-92 `AddAssign<&Modulo> for Modulo` -/
def Modulo.addAssign (W : Nat) : Modulo → Modulo → Timed Modulo
  | .small x, .small y => do
    checkSameRing x.addr y.addr
    let v ← RingSmall.add W x.ring x.raw y.raw
    let m ← ModSmall.new W x.addr x.ring v
    pure (.small m)
  | .large x, .large y => do
    checkSameRing x.addr y.addr
    let v ← RingLarge.add W x.ring x.words y.words
    let m ← ModLarge.new W x.addr x.ring v
    pure (.large m)
  | _, _ => throwT .differentRings

/-- The four `Add` impls, /repo/src/modular/add.rs:37-73 -/
def Modulo.add (W : Nat) (o1 o2 : Own) (x y : Modulo) : Timed Modulo :=
  match o1, o2 with
  | .ref, .val => Modulo.addAssign W y x
  | _, _ => do
    let x ← Modulo.own o1 x
    Modulo.addAssign W x y

/-- /repo/src/modular/add.rs:149-161 `SubAssign<&Modulo> for Modulo` -/
def Modulo.subAssign (W : Nat) : Modulo → Modulo → Timed Modulo
  | .small x, .small y => do
    checkSameRing x.addr y.addr
    let v ← RingSmall.sub W x.ring x.raw y.raw
    let m ← ModSmall.new W x.addr x.ring v
    pure (.small m)
  | .large x, .large y => do
    checkSameRing x.addr y.addr
    let v ← RingLarge.sub W x.ring x.words y.words
    let m ← ModLarge.new W x.addr x.ring v
    pure (.large m)
  | _, _ => throwT .differentRings

/-- /repo/src/modular/add.rs:115-131 `Sub<Modulo> for &Modulo` -/
def Modulo.subSwap (W : Nat) : Modulo → Modulo → Timed Modulo
  | .small x, .small y => do
    checkSameRing x.addr y.addr
    let v ← RingSmall.sub W x.ring x.raw y.raw
    let m ← ModSmall.new W y.addr y.ring v
    pure (.small m)
  | .large x, .large y => do
    checkSameRing x.addr y.addr
    let v ← RingLarge.subSwap W y.ring x.words y.words
    let m ← ModLarge.new W y.addr y.ring v
    pure (.large m)
  | _, _ => throwT .differentRings

/-- The four `Sub` impls, /repo/src/modular/add.rs:94-140 -/
def Modulo.sub (W : Nat) (o1 o2 : Own) (x y : Modulo) : Timed Modulo :=
  match o1, o2 with
  | .ref, .val => Modulo.subSwap W x y
  | _, _ => do
    let x ← Modulo.own o1 x
    Modulo.subAssign W x y

/-- sign of /repo/src/modular/convert.rs:170-173, 181-184 -/
def Modulo.applySign (W : Nat) (s : Sign) (m : Modulo) : Timed Modulo :=
  match s with
  | .pos => pure m
  | .neg => Modulo.neg W m

/-- /repo/src/modular/convert.rs:165-186 `IntoModulo for IBig`, `IntoModulo for &IBig` -/
def Ring.fromIBig (cfg : Cfg) (ring : Ring) (o : Own) (x : IBig) : Timed Modulo := do
  let m ← Ring.fromUBig cfg ring o x.mag
  Modulo.applySign cfg.W x.sign m

/-! ### Multiplication -/

/-- /repo/src/modular/mul.rs:83-90 `ModuloSmallRaw::mul` -/
def RingSmall.mul (W : Nat) (r : RingSmall) (a b : Nat) : Timed Nat := pass 3 (Ibig.RingSmall.mul W r a b)

/-- /repo/src/modular/mul.rs:103-112 `mul_memory_requirement`, in words -/
def RingLarge.mulMemory (cfg : Cfg) (r : RingLarge) : Timed Nat := pass 3 (Ibig.RingLarge.mulMemory cfg r)

/-- /repo/src/modular/mul.rs:115-132 `mul_normalized` -/
def RingLarge.mulNormalized (W : Nat) (r : RingLarge) (a b : List Nat) (mem : Nat) : Timed (List Nat) := do
  let n := r.modulus.length
  assertR (a.length = n ∧ b.length = n)
  let (product, mem) ← allocFill mem (2 * n) 0
  let (product, overflow) ← mulSameLen W (bitLen n + 1) product .pos a b mem
  assertR (overflow = 0)
  let (product, _) ← shrInPlace W product r.shift
  let (product, _) ← divRemInPlace W product r.modulus r.fd mem
  sliceR product 0 n

/-- /repo/src/modular/mul.rs:149-157 `mul_normalized_in_place` (also 137-139 `mul_in_place` and
142-146 `square_in_place`), which copy the result -/
def ModLarge.mulBy (W : Nat) (x : ModLarge) (v : List Nat) (mem : Nat) : Timed ModLarge := do
  let w ← RingLarge.mulNormalized W x.ring x.words v mem
  let w ← pass (w.length + 1) (.ok w)
  ModLarge.new W x.addr x.ring w

/-- /repo/src/modular/mul.rs:61-79 `MulAssign<&Modulo> for Modulo` -/
def Modulo.mulAssign (cfg : Cfg) : Modulo → Modulo → Timed Modulo
  | .small x, .small y => do
    checkSameRing x.addr y.addr
    let v ← RingSmall.mul cfg.W x.ring x.raw y.raw
    let m ← ModSmall.new cfg.W x.addr x.ring v
    pure (.small m)
  | .large x, .large y => do
    checkSameRing x.addr y.addr
    let req ← RingLarge.mulMemory cfg x.ring
    let mem ← allocMemory cfg req
    let m ← ModLarge.mulBy cfg.W x y.words mem
    pure (.large m)
  | _, _ => throwT .differentRings

/-- The four `Mul` impls, /repo/src/modular/mul.rs:17-52 -/
def Modulo.mul (cfg : Cfg) (o1 o2 : Own) (x y : Modulo) : Timed Modulo :=
  match o1, o2 with
  | .ref, .val => Modulo.mulAssign cfg y x
  | _, _ => do
    let x ← Modulo.own o1 x
    Modulo.mulAssign cfg x y

/-! ### Inverse and division -/

/-- /repo/src/convert.rs:615-620 `IBig::try_to_unsigned` -/
def IBig.tryToUnsigned (cfg : Cfg) (bits : Nat) (x : IBig) : Timed (Option Nat) :=
  pass 32 (Ibig.IBig.tryToUnsigned cfg bits x)
/-- /repo/src/convert.rs:479-501 `TryFrom<IBig> for UBig`, `TryFrom<&IBig> for UBig`, which copies the words -/
def UBig.tryFromIBig (cfg : Cfg) (o : Own) (x : IBig) : Timed (Option UBig) :=
  pass (x.mag.len + 1) (Ibig.UBig.tryFromIBig cfg o x)

/-- /repo/src/modular/div.rs:95-99 -/
def ModSmall.inverseOf (cfg : Cfg) (addr : Nat) (r : RingSmall) (b : Nat) (x : IBig) : Timed ModSmall := do
  let m ← IBig.fromUnsigned cfg cfg.W b
  let e ← IBig.remEuclid cfg .val .val x m
  let o ← IBig.tryToUnsigned cfg cfg.W e
  let res ← unwrapR o
  let raw ← RingSmall.fromWord cfg.W r res
  ModSmall.new cfg.W addr r raw

/-- /repo/src/modular/div.rs:88-103 `ModuloSmall::inverse` -/
def ModSmall.inverse (cfg : Cfg) (x : ModSmall) : Timed (Option ModSmall) := do
  let a ← RingSmall.residue cfg.W x.ring x.raw
  let b ← RingSmall.getModulus cfg.W x.ring
  let ua ← UBig.fromUnsigned cfg cfg.W a
  let ub ← UBig.fromUnsigned cfg cfg.W b
  let g ← UBig.extendedGcd cfg ua ub
  if g.1.beq (.small 1) then do
    let m ← ModSmall.inverseOf cfg x.addr x.ring b g.2.1
    pure (some m)
  else pure none

/-- /repo/src/modular/div.rs:113-116 -/
def ModLarge.inverseOf (cfg : Cfg) (addr : Nat) (r : RingLarge) (b : UBig) (x : IBig) : Timed ModLarge := do
  let e ← IBig.remEuclid cfg .val .val x (IBig.ofUBig b)
  let o ← UBig.tryFromIBig cfg .val e
  let res ← unwrapR o
  ModLarge.fromUBig cfg addr r res

/-- /repo/src/modular/div.rs:108-119 `ModuloLarge::inverse` -/
def ModLarge.inverse (cfg : Cfg) (x : ModLarge) : Timed (Option ModLarge) := do
  let a ← ModLarge.residue cfg x
  let b ← RingLarge.getModulus cfg x.ring
  let g ← UBig.extendedGcd cfg a b
  if g.1.beq (.small 1) then do
    let m ← ModLarge.inverseOf cfg x.addr x.ring b g.2.1
    pure (some m)
  else pure none

/-- /repo/src/modular/div.rs:23-28 `Modulo::inverse` -/
def Modulo.inverse (cfg : Cfg) : Modulo → Timed (Option Modulo)
  | .small x => do
    let i ← ModSmall.inverse cfg x
    pure (i.map .small)
  | .large x => do
    let i ← ModLarge.inverse cfg x
    pure (i.map .large)

/-- The four `Div` impls, /repo/src/modular/div.rs:31-70; also 72-84 `DivAssign`. -/
def Modulo.div (cfg : Cfg) (x y : Modulo) : Timed Modulo := do
  let i ← Modulo.inverse cfg y
  match i with
  | none => throwT .notInvertible
  | some inv => Modulo.mul cfg .ref .val x inv

/-! ### Exponentiation -/

/-- loop of /repo/src/modular/pow.rs:85-91 `pow_helper` -/
def RingSmall.powHelper (W : Nat) (r : RingSmall) (b exp : Nat) : Nat → Nat → Timed Nat
  | 0, res => pure res
  | bits + 1, res => do
    tick
    let res ← RingSmall.mul W r res res
    let m ← shlW W 1 bits
    if exp &&& m ≠ 0 then do
      let res ← RingSmall.mul W r res b
      RingSmall.powHelper W r b exp bits res
    else RingSmall.powHelper W r b exp bits res

/-- /repo/src/modular/pow.rs:66-73 `pow_word` -/
def RingSmall.powWord (W : Nat) (r : RingSmall) (x exp : Nat) : Timed Nat :=
  if exp = 0 then RingSmall.fromWord W r 1
  else do
    let bits ← ckSub (W - 1) (leadingZeros W exp)
    RingSmall.powHelper W r x exp bits x

/-- loop of /repo/src/modular/pow.rs:120-123 -/
def RingSmall.powLoop (W : Nat) (r : RingSmall) (x : Nat) : List Nat → Nat → Timed Nat
  | [], v => pure v
  | e :: es, v => do
    tick
    let v ← RingSmall.powHelper W r x e W v
    RingSmall.powLoop W r x es v

/-- /repo/src/modular/pow.rs:114-125 `ModuloSmall::pow_nontrivial` -/
def ModSmall.powNontrivial (cfg : Cfg) (x : ModSmall) (exp : UBig) : Timed ModSmall := do
  let lt ← UBig.lt exp (.small 3)
  assertR (lt = false)
  let ws := exp.asWords
  let n ← ckSub ws.length 1
  let top ← getR ws n
  let v ← RingSmall.powWord cfg.W x.ring x.raw top
  let v ← RingSmall.powLoop cfg.W x.ring x.raw (ws.take n).reverse v
  ModSmall.new cfg.W x.addr x.ring v

/-- /repo/src/modular/pow.rs:99-112 `ModuloSmall::pow` -/
def ModSmall.pow (cfg : Cfg) (x : ModSmall) (exp : UBig) : Timed ModSmall :=
  match exp with
  | .small 0 => ModSmall.fromUBig cfg x.addr x.ring (.small 1)
  | .small 1 => pure x
  | .small 2 => do
    let v ← RingSmall.mul cfg.W x.ring x.raw x.raw
    ModSmall.new cfg.W x.addr x.ring v
  | _ => ModSmall.powNontrivial cfg x exp

/-- /repo/src/modular/pow.rs:233: the closure `cost` of `choose_pow_window_len` -/
def powCost (cfg : Cfg) (n windowSize : Nat) : Timed Nat := pass 4 (Ibig.powCost cfg n windowSize)

/-- loop of /repo/src/modular/pow.rs:236-243 -/
def powWindowLoop (cfg : Cfg) (n : Nat) : Nat → Nat → Nat → Timed Nat
  | 0, _, _ => throwT .fuel
  | fuel + 1, windowSize, c =>
    if windowSize + 1 < min cfg.W cfg.U then do
      tick
      let c2 ← powCost cfg n (windowSize + 1)
      if c ≤ c2 then pure windowSize else powWindowLoop cfg n fuel (windowSize + 1) c2
    else pure windowSize

/-- /repo/src/modular/pow.rs:230-245 `choose_pow_window_len` -/
def choosePowWindowLen (cfg : Cfg) (n : Nat) : Timed Nat := do
  let c ← powCost cfg n 1
  powWindowLoop cfg n (min cfg.W cfg.U) 1 c

/-- /repo/src/modular/pow.rs:164-169: where the `i`-th entry is written, and the previous power -/
def powPrev (cfg : Cfg) (n i : Nat) (base table : List Nat) : Timed (List Nat × Nat) :=
  pass 5 (Ibig.powPrev cfg n i base table)

/-- loop of /repo/src/modular/pow.rs:163-175: the table of odd powers of `base`, each of which is copied -/
def powTableLoop (cfg : Cfg) (r : RingLarge) (base sq : List Nat) (mem : Nat) : Nat → Nat → List Nat →
    Timed (List Nat)
  | 0, _, table => pure table
  | k + 1, i, table => do
    tick
    let (prev, start) ← powPrev cfg r.modulus.length i base table
    let p ← RingLarge.mulNormalized cfg.W r prev sq mem
    let (table, _) ← onSlice table start (start + r.modulus.length) (fun s => do
      assertR (s.length = p.length)
      pass p.length (.ok (p, ())))
    powTableLoop cfg r base sq mem k (i + 1) table

/-- `k` times `square_in_place` (/repo/src/modular/pow.rs:203-205) -/
def ModLarge.squares (W mem : Nat) : Nat → ModLarge → Timed ModLarge
  | 0, v => pure v
  | k + 1, v => do
    tick
    let v ← ModLarge.mulBy W v v.words mem
    ModLarge.squares W mem k v

/-- /repo/src/modular/pow.rs:184-194: the word after the current one (0 below the lowest) -/
def powNextWord (ws : List Nat) (wordIdx : Nat) : Timed Nat := pass 1 (Ibig.powNextWord ws wordIdx)

/-- /repo/src/modular/pow.rs:195-202: the odd window starting at bit `bitIdx` of `cur`, and its number of bits -/
def powWindow (W windowLen next cur bitIdx : Nat) : Timed (Nat × Nat) :=
  pass 6 (Ibig.powWindow W windowLen next cur bitIdx)

/-- /repo/src/modular/pow.rs:210-215: the table entry -/
def powEntry (cfg : Cfg) (n : Nat) (base table : List Nat) (idx : Nat) : Timed (List Nat) :=
  pass 4 (Ibig.powEntry cfg n base table idx)

/-- /repo/src/modular/pow.rs:188-217: process the bit at position `bit`; result: value and new
position -/
def powStep (cfg : Cfg) (x : ModLarge) (table : List Nat) (windowLen mem : Nat) (ws : List Nat)
    (bit : Nat) (v : ModLarge) : Timed (ModLarge × Nat) := do
  let wordIdx := bit / cfg.W
  let bitIdx := bit % cfg.W
  let cur ← getR ws wordIdx
  let m ← shlW cfg.W 1 bitIdx
  if cur &&& m ≠ 0 then do
    let next ← powNextWord ws wordIdx
    let (window, numBits) ← powWindow cfg.W windowLen next cur bitIdx
    let k ← ckSub numBits 1
    let v ← ModLarge.squares cfg.W mem k v
    let bit ← ckSub bit k
    assertR (window &&& 1 = 1)
    let entry ← powEntry cfg x.ring.modulus.length x.words table (window / 2)
    let v ← ModLarge.mulBy cfg.W v entry mem
    pure (v, bit)
  else pure (v, bit)

/-- loop of /repo/src/modular/pow.rs:182-223 -/
def powLargeLoop (cfg : Cfg) (x : ModLarge) (table : List Nat) (windowLen mem : Nat)
    (ws : List Nat) : Nat → Nat → ModLarge → Timed ModLarge
  | 0, _, _ => throwT .fuel
  | fuel + 1, bit, v => do
    tick
    let (v, bit) ← powStep cfg x table windowLen mem ws bit v
    if bit = 0 then pure v
    else do
      let v ← ModLarge.mulBy cfg.W v v.words mem
      powLargeLoop cfg x table windowLen mem ws fuel (bit - 1) v

/-- /repo/src/modular/pow.rs:146-156: the scratch memory for the exponentiation; the table is filled -/
def powMemory (cfg : Cfg) (r : RingLarge) (windowLen : Nat) : Timed (Nat × List Nat × Nat) := do
  let s ← ckSub windowLen 1
  let p ← shlW cfg.U 1 s
  let entries ← ckSub p 1
  let tableWords := entries * r.modulus.length
  if tableWords < 2 ^ cfg.U then do
    let req ← RingLarge.mulMemory cfg r
    let mem ← allocMemory cfg (tableWords + req)
    let (table, mem) ← allocFill mem tableWords 0
    pure (entries, table, mem)
  else throwT .outOfMemory

/-- /repo/src/bits.rs:178-185 `bit_len` looks at the length and the top word -/
def UBig.bitLen (cfg : Cfg) (x : UBig) : Timed Nat := pass 4 (Ibig.UBig.bitLen cfg x)

/-- /repo/src/modular/pow.rs:139-225 `ModuloLarge::pow_nontrivial`; `val` begins as a copy -/
def ModLarge.powNontrivial (cfg : Cfg) (x : ModLarge) (exp : UBig) : Timed ModLarge := do
  let lt ← UBig.lt exp (.small 2)
  assertR (lt = false)
  let bitLen ← UBig.bitLen cfg exp
  let windowLen ← choosePowWindowLen cfg bitLen
  let (entries, table, mem) ← powMemory cfg x.ring windowLen
  let v ← pass (x.words.length + 1) (.ok x)
  let v ← ModLarge.mulBy cfg.W v x.words mem
  let table ← powTableLoop cfg x.ring x.words v.words mem entries 1 table
  let bit ← ckSub bitLen 2
  powLargeLoop cfg x table windowLen mem exp.asWords (bit + 1) bit v

/-- /repo/src/modular/pow.rs:129-137 `ModuloLarge::pow` -/
def ModLarge.pow (cfg : Cfg) (x : ModLarge) (exp : UBig) : Timed ModLarge :=
  match exp with
  | .small 0 => ModLarge.fromUBig cfg x.addr x.ring (.small 1)
  | .small 1 => pass (x.words.length + 1) (.ok x)
  | _ => ModLarge.powNontrivial cfg x exp

/-- /repo/src/modular/pow.rs:30-35 `Modulo::pow` -/
def Modulo.pow (cfg : Cfg) (x : Modulo) (exp : UBig) : Timed Modulo :=
  match x with
  | .small x => do
    let v ← ModSmall.pow cfg x exp
    pure (.small v)
  | .large x => do
    let v ← ModLarge.pow cfg x exp
    pure (.large v)

/-- /repo/src/modular/pow.rs:52-60 `Modulo::pow_signed` -/
def Modulo.powSigned (cfg : Cfg) (x : Modulo) (exp : IBig) : Timed Modulo :=
  match exp.sign with
  | .pos => Modulo.pow cfg x exp.mag
  | .neg => do
    let i ← Modulo.inverse cfg x
    match i with
    | none => throwT .notInvertible
    | some inv => Modulo.pow cfg inv exp.mag

end Ibig.Timed
