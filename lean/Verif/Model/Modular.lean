import Verif.Model.Gcd
import Verif.Model.Parse
/-!
Model of /repo/src/modular/{modulo_ring,modulo,convert,add,mul,div,pow,cmp}.rs.

A reference `&ModuloRing` is modelled by the contents of the ring together with its address (`addr`); the
crate's `ptr::eq` compares addresses.  `Vec`s have no capacity limit of their own.
`x op= y` is modelled by the result that is left in `x`.
-/
namespace Ibig

/-- /repo/src/modular/modulo_ring.rs:29-33 `ModuloRingSmall` -/
structure RingSmall where
  modulus : Nat
  shift : Nat
  fd : FastDivideNormalized
deriving DecidableEq, Repr

/-- /repo/src/modular/modulo_ring.rs:35-39 `ModuloRingLarge` -/
structure RingLarge where
  modulus : List Nat
  shift : Nat
  fd : FastDivideNormalized
deriving DecidableEq, Repr

/-- /repo/src/modular/modulo_ring.rs:24-27 `ModuloRingRepr` -/
inductive RingRepr where
  | small (r : RingSmall)
  | large (r : RingLarge)
deriving DecidableEq, Repr

/-- /repo/src/modular/modulo_ring.rs:22 `ModuloRing`, at an address -/
structure Ring where
  addr : Nat
  repr : RingRepr
deriving DecidableEq, Repr

/-- /repo/src/modular/modulo.rs:35-39 `ModuloSmall` (with 28-33 `ModuloSmallRaw`) -/
structure ModSmall where
  addr : Nat
  ring : RingSmall
  raw : Nat
deriving DecidableEq, Repr

/-- /repo/src/modular/modulo.rs:41-45 `ModuloLarge` -/
structure ModLarge where
  addr : Nat
  ring : RingLarge
  words : List Nat
deriving DecidableEq, Repr

/-- /repo/src/modular/modulo.rs:21-26 `Modulo`, `ModuloRepr` -/
inductive Modulo where
  | small (x : ModSmall)
  | large (x : ModLarge)
deriving DecidableEq, Repr

/-! ### Rings -/

/-- /repo/src/modular/modulo_ring.rs:78-88 `ModuloRingSmall::new` -/
def RingSmall.new (W n : Nat) : R RingSmall := do
  assertR (n ≠ 0)
  let shift := leadingZeros W n
  let m ← shlW W n shift
  let fd ← FastDivideNormalized.new W m
  .ok ⟨m, shift, fd⟩

/-- /repo/src/modular/modulo_ring.rs:108-116 `ModuloRingLarge::new` -/
def RingLarge.new (W : Nat) (n : List Nat) : R RingLarge := do
  let (ws, shift, fd) ← normalizeLarge W n
  .ok ⟨ws, shift, fd⟩

/-- The panic of `ModuloRing::new(0)` (/repo/src/modular/modulo_ring.rs:63) is represented by
`divideByZero`. -/
def Ring.new (cfg : Cfg) (addr : Nat) : UBig → R Ring
  | .small 0 => .error .divideByZero
  | .small word => do
    let r ← RingSmall.new cfg.W word
    .ok ⟨addr, .small r⟩
  | .large b => do
    let r ← RingLarge.new cfg.W b.words
    .ok ⟨addr, .large r⟩

/-- /repo/src/modular/modulo.rs:91-94 `ModuloSmallRaw::is_valid` -/
def RingSmall.isValid (W : Nat) (ring : RingSmall) (raw : Nat) : Bool :=
  decide (raw < ring.modulus) && decide (raw &&& onesWord W ring.shift = 0)

/-- /repo/src/modular/modulo_ring.rs:130-134 `ModuloRingLarge::is_valid` -/
def RingLarge.isValid (W : Nat) (ring : RingLarge) (v : List Nat) : R Bool :=
  if v.length = ring.modulus.length then do
    let o ← cmpSameLen v ring.modulus
    if o = .lt then do
      let w ← getR v 0
      let m ← ones W ring.shift
      .ok (decide (w &&& m = 0))
    else .ok false
  else .ok false

/-- /repo/src/modular/modulo.rs:99-102 `ModuloSmall::new` (also 116-119 `set_raw`) -/
def ModSmall.new (W addr : Nat) (ring : RingSmall) (raw : Nat) : R ModSmall := do
  assertR (ring.isValid W raw = true)
  .ok ⟨addr, ring, raw⟩

/-- /repo/src/modular/modulo.rs:135-141 `ModuloLarge::new` (also the end of 154-160
`modify_normalized_value`) -/
def ModLarge.new (W addr : Nat) (ring : RingLarge) (words : List Nat) : R ModLarge := do
  let v ← ring.isValid W words
  assertR (v = true)
  .ok ⟨addr, ring, words⟩

/-- /repo/src/modular/modulo.rs:123-127, 163-167 `check_same_ring`, with cmp.rs:20-35 -/
def checkSameRing (a b : Nat) : R Unit := if a = b then .ok () else .error .differentRings

/-! ### Conversions -/

/-- /repo/src/modular/convert.rs:58-60 `ModuloRingSmall::modulus` -/
def RingSmall.getModulus (W : Nat) (r : RingSmall) : R Nat := shrW W r.modulus r.shift

/-- The body shared by /repo/src/modular/convert.rs:64-71 and 128-135: copy `words` to a buffer and
shift right, asserting that no bits are lost. -/
def unshift (cfg : Cfg) (words : List Nat) (shift : Nat) : R UBig := do
  let b ← Buffer.allocate cfg words.length
  let b ← b.extend words
  let (ws, low) ← shrInPlace cfg.W b.words shift
  assertR (low = 0)
  UBig.ofBuffer cfg { b with words := ws }

/-- /repo/src/modular/convert.rs:64-71 `ModuloRingLarge::modulus` -/
def RingLarge.getModulus (cfg : Cfg) (r : RingLarge) : R UBig := unshift cfg r.modulus r.shift

/-- /repo/src/modular/convert.rs:32-37 `ModuloRing::modulus` -/
def Ring.modulus (cfg : Cfg) (r : Ring) : R UBig :=
  match r.repr with
  | .small s => do
    let w ← s.getModulus cfg.W
    .ok (.small w)
  | .large l => l.getModulus cfg

/-- /repo/src/modular/convert.rs:96-99 `ModuloSmallRaw::residue` -/
def RingSmall.residue (W : Nat) (r : RingSmall) (raw : Nat) : R Nat := do
  assertR (r.isValid W raw = true)
  shrW W raw r.shift

/-- /repo/src/modular/convert.rs:128-135 `ModuloLarge::residue` -/
def ModLarge.residue (cfg : Cfg) (x : ModLarge) : R UBig := unshift cfg x.words x.ring.shift

/-- /repo/src/modular/convert.rs:86-91 `Modulo::residue` -/
def Modulo.residue (cfg : Cfg) : Modulo → R UBig
  | .small x => do
    let w ← x.ring.residue cfg.W x.raw
    .ok (.small w)
  | .large x => x.residue cfg

/-- /repo/src/modular/convert.rs:102-109 `ModuloSmallRaw::from_word`.
Simplification: the shifted word is not reduced modulo the size of its type (no bits are lost, see `C66_shift_word`). -/
def RingSmall.fromWord (W : Nat) (r : RingSmall) (word : Nat) : R Nat :=
  if r.shift = 0 then .ok (r.fd.divRemWord word).2
  else do
    let (_, rem) ← r.fd.divRem W (word * 2 ^ r.shift)
    .ok rem

/-- /repo/src/modular/convert.rs:111-117 `ModuloSmallRaw::from_large`.
Simplification: the shifted word is not reduced modulo the size of its type (no bits are lost, see `C66_shift_word`). -/
def RingSmall.fromLarge (W : Nat) (r : RingSmall) (words : List Nat) : R Nat := do
  let rem ← fastRemByNormalizedWord W words r.fd
  if r.shift ≠ 0 then do
    let (_, rem) ← r.fd.divRem W (rem * 2 ^ r.shift)
    .ok rem
  else .ok rem

/-- /repo/src/modular/convert.rs:191-194 -/
def RingSmall.fromUBigRaw (cfg : Cfg) (r : RingSmall) : UBig → R Nat
  | .small word => r.fromWord cfg.W word
  | .large b => r.fromLarge cfg.W b.words

/-- /repo/src/modular/convert.rs:190-196 `ModuloSmall::from_ubig` -/
def ModSmall.fromUBig (cfg : Cfg) (addr : Nat) (r : RingSmall) (x : UBig) : R ModSmall := do
  let raw ← r.fromUBigRaw cfg x
  ModSmall.new cfg.W addr r raw

/-- /repo/src/modular/convert.rs:204-224: the words of the remainder before padding -/
def RingLarge.reduce (cfg : Cfg) (r : RingLarge) : UBig → R (List Nat)
  | .small word => .ok [word]
  | .large b =>
    if b.len < r.modulus.length then .ok b.words
    else do
      let req ← divMemoryRequirement b.len r.modulus.length
      let mem ← allocMemory cfg req
      let (ws, _) ← divRemInPlace cfg.W b.words r.modulus r.fd mem
      sliceR ws 0 r.modulus.length

/-- /repo/src/modular/convert.rs:200-227 `ModuloLarge::from_ubig` -/
def ModLarge.fromUBig (cfg : Cfg) (addr : Nat) (r : RingLarge) (x : UBig) : R ModLarge := do
  let x ← x.shl cfg .val r.shift
  let v ← r.reduce cfg x
  let k ← ckSub r.modulus.length v.length
  ModLarge.new cfg.W addr r (v ++ List.replicate k 0)

/-- `x` or `x.clone()`, by ownership of the operand -/
def UBig.own (cfg : Cfg) (o : Own) (x : UBig) : R UBig :=
  match o with
  | .val => .ok x
  | .ref => x.clone cfg

/-- /repo/src/modular/convert.rs:143-163 `IntoModulo for UBig`, `IntoModulo for &UBig` -/
def Ring.fromUBig (cfg : Cfg) (ring : Ring) (o : Own) (x : UBig) : R Modulo :=
  match ring.repr with
  | .small r => do
    let m ← ModSmall.fromUBig cfg ring.addr r x
    .ok (.small m)
  | .large r => do
    let x ← x.own cfg o
    let m ← ModLarge.fromUBig cfg ring.addr r x
    .ok (.large m)

/-! ### Negation, addition, subtraction -/

/-- /repo/src/modular/add.rs:167-174 `ModuloSmallRaw::negate` -/
def RingSmall.negate (W : Nat) (r : RingSmall) (x : Nat) : R Nat := do
  assertR (r.isValid W x = true)
  if x = 0 then .ok 0 else ckSub r.modulus x

/-- /repo/src/modular/add.rs:178-188 `ModuloSmallRaw::add` -/
def RingSmall.add (W : Nat) (r : RingSmall) (x y : Nat) : R Nat := do
  assertR (r.isValid W x = true ∧ r.isValid W y = true)
  let (v, overflow) := overflowingAdd W x y
  if overflow = true ∨ r.modulus ≤ v then do
    let (v, overflow2) := overflowingSub W v r.modulus
    assertR (overflow = overflow2)
    .ok v
  else .ok v

/-- /repo/src/modular/add.rs:192-202 `ModuloSmallRaw::sub` -/
def RingSmall.sub (W : Nat) (r : RingSmall) (x y : Nat) : R Nat := do
  assertR (r.isValid W x = true ∧ r.isValid W y = true)
  let (v, overflow) := overflowingSub W x y
  if overflow = true then do
    let (v, overflow2) := overflowingAdd W v r.modulus
    assertR (overflow2 = true)
    .ok v
  else .ok v

/-- the closure of /repo/src/modular/add.rs:238-243 (`ModuloLarge::negate_in_place`) -/
def RingLarge.negate (W : Nat) (r : RingLarge) (words : List Nat) : R (List Nat) :=
  if words.all (fun w => w == 0) then .ok words
  else do
    let (ws, overflow) ← subSameLenSwap W r.modulus words
    assertR (overflow = false)
    .ok ws

/-- /repo/src/modular/add.rs:253-255 -/
def RingLarge.addFix (W : Nat) (r : RingLarge) (words : List Nat) (overflow : Bool) : R (List Nat) := do
  let (ws, overflow2) ← subSameLen W words r.modulus
  assertR (overflow = overflow2)
  .ok ws

/-- the closure of /repo/src/modular/add.rs:250-257 (`ModuloLarge::add_in_place`) -/
def RingLarge.add (W : Nat) (r : RingLarge) (words rhs : List Nat) : R (List Nat) := do
  let (ws, overflow) ← addSameLen W words rhs
  if overflow = true then r.addFix W ws overflow
  else do
    let o ← cmpSameLen ws r.modulus
    if o = .lt then .ok ws else r.addFix W ws overflow

/-- /repo/src/modular/add.rs:267-270, 281-284 -/
def RingLarge.subFix (W : Nat) (r : RingLarge) (words : List Nat) (overflow : Bool) : R (List Nat) :=
  if overflow = true then do
    let (ws, overflow2) ← addSameLen W words r.modulus
    assertR (overflow2 = true)
    .ok ws
  else .ok words

/-- the closure of /repo/src/modular/add.rs:264-271 (`ModuloLarge::sub_in_place`) -/
def RingLarge.sub (W : Nat) (r : RingLarge) (words rhs : List Nat) : R (List Nat) := do
  let (ws, overflow) ← subSameLen W words rhs
  r.subFix W ws overflow

/-- the closure of /repo/src/modular/add.rs:278-285 (`ModuloLarge::sub_in_place_swap`) -/
def RingLarge.subSwap (W : Nat) (r : RingLarge) (words rhs : List Nat) : R (List Nat) := do
  let (ws, overflow) ← subSameLenSwap W words rhs
  r.subFix W ws overflow

/-- /repo/src/modular/add.rs:15-35 `Neg for Modulo`, `Neg for &Modulo` -/
def Modulo.neg (W : Nat) : Modulo → R Modulo
  | .small x => do
    let v ← x.ring.negate W x.raw
    let m ← ModSmall.new W x.addr x.ring v
    .ok (.small m)
  | .large x => do
    let v ← x.ring.negate W x.words
    let m ← ModLarge.new W x.addr x.ring v
    .ok (.large m)

/-- /repo/src/modular/add.rs:75-92 `AddAssign<&Modulo> for Modulo` -/
def Modulo.addAssign (W : Nat) : Modulo → Modulo → R Modulo
  | .small x, .small y => do
    checkSameRing x.addr y.addr
    let v ← x.ring.add W x.raw y.raw
    let m ← ModSmall.new W x.addr x.ring v
    .ok (.small m)
  | .large x, .large y => do
    checkSameRing x.addr y.addr
    let v ← x.ring.add W x.words y.words
    let m ← ModLarge.new W x.addr x.ring v
    .ok (.large m)
  | _, _ => .error .differentRings

/-- The four `Add` impls, /repo/src/modular/add.rs:37-73 (55-62 swaps the operands) -/
def Modulo.add (W : Nat) (o1 o2 : Own) (x y : Modulo) : R Modulo :=
  match o1, o2 with
  | .ref, .val => Modulo.addAssign W y x
  | _, _ => Modulo.addAssign W x y

/-- /repo/src/modular/add.rs:149-161 `SubAssign<&Modulo> for Modulo` -/
def Modulo.subAssign (W : Nat) : Modulo → Modulo → R Modulo
  | .small x, .small y => do
    checkSameRing x.addr y.addr
    let v ← x.ring.sub W x.raw y.raw
    let m ← ModSmall.new W x.addr x.ring v
    .ok (.small m)
  | .large x, .large y => do
    checkSameRing x.addr y.addr
    let v ← x.ring.sub W x.words y.words
    let m ← ModLarge.new W x.addr x.ring v
    .ok (.large m)
  | _, _ => .error .differentRings

/-- /repo/src/modular/add.rs:115-131 `Sub<Modulo> for &Modulo` -/
def Modulo.subSwap (W : Nat) : Modulo → Modulo → R Modulo
  | .small x, .small y => do
    checkSameRing x.addr y.addr
    let v ← x.ring.sub W x.raw y.raw
    let m ← ModSmall.new W y.addr y.ring v
    .ok (.small m)
  | .large x, .large y => do
    checkSameRing x.addr y.addr
    let v ← y.ring.subSwap W x.words y.words
    let m ← ModLarge.new W y.addr y.ring v
    .ok (.large m)
  | _, _ => .error .differentRings

/-- The four `Sub` impls, /repo/src/modular/add.rs:94-140 -/
def Modulo.sub (W : Nat) (o1 o2 : Own) (x y : Modulo) : R Modulo :=
  match o1, o2 with
  | .ref, .val => Modulo.subSwap W x y
  | _, _ => Modulo.subAssign W x y

/-- sign of /repo/src/modular/convert.rs:170-173, 181-184 -/
def Modulo.applySign (W : Nat) (s : Sign) (m : Modulo) : R Modulo :=
  match s with
  | .pos => .ok m
  | .neg => m.neg W

/-- /repo/src/modular/convert.rs:165-186 `IntoModulo for IBig`, `IntoModulo for &IBig` -/
def Ring.fromIBig (cfg : Cfg) (ring : Ring) (o : Own) (x : IBig) : R Modulo := do
  let m ← ring.fromUBig cfg o x.mag
  m.applySign cfg.W x.sign

/-- /repo/src/modular/convert.rs:231-266: `IntoModulo` for the primitive integers -/
def Ring.fromPrim (cfg : Cfg) (ring : Ring) : PTy → Int → R Modulo
  | .u bits, z => do
    let x ← UBig.fromUnsigned cfg bits z.toNat
    ring.fromUBig cfg .val x
  | .i bits, z => do
    let x ← IBig.fromSigned cfg bits z
    ring.fromIBig cfg .val x

/-- /repo/src/modular/convert.rs:254: `IntoModulo for bool` -/
def Ring.fromBool (cfg : Cfg) (ring : Ring) (b : Bool) : R Modulo := do
  let x ← UBig.fromBool cfg b
  ring.fromUBig cfg .val x

/-! ### Comparison -/

/-- /repo/src/modular/cmp.rs:44-76 `PartialEq for Modulo` -/
def Modulo.eq : Modulo → Modulo → R Bool
  | .small x, .small y => do
    checkSameRing x.addr y.addr
    .ok (x.raw == y.raw)
  | .large x, .large y => do
    checkSameRing x.addr y.addr
    .ok (x.words == y.words)
  | _, _ => .error .differentRings

/-- /repo/src/modular/cmp.rs:10-15 `PartialEq for ModuloRing` -/
def Ring.eq (r s : Ring) : Bool := r.addr == s.addr

/-- /repo/src/modular/modulo.rs:171-174, 182-189, 203-208 `Clone::clone` for `Modulo`, `ModuloRepr`,
`ModuloLarge` (and the derived one of `ModuloSmall`, 35) -/
def Modulo.clone : Modulo → Modulo
  | .small x => .small ⟨x.addr, x.ring, x.raw⟩
  | .large x => .large ⟨x.addr, x.ring, x.words⟩

/-- `[T]::copy_from_slice`, which panics if the lengths differ -/
def copyFromSlice (dst src : List Nat) : R (List Nat) := do
  assertR (dst.length = src.length)
  .ok src

/-- /repo/src/modular/modulo.rs:210-220 `ModuloLarge::clone_from` -/
def ModLarge.cloneFrom (x source : ModLarge) : R ModLarge :=
  if x.words.length = source.words.length then do
    let ws ← copyFromSlice x.words source.words
    .ok ⟨source.addr, source.ring, ws⟩
  else .ok ⟨source.addr, source.ring, source.words⟩

/-- /repo/src/modular/modulo.rs:176-179, 191-200 `Clone::clone_from` for `Modulo` -/
def Modulo.cloneFrom (x source : Modulo) : R Modulo :=
  match x, source with
  | .large x, .large s => do
    let m ← x.cloneFrom s
    .ok (.large m)
  | _, _ => .ok source.clone

/-- /repo/src/modular/modulo.rs:106-108, 144-146 `ring`: the address of the ring an element refers to -/
def Modulo.addr : Modulo → Nat
  | .small x => x.addr
  | .large x => x.addr

/-! ### Multiplication -/

/-- /repo/src/modular/mul.rs:83-90 `ModuloSmallRaw::mul`.
Simplification: the double-word arithmetic is not checked for overflow (see `C66_modular_small`). -/
def RingSmall.mul (W : Nat) (r : RingSmall) (a b : Nat) : R Nat := do
  assertR (r.isValid W a = true ∧ r.isValid W b = true)
  let x ← shrW W a r.shift
  let (_, rem) ← r.fd.divRem W (x * b)
  .ok rem

/-- /repo/src/modular/mul.rs:103-112 `mul_memory_requirement`, in words -/
def RingLarge.mulMemory (cfg : Cfg) (r : RingLarge) : R Nat := do
  let n := r.modulus.length
  let n2 ← ckMul cfg.U 2 n
  let d ← divMemoryRequirement n2 n
  .ok (n2 + max (mulMemoryRequirement n) d)

/-- /repo/src/modular/mul.rs:115-132 `mul_normalized` -/
def RingLarge.mulNormalized (W : Nat) (r : RingLarge) (a b : List Nat) (mem : Nat) : R (List Nat) := do
  let n := r.modulus.length
  assertR (a.length = n ∧ b.length = n)
  let (product, mem) ← allocFill mem (2 * n) 0
  let (product, overflow) ← mulSameLen W (bitLen n + 1) product .pos a b mem
  assertR (overflow = 0)
  let (product, _) ← shrInPlace W product r.shift
  let (product, _) ← divRemInPlace W product r.modulus r.fd mem
  sliceR product 0 n

/-- /repo/src/modular/mul.rs:149-157 `mul_normalized_in_place` (also 137-139 `mul_in_place` and
142-146 `square_in_place`) -/
def ModLarge.mulBy (W : Nat) (x : ModLarge) (v : List Nat) (mem : Nat) : R ModLarge := do
  let w ← x.ring.mulNormalized W x.words v mem
  ModLarge.new W x.addr x.ring w

/-- /repo/src/modular/mul.rs:61-79 `MulAssign<&Modulo> for Modulo` -/
def Modulo.mulAssign (cfg : Cfg) : Modulo → Modulo → R Modulo
  | .small x, .small y => do
    checkSameRing x.addr y.addr
    let v ← x.ring.mul cfg.W x.raw y.raw
    let m ← ModSmall.new cfg.W x.addr x.ring v
    .ok (.small m)
  | .large x, .large y => do
    checkSameRing x.addr y.addr
    let req ← x.ring.mulMemory cfg
    let mem ← allocMemory cfg req
    let m ← x.mulBy cfg.W y.words mem
    .ok (.large m)
  | _, _ => .error .differentRings

/-- The four `Mul` impls, /repo/src/modular/mul.rs:17-52 (36-43 swaps the operands) -/
def Modulo.mul (cfg : Cfg) (o1 o2 : Own) (x y : Modulo) : R Modulo :=
  match o1, o2 with
  | .ref, .val => Modulo.mulAssign cfg y x
  | _, _ => Modulo.mulAssign cfg x y

/-! ### Inverse and division -/

/-- /repo/src/modular/div.rs:95-99 -/
def ModSmall.inverseOf (cfg : Cfg) (addr : Nat) (r : RingSmall) (b : Nat) (x : IBig) : R ModSmall := do
  let m ← IBig.fromUnsigned cfg cfg.W b
  let e ← IBig.remEuclid cfg .val .val x m
  let o ← IBig.tryToUnsigned cfg cfg.W e
  let res ← unwrapR o
  let raw ← r.fromWord cfg.W res
  ModSmall.new cfg.W addr r raw

/-- /repo/src/modular/div.rs:88-103 `ModuloSmall::inverse` -/
def ModSmall.inverse (cfg : Cfg) (x : ModSmall) : R (Option ModSmall) := do
  let a ← x.ring.residue cfg.W x.raw
  let b ← x.ring.getModulus cfg.W
  let ua ← UBig.fromUnsigned cfg cfg.W a
  let ub ← UBig.fromUnsigned cfg cfg.W b
  let g ← UBig.extendedGcd cfg ua ub
  if g.1.beq (.small 1) then do
    let m ← ModSmall.inverseOf cfg x.addr x.ring b g.2.1
    .ok (some m)
  else .ok none

/-- /repo/src/modular/div.rs:113-116 -/
def ModLarge.inverseOf (cfg : Cfg) (addr : Nat) (r : RingLarge) (b : UBig) (x : IBig) :
    R ModLarge := do
  let e ← IBig.remEuclid cfg .val .val x (IBig.ofUBig b)
  let o ← UBig.tryFromIBig cfg .val e
  let res ← unwrapR o
  ModLarge.fromUBig cfg addr r res

/-- /repo/src/modular/div.rs:108-119 `ModuloLarge::inverse` -/
def ModLarge.inverse (cfg : Cfg) (x : ModLarge) : R (Option ModLarge) := do
  let a ← x.residue cfg
  let b ← x.ring.getModulus cfg
  let g ← UBig.extendedGcd cfg a b
  if g.1.beq (.small 1) then do
    let m ← ModLarge.inverseOf cfg x.addr x.ring b g.2.1
    .ok (some m)
  else .ok none

/-- /repo/src/modular/div.rs:23-28 `Modulo::inverse` -/
def Modulo.inverse (cfg : Cfg) : Modulo → R (Option Modulo)
  | .small x => do
    let i ← x.inverse cfg
    .ok (i.map .small)
  | .large x => do
    let i ← x.inverse cfg
    .ok (i.map .large)

/-- The four `Div` impls, /repo/src/modular/div.rs:31-70 (all are `&self / &rhs`, which multiplies
`self * inv_rhs`, that is `&Modulo * Modulo`); also 72-84 `DivAssign`. -/
def Modulo.div (cfg : Cfg) (x y : Modulo) : R Modulo := do
  let i ← y.inverse cfg
  match i with
  | none => .error .notInvertible
  | some inv => Modulo.mul cfg .ref .val x inv

/-! ### Exponentiation -/

/-- loop of /repo/src/modular/pow.rs:85-91 `pow_helper` -/
def RingSmall.powHelper (W : Nat) (r : RingSmall) (b exp : Nat) : Nat → Nat → R Nat
  | 0, res => .ok res
  | bits + 1, res => do
    let res ← r.mul W res res
    let m ← shlW W 1 bits
    if exp &&& m ≠ 0 then do
      let res ← r.mul W res b
      powHelper W r b exp bits res
    else powHelper W r b exp bits res

/-- /repo/src/modular/pow.rs:66-73 `pow_word` -/
def RingSmall.powWord (W : Nat) (r : RingSmall) (x exp : Nat) : R Nat :=
  if exp = 0 then r.fromWord W 1
  else do
    let bits ← ckSub (W - 1) (leadingZeros W exp)
    r.powHelper W x exp bits x

/-- loop of /repo/src/modular/pow.rs:120-123; the list holds the words of the exponent below the
current position, most significant first -/
def RingSmall.powLoop (W : Nat) (r : RingSmall) (x : Nat) : List Nat → Nat → R Nat
  | [], v => .ok v
  | e :: es, v => do
    let v ← r.powHelper W x e W v
    powLoop W r x es v

/-- /repo/src/modular/pow.rs:114-125 `ModuloSmall::pow_nontrivial` -/
def ModSmall.powNontrivial (cfg : Cfg) (x : ModSmall) (exp : UBig) : R ModSmall := do
  let lt ← UBig.lt exp (.small 3)
  assertR (lt = false)
  let ws := exp.asWords
  let n ← ckSub ws.length 1
  let top ← getR ws n
  let v ← x.ring.powWord cfg.W x.raw top
  let v ← x.ring.powLoop cfg.W x.raw (ws.take n).reverse v
  ModSmall.new cfg.W x.addr x.ring v

/-- /repo/src/modular/pow.rs:99-112 `ModuloSmall::pow` -/
def ModSmall.pow (cfg : Cfg) (x : ModSmall) (exp : UBig) : R ModSmall :=
  match exp with
  | .small 0 => ModSmall.fromUBig cfg x.addr x.ring (.small 1)
  | .small 1 => .ok x
  | .small 2 => do
    let v ← x.ring.mul cfg.W x.raw x.raw
    ModSmall.new cfg.W x.addr x.ring v
  | _ => x.powNontrivial cfg exp

/-- /repo/src/modular/pow.rs:233: the closure `cost` of `choose_pow_window_len` -/
def powCost (cfg : Cfg) (n windowSize : Nat) : R Nat := do
  let s ← ckSub windowSize 1
  let p ← shlW cfg.U 1 s
  let q ← ckSub p 1
  ckAdd cfg.U q (n / (windowSize + 1))

/-- loop of /repo/src/modular/pow.rs:236-243 -/
def powWindowLoop (cfg : Cfg) (n : Nat) : Nat → Nat → Nat → R Nat
  | 0, _, _ => .error .fuel
  | fuel + 1, windowSize, c =>
    if windowSize + 1 < min cfg.W cfg.U then do
      let c2 ← powCost cfg n (windowSize + 1)
      if c ≤ c2 then .ok windowSize else powWindowLoop cfg n fuel (windowSize + 1) c2
    else .ok windowSize

/-- /repo/src/modular/pow.rs:230-245 `choose_pow_window_len` -/
def choosePowWindowLen (cfg : Cfg) (n : Nat) : R Nat := do
  let c ← powCost cfg n 1
  powWindowLoop cfg n (min cfg.W cfg.U) 1 c

/-- /repo/src/modular/pow.rs:164-169: where the `i`-th entry is written, and the previous power: the first entry
follows `base`, the others follow the entry before them. -/
def powPrev (cfg : Cfg) (n i : Nat) (base table : List Nat) : R (List Nat × Nat) :=
  if i = 1 then .ok (base, 0)
  else do
    let k ← ckSub i 2
    let start ← ckMul cfg.U k n
    let stop ← ckMul cfg.U i n
    let s ← sliceR table start stop
    let (prev, _) ← splitR s n
    .ok (prev, start + n)

/-- loop of /repo/src/modular/pow.rs:163-175: the table of odd powers of `base`, in a flat array.  First the number
of entries still to be written, then the number `i` of the next one. -/
def powTableLoop (cfg : Cfg) (r : RingLarge) (base sq : List Nat) (mem : Nat) : Nat → Nat → List Nat →
    R (List Nat)
  | 0, _, table => .ok table
  | k + 1, i, table => do
    let (prev, start) ← powPrev cfg r.modulus.length i base table
    let p ← r.mulNormalized cfg.W prev sq mem
    -- `copy_from_slice`
    let (table, _) ← onSlice table start (start + r.modulus.length) (fun s => do
      assertR (s.length = p.length)
      .ok (p, ()))
    powTableLoop cfg r base sq mem k (i + 1) table

/-- `k` times `square_in_place` (/repo/src/modular/pow.rs:203-205) -/
def ModLarge.squares (W mem : Nat) : Nat → ModLarge → R ModLarge
  | 0, v => .ok v
  | k + 1, v => do
    let v ← v.mulBy W v.words mem
    squares W mem k v

/-- /repo/src/modular/pow.rs:184-194: the word after the current one (0 below the lowest) -/
def powNextWord (ws : List Nat) (wordIdx : Nat) : R Nat :=
  if wordIdx = 0 then .ok 0 else getR ws (wordIdx - 1)

/-- /repo/src/modular/pow.rs:195-202: the odd window starting at bit `bitIdx` of `cur`, and its
number of bits.
Simplification: a sum is not checked for overflow (see `C66_indices`). -/
def powWindow (W windowLen next cur bitIdx : Nat) : R (Nat × Nat) := do
  let s ← ckSub (bitIdx + 1 + W) windowLen
  let d ← shrW (2 * W) (doubleWord W next cur) s
  let (w, _) := splitDoubleWord W d
  let m ← ones W windowLen
  let w := w &&& m
  let numBits ← ckSub windowLen (trailingZerosAux W w)
  let s ← ckSub windowLen numBits
  let w ← shrW W w s
  .ok (w, numBits)

/-- /repo/src/modular/pow.rs:210-215: the table entry -/
def powEntry (cfg : Cfg) (n : Nat) (base table : List Nat) (idx : Nat) : R (List Nat) :=
  if idx = 0 then .ok base
  else do
    let k ← ckSub idx 1
    let start ← ckMul cfg.U k n
    let stop ← ckMul cfg.U idx n
    sliceR table start stop

/-- /repo/src/modular/pow.rs:188-217: process the bit at position `bit`; result: value and new
position -/
def powStep (cfg : Cfg) (x : ModLarge) (table : List Nat) (windowLen mem : Nat) (ws : List Nat)
    (bit : Nat) (v : ModLarge) : R (ModLarge × Nat) := do
  let wordIdx := bit / cfg.W
  let bitIdx := bit % cfg.W
  let cur ← getR ws wordIdx
  let m ← shlW cfg.W 1 bitIdx
  if cur &&& m ≠ 0 then do
    let next ← powNextWord ws wordIdx
    let (window, numBits) ← powWindow cfg.W windowLen next cur bitIdx
    let k ← ckSub numBits 1
    let v ← ModLarge.squares cfg.W mem k v
    let bit ← ckSub bit k
    assertR (window &&& 1 = 1)
    let entry ← powEntry cfg x.ring.modulus.length x.words table (window / 2)
    let v ← v.mulBy cfg.W entry mem
    .ok (v, bit)
  else .ok (v, bit)

/-- loop of /repo/src/modular/pow.rs:182-223 -/
def powLargeLoop (cfg : Cfg) (x : ModLarge) (table : List Nat) (windowLen mem : Nat)
    (ws : List Nat) : Nat → Nat → ModLarge → R ModLarge
  | 0, _, _ => .error .fuel
  | fuel + 1, bit, v => do
    let (v, bit) ← powStep cfg x table windowLen mem ws bit v
    if bit = 0 then .ok v
    else do
      let v ← v.mulBy cfg.W v.words mem
      powLargeLoop cfg x table windowLen mem ws fuel (bit - 1) v

/-- /repo/src/modular/pow.rs:146-156: the scratch memory for the exponentiation: number of table entries,
the table and memory left for multiplications -/
def powMemory (cfg : Cfg) (r : RingLarge) (windowLen : Nat) : R (Nat × List Nat × Nat) := do
  let s ← ckSub windowLen 1
  let p ← shlW cfg.U 1 s
  let entries ← ckSub p 1
  let tableWords := entries * r.modulus.length
  if tableWords < 2 ^ cfg.U then do
    let req ← r.mulMemory cfg
    let mem ← allocMemory cfg (tableWords + req)
    let (table, mem) ← allocFill mem tableWords 0
    .ok (entries, table, mem)
  else .error .outOfMemory

/-- /repo/src/modular/pow.rs:139-225 `ModuloLarge::pow_nontrivial` -/
def ModLarge.powNontrivial (cfg : Cfg) (x : ModLarge) (exp : UBig) : R ModLarge := do
  let lt ← UBig.lt exp (.small 2)
  assertR (lt = false)
  let bitLen ← exp.bitLen cfg
  let windowLen ← choosePowWindowLen cfg bitLen
  let (entries, table, mem) ← powMemory cfg x.ring windowLen
  let v ← x.mulBy cfg.W x.words mem
  let table ← powTableLoop cfg x.ring x.words v.words mem entries 1 table
  let bit ← ckSub bitLen 2
  powLargeLoop cfg x table windowLen mem exp.asWords (bit + 1) bit v

/-- /repo/src/modular/pow.rs:129-137 `ModuloLarge::pow` -/
def ModLarge.pow (cfg : Cfg) (x : ModLarge) (exp : UBig) : R ModLarge :=
  match exp with
  | .small 0 => ModLarge.fromUBig cfg x.addr x.ring (.small 1)
  | .small 1 => .ok x
  | _ => x.powNontrivial cfg exp

/-- /repo/src/modular/pow.rs:30-35 `Modulo::pow` -/
def Modulo.pow (cfg : Cfg) (x : Modulo) (exp : UBig) : R Modulo :=
  match x with
  | .small x => do
    let v ← x.pow cfg exp
    .ok (.small v)
  | .large x => do
    let v ← x.pow cfg exp
    .ok (.large v)

/-- /repo/src/modular/pow.rs:52-60 `Modulo::pow_signed` -/
def Modulo.powSigned (cfg : Cfg) (x : Modulo) (exp : IBig) : R Modulo :=
  match exp.sign with
  | .pos => x.pow cfg exp.mag
  | .neg => do
    let i ← x.inverse cfg
    match i with
    | none => .error .notInvertible
    | some inv => inv.pow cfg exp.mag

end Ibig
