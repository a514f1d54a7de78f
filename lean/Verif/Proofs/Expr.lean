import Verif.Proofs.History
import Verif.Spec.Expr
import Mathlib.Data.Int.Bitwise
/-! # Proofs about expressions -/
namespace Ibig

/-- The crate's result, with the size limit of `N` bits and the exact panics. -/
def UExpr.math (N : Nat) (v : Nat → Nat) : UExpr → R Nat
  | .var k => .ok (v k)
  | .lit _ x => .ok x
  | .bin op _ _ x y => do
    let a ← x.math N v
    let b ← y.math N v
    op.math N a b
  | .shl _ x n => do
    let a ← x.math N v
    lim N (a * 2 ^ n)
  | .shr _ x n => do
    let a ← x.math N v
    .ok (a / 2 ^ n)
  | .pow x n => do
    let a ← x.math N v
    lim N (a ^ n)

/-- The same for integer expressions. -/
def IExpr.math (N : Nat) (u : Nat → Nat) (v : Nat → Int) : IExpr → R Int
  | .var k => .ok (v k)
  | .lit _ z => .ok z
  | .ofU x => do
    let a ← x.math N u
    .ok (a : Int)
  | .bin op _ _ x y => do
    let a ← x.math N u v
    let b ← y.math N u v
    op.math N a b
  | .un op _ x => do
    let a ← x.math N u v
    op.math N a
  | .shl _ x n => do
    let a ← x.math N u v
    limI N (a * 2 ^ n)
  | .shr _ x n => do
    let a ← x.math N u v
    .ok (a.ediv (2 ^ n))
  | .pow x n => do
    let a ← x.math N u v
    limI N (a ^ n)

theorem RefU.bind {cfg : Cfg} {x : R UBig} {y : R Nat} {f : UBig → R UBig} {g : Nat → R Nat}
    (h : RefU cfg x y) (hf : ∀ c, c.WF cfg → RefU cfg (f c) (g (c.value cfg))) :
    RefU cfg (x >>= f) (y >>= g) := by
  cases y with
  | error p => have h : x = .error p := h; subst h; exact rfl
  | ok n => obtain ⟨c, rfl, h2, rfl⟩ := h; exact hf c h2

theorem RefI.bind {cfg : Cfg} {x : R IBig} {y : R Int} {f : IBig → R IBig} {g : Int → R Int}
    (h : RefI cfg x y) (hf : ∀ c, c.WF cfg → RefI cfg (f c) (g (c.value cfg))) :
    RefI cfg (x >>= f) (y >>= g) := by
  cases y with
  | error p => have h : x = .error p := h; subst h; exact rfl
  | ok n => obtain ⟨c, rfl, h2, rfl⟩ := h; exact hf c h2

theorem RefU.bindI {cfg : Cfg} {x : R UBig} {y : R Nat} {f : UBig → R IBig} {g : Nat → R Int}
    (h : RefU cfg x y) (hf : ∀ c, c.WF cfg → RefI cfg (f c) (g (c.value cfg))) :
    RefI cfg (x >>= f) (y >>= g) := by
  cases y with
  | error p => have h : x = .error p := h; subst h; exact rfl
  | ok n => obtain ⟨c, rfl, h2, rfl⟩ := h; exact hf c h2

theorem UExpr.ref {cfg : Cfg} (hv : cfg.Valid) {env : Nat → UBig} (hw : ∀ k, (env k).WF cfg) (e : UExpr)
    (he : e.OK cfg) :
    RefU cfg (e.run cfg env) (e.math cfg.bits fun k => (env k).value cfg) := by
  induction e with
  | var k => exact ⟨_, rfl, hw k, rfl⟩
  | lit bits x => exact .of_returns (UBig.fromUnsigned_ok hv he.1 he.2)
  | bin op o1 o2 x y ihx ihy =>
    exact (ihx he.1).bind fun a ha => (ihy he.2).bind fun b hb => op.ref hv o1 o2 ha hb
  | shl o x n ih => exact (ih he.1).bind fun a ha => .of_yields (UBig.shl_spec hv o ha he.2)
  | shr o x n ih => exact (ih he.1).bind fun a ha => .of_returns (UBig.shr_spec hv o ha n)
  | pow x n ih => exact (ih he.1).bind fun a ha => .of_yields (UBig.pow_spec hv ha he.2)

theorem IExpr.ref {cfg : Cfg} (hv : cfg.Valid) {uenv : Nat → UBig} {env : Nat → IBig}
    (hu : ∀ k, (uenv k).WF cfg) (hw : ∀ k, (env k).WF cfg) (e : IExpr) (he : e.OK cfg) :
    RefI cfg (e.run cfg uenv env)
      (e.math cfg.bits (fun k => (uenv k).value cfg) fun k => (env k).value cfg) := by
  induction e with
  | var k => exact ⟨_, rfl, hw k, rfl⟩
  | lit bits x => exact .of_returns (IBig.fromSigned_spec hv he.1 he.2)
  | ofU x => exact (x.ref hv hu he).bindI fun a ha => ⟨_, rfl, IBig.ofUBig_spec hv ha⟩
  | bin op o1 o2 x y ihx ihy =>
    exact (ihx he.1).bind fun a ha => (ihy he.2).bind fun b hb => op.ref hv o1 o2 ha hb
  | un op o x ih => exact (ih he).bind fun a ha => op.ref hv o ha
  | shl o x n ih => exact (ih he.1).bind fun a ha => .of_yields (IBig.shl_spec hv o ha he.2)
  | shr o x n ih => exact (ih he.1).bind fun a ha => .of_returns (IBig.shr_spec hv o ha n)
  | pow x n ih => exact (ih he.1).bind fun a ha => .of_yields (IBig.pow_spec hv ha he.2)

/-! ## The limited and the unlimited meaning -/

theorem lim_ok_iff {N n m : Nat} : lim N n = .ok m ↔ n = m ∧ n < 2 ^ N := by
  unfold lim
  split
  · simp_all
  · rename_i g; exact ⟨fun h => (by cases h), fun h => absurd h.2 g⟩

theorem limI_ok_iff {N : Nat} {z y : Int} : limI N z = .ok y ↔ z = y ∧ z.natAbs < 2 ^ N := by
  unfold limI
  split
  · simp_all
  · rename_i g; exact ⟨fun h => (by cases h), fun h => absurd h.2 g⟩

theorem UBin.math_ok {N a b c : Nat} {op : UBin} (h : op.math N a b = .ok c) : op.meaning a b = some c := by
  cases op <;> simp only [UBin.math, UBin.meaning, unlessZero] at h ⊢ <;>
    first
    | rw [(lim_ok_iff.mp h).1]
    | (split at h <;> simp_all; done)
    | (cases h; rfl)

theorem UBin.math_of {N a b c : Nat} {op : UBin} (h : op.meaning a b = some c) (hc : c < 2 ^ N) :
    op.math N a b = .ok c := by
  cases op <;> simp only [UBin.math, UBin.meaning, unlessZero] at h ⊢ <;>
    first
    | (cases h; exact lim_ok_iff.mpr ⟨rfl, hc⟩)
    | (split at h <;> simp_all; done)
    | (cases h; rfl)

theorem IBin.math_ok {N : Nat} {a b c : Int} {op : IBin} (h : op.math N a b = .ok c) :
    op.meaning a b = some c := by
  cases op <;> simp only [IBin.math, IBin.meaning, unlessZero] at h ⊢ <;>
    first
    | rw [(limI_ok_iff.mp h).1]
    | (split at h <;> simp_all; done)
    | (cases h; rfl)

theorem IBin.math_of {N : Nat} {a b c : Int} {op : IBin} (h : op.meaning a b = some c)
    (hc : c.natAbs < 2 ^ N) : op.math N a b = .ok c := by
  cases op <;> simp only [IBin.math, IBin.meaning, unlessZero] at h ⊢ <;>
    first
    | (cases h; exact limI_ok_iff.mpr ⟨rfl, hc⟩)
    | (split at h <;> simp_all; done)
    | (cases h; rfl)

theorem IUn.math_ok {N : Nat} {a c : Int} {op : IUn} (h : op.math N a = .ok c) : op.meaning a = c := by
  cases op <;> simp only [IUn.math, IUn.meaning] at h ⊢ <;>
    first
    | exact (limI_ok_iff.mp h).1
    | (cases h; rfl)

theorem IUn.math_of {N : Nat} {a : Int} {op : IUn} (hc : (op.meaning a).natAbs < 2 ^ N) :
    op.math N a = .ok (op.meaning a) := by
  cases op <;> simp only [IUn.math, IUn.meaning] at hc ⊢
  exact limI_ok_iff.mpr ⟨rfl, hc⟩

theorem bind_ok_of {α β : Type} {x : R α} {f : α → R β} {b : β} (h : x >>= f = .ok b) :
    ∃ a, x = .ok a ∧ f a = .ok b := by
  cases x with
  | error p => cases h
  | ok a => exact ⟨a, rfl, h⟩

theorem UExpr.math_ok {N : Nat} {v : Nat → Nat} {e : UExpr} {c : Nat} (h : e.math N v = .ok c) :
    e.meaning v = some c := by
  induction e generalizing c with
  | var k => cases h; rfl
  | lit bits x => cases h; rfl
  | bin op o1 o2 x y ihx ihy =>
    obtain ⟨a, h1, h⟩ := bind_ok_of h
    obtain ⟨b, h2, h⟩ := bind_ok_of h
    rw [UExpr.meaning, ihx h1, ihy h2]; exact UBin.math_ok h
  | shl o x n ih =>
    obtain ⟨a, h1, h⟩ := bind_ok_of h
    rw [UExpr.meaning, ih h1, ← (lim_ok_iff.mp h).1]; rfl
  | shr o x n ih =>
    obtain ⟨a, h1, h⟩ := bind_ok_of h
    rw [UExpr.meaning, ih h1]; cases h; rfl
  | pow x n ih =>
    obtain ⟨a, h1, h⟩ := bind_ok_of h
    rw [UExpr.meaning, ih h1, ← (lim_ok_iff.mp h).1]; rfl

theorem IExpr.math_ok {N : Nat} {u : Nat → Nat} {v : Nat → Int} {e : IExpr} {c : Int}
    (h : e.math N u v = .ok c) : e.meaning u v = some c := by
  induction e generalizing c with
  | var k => cases h; rfl
  | lit bits x => cases h; rfl
  | ofU x =>
    obtain ⟨a, h1, h⟩ := bind_ok_of h
    rw [IExpr.meaning, UExpr.math_ok h1]; cases h; rfl
  | bin op o1 o2 x y ihx ihy =>
    obtain ⟨a, h1, h⟩ := bind_ok_of h
    obtain ⟨b, h2, h⟩ := bind_ok_of h
    rw [IExpr.meaning, ihx h1, ihy h2]; exact IBin.math_ok h
  | un op o x ih =>
    obtain ⟨a, h1, h⟩ := bind_ok_of h
    rw [IExpr.meaning, ih h1, ← IUn.math_ok h]; rfl
  | shl o x n ih =>
    obtain ⟨a, h1, h⟩ := bind_ok_of h
    rw [IExpr.meaning, ih h1, ← (limI_ok_iff.mp h).1]; rfl
  | shr o x n ih =>
    obtain ⟨a, h1, h⟩ := bind_ok_of h
    rw [IExpr.meaning, ih h1]; cases h; rfl
  | pow x n ih =>
    obtain ⟨a, h1, h⟩ := bind_ok_of h
    rw [IExpr.meaning, ih h1, ← (limI_ok_iff.mp h).1]; rfl

theorem UExpr.math_of {N : Nat} {v : Nat → Nat} {e : UExpr} (h : e.Within N v) :
    ∃ c, e.math N v = .ok c := by
  induction e with
  | var k => exact ⟨_, rfl⟩
  | lit bits x => exact ⟨_, rfl⟩
  | bin op o1 o2 x y ihx ihy =>
    unfold UExpr.Within at h
    obtain ⟨⟨c, h1, h2⟩, h3, h4⟩ := h
    obtain ⟨a, ha⟩ := ihx h3
    obtain ⟨b, hb⟩ := ihy h4
    rw [UExpr.meaning, UExpr.math_ok ha, UExpr.math_ok hb] at h1
    refine ⟨c, ?_⟩
    rw [UExpr.math, ha, hb]
    exact UBin.math_of h1 h2
  | shl o x n ih =>
    unfold UExpr.Within at h
    obtain ⟨⟨c, h1, h2⟩, h3⟩ := h
    obtain ⟨a, ha⟩ := ih h3
    rw [UExpr.meaning, UExpr.math_ok ha] at h1
    refine ⟨c, ?_⟩
    rw [UExpr.math, ha]
    cases h1
    exact lim_ok_iff.mpr ⟨rfl, h2⟩
  | shr o x n ih =>
    unfold UExpr.Within at h
    obtain ⟨a, ha⟩ := ih h.2
    exact ⟨_, by rw [UExpr.math, ha]; rfl⟩
  | pow x n ih =>
    unfold UExpr.Within at h
    obtain ⟨⟨c, h1, h2⟩, h3⟩ := h
    obtain ⟨a, ha⟩ := ih h3
    rw [UExpr.meaning, UExpr.math_ok ha] at h1
    refine ⟨c, ?_⟩
    rw [UExpr.math, ha]
    cases h1
    exact lim_ok_iff.mpr ⟨rfl, h2⟩

theorem IExpr.math_of {N : Nat} {u : Nat → Nat} {v : Nat → Int} {e : IExpr} (h : e.Within N u v) :
    ∃ c, e.math N u v = .ok c := by
  induction e with
  | var k => exact ⟨_, rfl⟩
  | lit bits x => exact ⟨_, rfl⟩
  | ofU x =>
    unfold IExpr.Within at h
    obtain ⟨a, ha⟩ := UExpr.math_of h.2
    exact ⟨_, by rw [IExpr.math, ha]; rfl⟩
  | bin op o1 o2 x y ihx ihy =>
    unfold IExpr.Within at h
    obtain ⟨⟨c, h1, h2⟩, h3, h4⟩ := h
    obtain ⟨a, ha⟩ := ihx h3
    obtain ⟨b, hb⟩ := ihy h4
    rw [IExpr.meaning, IExpr.math_ok ha, IExpr.math_ok hb] at h1
    refine ⟨c, ?_⟩
    rw [IExpr.math, ha, hb]
    exact IBin.math_of h1 h2
  | un op o x ih =>
    unfold IExpr.Within at h
    obtain ⟨⟨c, h1, h2⟩, h3⟩ := h
    obtain ⟨a, ha⟩ := ih h3
    rw [IExpr.meaning, IExpr.math_ok ha] at h1
    refine ⟨c, ?_⟩
    rw [IExpr.math, ha]
    cases h1
    exact IUn.math_of h2
  | shl o x n ih =>
    unfold IExpr.Within at h
    obtain ⟨⟨c, h1, h2⟩, h3⟩ := h
    obtain ⟨a, ha⟩ := ih h3
    rw [IExpr.meaning, IExpr.math_ok ha] at h1
    refine ⟨c, ?_⟩
    rw [IExpr.math, ha]
    cases h1
    exact limI_ok_iff.mpr ⟨rfl, h2⟩
  | shr o x n ih =>
    unfold IExpr.Within at h
    obtain ⟨a, ha⟩ := ih h.2
    exact ⟨_, by rw [IExpr.math, ha]; rfl⟩
  | pow x n ih =>
    unfold IExpr.Within at h
    obtain ⟨⟨c, h1, h2⟩, h3⟩ := h
    obtain ⟨a, ha⟩ := ih h3
    rw [IExpr.meaning, IExpr.math_ok ha] at h1
    refine ⟨c, ?_⟩
    rw [IExpr.math, ha]
    cases h1
    exact limI_ok_iff.mpr ⟨rfl, h2⟩

theorem UBin.math_error {N a b : Nat} {op : UBin} {p : Panic} (h : op.math N a b = .error p) :
    p = .tooLarge ∨ op.meaning a b = none := by
  cases op <;> simp only [UBin.math, UBin.meaning, unlessZero, lim] at h ⊢ <;>
    first
    | (split at h <;> simp_all; done)
    | cases h

theorem IBin.math_error {N : Nat} {a b : Int} {op : IBin} {p : Panic} (h : op.math N a b = .error p) :
    p = .tooLarge ∨ op.meaning a b = none := by
  cases op <;> simp only [IBin.math, IBin.meaning, unlessZero, limI] at h ⊢ <;>
    first
    | (split at h <;> simp_all; done)
    | cases h

theorem lim_error {N n : Nat} {p : Panic} (h : lim N n = .error p) : p = .tooLarge := by
  unfold lim at h; split at h <;> cases h; rfl

theorem limI_error {N : Nat} {z : Int} {p : Panic} (h : limI N z = .error p) : p = .tooLarge := by
  unfold limI at h; split at h <;> cases h; rfl

theorem bind_error_of {α β : Type} {x : R α} {f : α → R β} {p : Panic} (h : x >>= f = .error p) :
    x = .error p ∨ ∃ a, x = .ok a ∧ f a = .error p := by
  cases x with
  | error q => cases h; exact .inl rfl
  | ok a => exact .inr ⟨a, rfl, h⟩

theorem UExpr.math_error {N : Nat} {v : Nat → Nat} {e : UExpr} {p : Panic} (h : e.math N v = .error p) :
    p = .tooLarge ∨ e.meaning v = none := by
  induction e with
  | var k => cases h
  | lit bits x => cases h
  | bin op o1 o2 x y ihx ihy =>
    rcases bind_error_of h with h | ⟨a, h1, h⟩
    · exact (ihx h).imp_right fun h => by rw [UExpr.meaning, h]; rfl
    rcases bind_error_of h with h | ⟨b, h2, h⟩
    · exact (ihy h).imp_right fun h => by rw [UExpr.meaning, h, UExpr.math_ok h1]; rfl
    · exact (UBin.math_error h).imp_right fun h => by
        rw [UExpr.meaning, UExpr.math_ok h2, UExpr.math_ok h1]; exact h
  | shl o x n ih =>
    rcases bind_error_of h with h | ⟨a, h1, h⟩
    · exact (ih h).imp_right fun h => by rw [UExpr.meaning, h]; rfl
    · exact .inl (lim_error h)
  | shr o x n ih =>
    rcases bind_error_of h with h | ⟨a, h1, h⟩
    · exact (ih h).imp_right fun h => by rw [UExpr.meaning, h]; rfl
    · cases h
  | pow x n ih =>
    rcases bind_error_of h with h | ⟨a, h1, h⟩
    · exact (ih h).imp_right fun h => by rw [UExpr.meaning, h]; rfl
    · exact .inl (lim_error h)

theorem IExpr.math_error {N : Nat} {u : Nat → Nat} {v : Nat → Int} {e : IExpr} {p : Panic}
    (h : e.math N u v = .error p) : p = .tooLarge ∨ e.meaning u v = none := by
  induction e with
  | var k => cases h
  | lit bits x => cases h
  | ofU x =>
    rcases bind_error_of h with h | ⟨a, h1, h⟩
    · exact (UExpr.math_error h).imp_right fun h => by rw [IExpr.meaning, h]; rfl
    · cases h
  | bin op o1 o2 x y ihx ihy =>
    rcases bind_error_of h with h | ⟨a, h1, h⟩
    · exact (ihx h).imp_right fun h => by rw [IExpr.meaning, h]; rfl
    rcases bind_error_of h with h | ⟨b, h2, h⟩
    · exact (ihy h).imp_right fun h => by rw [IExpr.meaning, h, IExpr.math_ok h1]; rfl
    · exact (IBin.math_error h).imp_right fun h => by
        rw [IExpr.meaning, IExpr.math_ok h2, IExpr.math_ok h1]; exact h
  | un op o x ih =>
    rcases bind_error_of h with h | ⟨a, h1, h⟩
    · exact (ih h).imp_right fun h => by rw [IExpr.meaning, h]; rfl
    · cases op <;> first | exact .inl (limI_error h) | cases h
  | shl o x n ih =>
    rcases bind_error_of h with h | ⟨a, h1, h⟩
    · exact (ih h).imp_right fun h => by rw [IExpr.meaning, h]; rfl
    · exact .inl (limI_error h)
  | shr o x n ih =>
    rcases bind_error_of h with h | ⟨a, h1, h⟩
    · exact (ih h).imp_right fun h => by rw [IExpr.meaning, h]; rfl
    · cases h
  | pow x n ih =>
    rcases bind_error_of h with h | ⟨a, h1, h⟩
    · exact (ih h).imp_right fun h => by rw [IExpr.meaning, h]; rfl
    · exact .inl (limI_error h)

theorem RefU.error {cfg : Cfg} {x : R UBig} {y : R Nat} (h : RefU cfg x y) {p : Panic} (hp : x = .error p) :
    y = .error p := by
  cases y with
  | error q => have h : x = .error q := h; rw [hp] at h; cases h; rfl
  | ok n => obtain ⟨d, h1, -⟩ := h; rw [hp] at h1; cases h1

theorem RefI.error {cfg : Cfg} {x : R IBig} {y : R Int} (h : RefI cfg x y) {p : Panic} (hp : x = .error p) :
    y = .error p := by
  cases y with
  | error q => have h : x = .error q := h; rw [hp] at h; cases h; rfl
  | ok n => obtain ⟨d, h1, -⟩ := h; rw [hp] at h1; cases h1

/-! ## Ownership makes no difference -/

theorem UExpr.math_byRef (N : Nat) (v : Nat → Nat) (e : UExpr) : e.byRef.math N v = e.math N v := by
  induction e with
  | var k => rfl
  | lit bits x => rfl
  | bin op o1 o2 x y ihx ihy => simp only [UExpr.byRef, UExpr.math, ihx, ihy]
  | shl o x n ih => simp only [UExpr.byRef, UExpr.math, ih]
  | shr o x n ih => simp only [UExpr.byRef, UExpr.math, ih]
  | pow x n ih => simp only [UExpr.byRef, UExpr.math, ih]

theorem IExpr.math_byRef (N : Nat) (u : Nat → Nat) (v : Nat → Int) (e : IExpr) :
    e.byRef.math N u v = e.math N u v := by
  induction e with
  | var k => rfl
  | lit bits x => rfl
  | ofU x => simp only [IExpr.byRef, IExpr.math, UExpr.math_byRef]
  | bin op o1 o2 x y ihx ihy => simp only [IExpr.byRef, IExpr.math, ihx, ihy]
  | un op o x ih => simp only [IExpr.byRef, IExpr.math, ih]
  | shl o x n ih => simp only [IExpr.byRef, IExpr.math, ih]
  | shr o x n ih => simp only [IExpr.byRef, IExpr.math, ih]
  | pow x n ih => simp only [IExpr.byRef, IExpr.math, ih]

theorem UExpr.meaning_byRef (v : Nat → Nat) (e : UExpr) : e.byRef.meaning v = e.meaning v := by
  induction e with
  | var k => rfl
  | lit bits x => rfl
  | bin op o1 o2 x y ihx ihy => simp only [UExpr.byRef, UExpr.meaning, ihx, ihy]
  | shl o x n ih => simp only [UExpr.byRef, UExpr.meaning, ih]
  | shr o x n ih => simp only [UExpr.byRef, UExpr.meaning, ih]
  | pow x n ih => simp only [UExpr.byRef, UExpr.meaning, ih]

theorem IExpr.meaning_byRef (u : Nat → Nat) (v : Nat → Int) (e : IExpr) :
    e.byRef.meaning u v = e.meaning u v := by
  induction e with
  | var k => rfl
  | lit bits x => rfl
  | ofU x => simp only [IExpr.byRef, IExpr.meaning, UExpr.meaning_byRef]
  | bin op o1 o2 x y ihx ihy => simp only [IExpr.byRef, IExpr.meaning, ihx, ihy]
  | un op o x ih => simp only [IExpr.byRef, IExpr.meaning, ih]
  | shl o x n ih => simp only [IExpr.byRef, IExpr.meaning, ih]
  | shr o x n ih => simp only [IExpr.byRef, IExpr.meaning, ih]
  | pow x n ih => simp only [IExpr.byRef, IExpr.meaning, ih]

theorem RefU.value {cfg : Cfg} {x : R UBig} {y : R Nat} (h : RefU cfg x y) {c : UBig} (hc : x = .ok c) :
    c.WF cfg ∧ y = .ok (c.value cfg) := by
  cases y with
  | error p => have h : x = .error p := h; rw [hc] at h; cases h
  | ok n => obtain ⟨d, h1, h2, rfl⟩ := h; rw [hc] at h1; cases h1; exact ⟨h2, rfl⟩

theorem RefI.value {cfg : Cfg} {x : R IBig} {y : R Int} (h : RefI cfg x y) {c : IBig} (hc : x = .ok c) :
    c.WF cfg ∧ y = .ok (c.value cfg) := by
  cases y with
  | error p => have h : x = .error p := h; rw [hc] at h; cases h
  | ok n => obtain ⟨d, h1, h2, rfl⟩ := h; rw [hc] at h1; cases h1; exact ⟨h2, rfl⟩

/-! ## The meaning of operators -/

section
variable (v : Nat → Nat) (x y : UExpr) (n : Nat)

theorem UExpr.m_add : (x + y).meaning v = (x.meaning v).bind fun a => (y.meaning v).bind fun b => some (a + b) := rfl
theorem UExpr.m_sub : (x - y).meaning v =
    (x.meaning v).bind fun a => (y.meaning v).bind fun b => if b ≤ a then some (a - b) else none := rfl
theorem UExpr.m_mul : (x * y).meaning v = (x.meaning v).bind fun a => (y.meaning v).bind fun b => some (a * b) := rfl
theorem UExpr.m_div : (x / y).meaning v =
    (x.meaning v).bind fun a => (y.meaning v).bind fun b => if b = 0 then none else some (a / b) := rfl
theorem UExpr.m_rem : (x % y).meaning v =
    (x.meaning v).bind fun a => (y.meaning v).bind fun b => if b = 0 then none else some (a % b) := rfl
theorem UExpr.m_and : (x &&& y).meaning v = (x.meaning v).bind fun a => (y.meaning v).bind fun b => some (a &&& b) := rfl
theorem UExpr.m_or : (x ||| y).meaning v = (x.meaning v).bind fun a => (y.meaning v).bind fun b => some (a ||| b) := rfl
theorem UExpr.m_xor : (x ^^^ y).meaning v = (x.meaning v).bind fun a => (y.meaning v).bind fun b => some (a ^^^ b) := rfl
theorem UExpr.m_andNot (o1 o2 : Own) : (UExpr.bin .andNot o1 o2 x y).meaning v =
    (x.meaning v).bind fun a => (y.meaning v).bind fun b => some (a.ldiff b) := rfl
theorem UExpr.m_gcd (o1 o2 : Own) : (UExpr.bin .gcd o1 o2 x y).meaning v =
    (x.meaning v).bind fun a => (y.meaning v).bind fun b => if a = 0 ∧ b = 0 then none else some (a.gcd b) := rfl
theorem UExpr.m_shl : (x <<< n).meaning v = (x.meaning v).map fun a => a * 2 ^ n := rfl
theorem UExpr.m_shr : (x >>> n).meaning v = (x.meaning v).map fun a => a / 2 ^ n := rfl
theorem UExpr.m_pow : (x ^ n).meaning v = (x.meaning v).map fun a => a ^ n := rfl
theorem UExpr.m_lit (b : Nat) : (UExpr.lit b n).meaning v = some n := rfl
end

section
variable (u : Nat → Nat) (v : Nat → Int) (x y : IExpr) (n : Nat)

theorem IExpr.m_add : (x + y).meaning u v = (x.meaning u v).bind fun a => (y.meaning u v).bind fun b => some (a + b) := rfl
theorem IExpr.m_sub : (x - y).meaning u v = (x.meaning u v).bind fun a => (y.meaning u v).bind fun b => some (a - b) := rfl
theorem IExpr.m_mul : (x * y).meaning u v = (x.meaning u v).bind fun a => (y.meaning u v).bind fun b => some (a * b) := rfl
theorem IExpr.m_div : (x / y).meaning u v =
    (x.meaning u v).bind fun a => (y.meaning u v).bind fun b => if b = 0 then none else some (a.tdiv b) := rfl
theorem IExpr.m_rem : (x % y).meaning u v =
    (x.meaning u v).bind fun a => (y.meaning u v).bind fun b => if b = 0 then none else some (a.tmod b) := rfl
theorem IExpr.m_divE (o1 o2 : Own) : (IExpr.bin .divEuclid o1 o2 x y).meaning u v =
    (x.meaning u v).bind fun a => (y.meaning u v).bind fun b => if b = 0 then none else some (a / b) := rfl
theorem IExpr.m_remE (o1 o2 : Own) : (IExpr.bin .remEuclid o1 o2 x y).meaning u v =
    (x.meaning u v).bind fun a => (y.meaning u v).bind fun b => if b = 0 then none else some (a % b) := rfl
theorem IExpr.m_and : (x &&& y).meaning u v = (x.meaning u v).bind fun a => (y.meaning u v).bind fun b => some (a.land b) := rfl
theorem IExpr.m_or : (x ||| y).meaning u v = (x.meaning u v).bind fun a => (y.meaning u v).bind fun b => some (a.lor b) := rfl
theorem IExpr.m_xor : (x ^^^ y).meaning u v = (x.meaning u v).bind fun a => (y.meaning u v).bind fun b => some (a.xor b) := rfl
theorem IExpr.m_andNot (o1 o2 : Own) : (IExpr.bin .andNot o1 o2 x y).meaning u v =
    (x.meaning u v).bind fun a => (y.meaning u v).bind fun b => some (a.ldiff b) := rfl
theorem IExpr.m_gcd (o1 o2 : Own) : (IExpr.bin .gcd o1 o2 x y).meaning u v =
    (x.meaning u v).bind fun a => (y.meaning u v).bind fun b => if a = 0 ∧ b = 0 then none else some ((a.gcd b : Nat) : Int) := rfl
theorem IExpr.m_neg : (-x).meaning u v = (x.meaning u v).map fun a => -a := rfl
theorem IExpr.m_not : (~~~x).meaning u v = (x.meaning u v).map fun a => -a - 1 := rfl
theorem IExpr.m_abs (o : Own) : (IExpr.un .abs o x).meaning u v = (x.meaning u v).map fun a => |a| := rfl
theorem IExpr.m_signum (o : Own) : (IExpr.un .signum o x).meaning u v = (x.meaning u v).map fun a => a.sign := rfl
theorem IExpr.m_shl : (x <<< n).meaning u v = (x.meaning u v).map fun a => a * 2 ^ n := rfl
theorem IExpr.m_shr : (x >>> n).meaning u v = (x.meaning u v).map fun a => a / 2 ^ n := rfl
theorem IExpr.m_pow : (x ^ n).meaning u v = (x.meaning u v).map fun a => a ^ n := rfl
theorem IExpr.m_lit (b : Nat) (z : Int) : (IExpr.lit b z).meaning u v = some z := rfl
theorem IExpr.m_ofU (e : UExpr) : (IExpr.ofU e).meaning u v = (e.meaning u).map fun a : Nat => (a : Int) := rfl
end

/-! ## Facts about numbers used by the identities -/

/-- Binary digits of a pair of numbers: common ones, those of the first only, those of the second only. -/
theorem nat_bits_split (m n : Nat) :
    (m &&& n) + m.ldiff n = m ∧ (m &&& n) + n.ldiff m = n ∧ (m ||| n) = m + n.ldiff m ∧
      (m ^^^ n) = m.ldiff n + n.ldiff m := by
  induction m using Nat.binaryRec' generalizing n with
  | zero => simp [Nat.ldiff]
  | bit b m h ih =>
    obtain ⟨b', n, rfl⟩ : ∃ b' n', n = Nat.bit b' n' := ⟨n.bodd, n.div2, (Nat.bit_bodd_div2 n).symm⟩
    obtain ⟨h1, h2, h3, h4⟩ := ih n
    rw [Nat.land_bit, Nat.ldiff_bit, Nat.ldiff_bit, Nat.lor_bit, Nat.xor_bit]
    simp only [Nat.bit_val]
    cases b <;> cases b' <;> simp <;> omega

theorem int_ext {a b : Int} (h : ∀ i, a.testBit i = b.testBit i) : a = b :=
  ibit_ext fun i => by rw [ibit_eq_testBit, ibit_eq_testBit, h]

theorem int_not (a : Int) : -a - 1 = a.lnot := by
  cases a <;> simp [Int.lnot]
  omega

/-- Sums of integers through their bits. -/
theorem int_bits_split (a b : Int) :
    a + b = a.xor b + 2 * a.land b ∧ a + b = a.lor b + a.land b ∧ a.xor b = a.lor b - a.land b ∧
    a.ldiff b = a - a.land b := by
  rcases a with m | m <;> rcases b with n | n <;> obtain ⟨h1, h2, h3, h4⟩ := nat_bits_split m n <;>
    have hc := Nat.land_comm m n <;> have hd := Nat.lor_comm m n <;>
    simp only [Int.xor, Int.land, Int.lor, Int.ldiff] <;>
    simp only [Int.ofNat_eq_natCast, Int.negSucc_eq] <;>
    omega

theorem int_ldiff_eq (a b : Int) : a.ldiff b = a.land (-b - 1) :=
  int_ext fun i => by rw [int_not, Int.testBit_land, Int.testBit_ldiff, Int.testBit_lnot]

theorem int_not_shiftRight (a : Int) (n : Nat) : (-a - 1) / 2 ^ n = -(a / 2 ^ n) - 1 := by
  have hd : (0 : Int) < 2 ^ n := by positivity
  generalize (2 : Int) ^ n = d at hd
  have h1 := Int.emod_add_mul_ediv a d
  have h2 := Int.emod_nonneg a hd.ne'
  have h3 := Int.emod_lt_of_pos a hd
  have e : -a - 1 = (d - 1 - a % d) + d * (-(a / d) - 1) := by
    rw [mul_sub, mul_neg, mul_one]; omega
  rw [e, Int.add_mul_ediv_left _ _ hd.ne', Int.ediv_eq_zero_of_lt (by omega) (by omega)]
  omega

end Ibig
