import Verif.Proofs.Expr
import Verif.Spec.ExamplesModular
import Mathlib.Tactic.Ring
/-! # Property C70: the identities of arithmetic hold for what the crate computes

`meaning` (Verif/Spec/Expr.lean) evaluates an expression in the unlimited integers. -/
namespace Ibig

/-- The values of the variables. -/
abbrev uvals (cfg : Cfg) (env : Nat → UBig) : Nat → Nat := fun k => (env k).value cfg
/-- The values of the integer variables. -/
abbrev ivals (cfg : Cfg) (env : Nat → IBig) : Nat → Int := fun k => (env k).value cfg

/-- C70: an expression that runs without a panic yields its meaning in the unlimited integers. -/
theorem C70_value {cfg : Cfg} (hv : cfg.Valid) {uenv : Nat → UBig} {env : Nat → IBig}
    (hu : ∀ k, (uenv k).WF cfg) (hi : ∀ k, (env k).WF cfg) :
    (∀ (e : UExpr) (c : UBig), e.OK cfg → e.run cfg uenv = .ok c →
      c.WF cfg ∧ e.meaning (uvals cfg uenv) = some (c.value cfg)) ∧
    (∀ (e : IExpr) (c : IBig), e.OK cfg → e.run cfg uenv env = .ok c →
      c.WF cfg ∧ e.meaning (uvals cfg uenv) (ivals cfg env) = some (c.value cfg)) := by
  constructor
  · intro e c he hc
    obtain ⟨h1, h2⟩ := (e.ref hv hu he).value hc
    exact ⟨h1, UExpr.math_ok h2⟩
  · intro e c he hc
    obtain ⟨h1, h2⟩ := (e.ref hv hu hi he).value hc
    exact ⟨h1, IExpr.math_ok h2⟩

/-- Variables: the first is `2^128 - 1`, the others are `2^64 + 5`. -/
def exUEnv (k : Nat) : UBig := if k = 0 then exA else exB
/-- Integer variables: the first is `-(2^128 - 1)`, the others are `2^64 + 5`. -/
def exIEnv (k : Nat) : IBig := if k = 0 then exNegA else exPosB

theorem exUEnv_wf (k : Nat) : (exUEnv k).WF cfg64 := by
  unfold exUEnv; split <;> [exact exA_wf; exact exB_wf]
theorem exIEnv_wf (k : Nat) : (exIEnv k).WF cfg64 := by
  unfold exIEnv; split <;> [exact exNegA_wf; exact exPosB_wf]

/-- `(a * (a + b)) >> 3` with a product of integers, and `a / (b - b)`. -/
example : ∃ c, ((IExpr.var 0 * (.var 0 + .ofU (.var 1))) >>> 3).run cfg64 exUEnv exIEnv = .ok c ∧
    c.value cfg64 = (-(2 ^ 128 - 1) * (-(2 ^ 128 - 1) + (2 ^ 64 + 5))) / 2 ^ 3 := by
  refine ⟨_, rfl, ?_⟩; decide +kernel
example := (C70_value cfg64_valid exUEnv_wf exIEnv_wf).2
  ((IExpr.var 0 * (.var 0 + .ofU (.var 1))) >>> 3) _ ⟨⟨trivial, trivial, trivial⟩, by decide +kernel⟩ rfl
example : (UExpr.var 0 / (.var 1 - .var 1)).run cfg64 exUEnv = .error .divideByZero ∧
    (UExpr.var 0 / (.var 1 - .var 1)).meaning (uvals cfg64 exUEnv) = none := by decide +kernel

/-- C70: an expression whose parts have meanings that fit into the largest number runs without a panic. -/
theorem C70_succeeds {cfg : Cfg} (hv : cfg.Valid) {uenv : Nat → UBig} {env : Nat → IBig}
    (hu : ∀ k, (uenv k).WF cfg) (hi : ∀ k, (env k).WF cfg) :
    (∀ e : UExpr, e.OK cfg → e.Within (cfg.maxLen * cfg.W) (uvals cfg uenv) →
      ∃ c, e.run cfg uenv = .ok c) ∧
    (∀ e : IExpr, e.OK cfg → e.Within (cfg.maxLen * cfg.W) (uvals cfg uenv) (ivals cfg env) →
      ∃ c, e.run cfg uenv env = .ok c) := by
  constructor
  · intro e he hw
    obtain ⟨n, hn⟩ := UExpr.math_of hw
    have h := e.ref hv hu he
    rw [hn] at h
    obtain ⟨c, hc, -⟩ := h
    exact ⟨c, hc⟩
  · intro e he hw
    obtain ⟨n, hn⟩ := IExpr.math_of hw
    have h := e.ref hv hu hi he
    rw [hn] at h
    obtain ⟨c, hc, -⟩ := h
    exact ⟨c, hc⟩

/-- `a * b + a` -/
example : ∃ c, (UExpr.var 0 * .var 1 + .var 0).run cfg64 exUEnv = .ok c :=
  (C70_succeeds cfg64_valid exUEnv_wf exIEnv_wf).1 _ ⟨⟨trivial, trivial⟩, trivial⟩
    ⟨⟨_, rfl, fitsEx 200 (by decide +kernel) (by decide)⟩,
      ⟨⟨_, rfl, fitsEx 200 (by decide +kernel) (by decide)⟩,
        ⟨⟨_, rfl, fitsEx 200 (by decide +kernel) (by decide)⟩, trivial⟩,
        ⟨⟨_, rfl, fitsEx 200 (by decide +kernel) (by decide)⟩, trivial⟩⟩,
      ⟨⟨_, rfl, fitsEx 200 (by decide +kernel) (by decide)⟩, trivial⟩⟩

/-- C70: an expression that panics, other than because a number is too large, has no meaning: it divides by
zero, subtracts a larger `UBig` or asks for `gcd(0, 0)`. -/
theorem C70_panics {cfg : Cfg} (hv : cfg.Valid) {uenv : Nat → UBig} {env : Nat → IBig}
    (hu : ∀ k, (uenv k).WF cfg) (hi : ∀ k, (env k).WF cfg) :
    (∀ (e : UExpr) (p : Panic), e.OK cfg → e.run cfg uenv = .error p →
      p = .tooLarge ∨ e.meaning (uvals cfg uenv) = none) ∧
    (∀ (e : IExpr) (p : Panic), e.OK cfg → e.run cfg uenv env = .error p →
      p = .tooLarge ∨ e.meaning (uvals cfg uenv) (ivals cfg env) = none) :=
  ⟨fun e _ he hp => UExpr.math_error ((e.ref hv hu he).error hp),
    fun e _ he hp => IExpr.math_error ((e.ref hv hu hi he).error hp)⟩

/-- `b - a` and `a / (a - a)` -/
example := (C70_panics cfg64_valid exUEnv_wf exIEnv_wf).1 (.var 1 - .var 0) .negativeUBig
  (by exact ⟨trivial, trivial⟩) rfl
example := (C70_panics cfg64_valid exUEnv_wf exIEnv_wf).2 (.var 0 / (.var 0 - .var 0)) .divideByZero
  (by exact ⟨trivial, trivial, trivial⟩) rfl

/-- C70: passing operands by value or by reference makes no difference: the same panic, or results of the same
value. -/
theorem C70_ownership {cfg : Cfg} (hv : cfg.Valid) {uenv : Nat → UBig} {env : Nat → IBig}
    (hu : ∀ k, (uenv k).WF cfg) (hi : ∀ k, (env k).WF cfg) :
    (∀ x y : UExpr, x.OK cfg → y.OK cfg → x.byRef = y.byRef →
      (∃ p, x.run cfg uenv = .error p ∧ y.run cfg uenv = .error p) ∨
      ∃ c d, x.run cfg uenv = .ok c ∧ y.run cfg uenv = .ok d ∧ c.value cfg = d.value cfg) ∧
    (∀ x y : IExpr, x.OK cfg → y.OK cfg → x.byRef = y.byRef →
      (∃ p, x.run cfg uenv env = .error p ∧ y.run cfg uenv env = .error p) ∨
      ∃ c d, x.run cfg uenv env = .ok c ∧ y.run cfg uenv env = .ok d ∧ c.value cfg = d.value cfg) := by
  constructor
  · intro x y hx hy hxy
    have h1 := x.ref hv hu hx
    have h2 := y.ref hv hu hy
    rw [← UExpr.math_byRef] at h1 h2
    rw [hxy] at h1
    cases hm : y.byRef.math cfg.bits (fun k => (uenv k).value cfg) with
    | error p => rw [hm] at h1 h2; exact .inl ⟨p, h1, h2⟩
    | ok n =>
      rw [hm] at h1 h2
      obtain ⟨c, hc, -, h3⟩ := h1
      obtain ⟨d, hd, -, h4⟩ := h2
      exact .inr ⟨c, d, hc, hd, h3.trans h4.symm⟩
  · intro x y hx hy hxy
    have h1 := x.ref hv hu hi hx
    have h2 := y.ref hv hu hi hy
    rw [← IExpr.math_byRef] at h1 h2
    rw [hxy] at h1
    cases hm : y.byRef.math cfg.bits (fun k => (uenv k).value cfg) (fun k => (env k).value cfg) with
    | error p => rw [hm] at h1 h2; exact .inl ⟨p, h1, h2⟩
    | ok n =>
      rw [hm] at h1 h2
      obtain ⟨c, hc, -, h3⟩ := h1
      obtain ⟨d, hd, -, h4⟩ := h2
      exact .inr ⟨c, d, hc, hd, h3.trans h4.symm⟩

/-- `a + b - a` with operands by value and by reference. -/
example := (C70_ownership cfg64_valid exUEnv_wf exIEnv_wf).1
  (.bin .sub .val .ref (.bin .add .ref .val (.var 0) (.var 1)) (.var 0)) (.var 0 + .var 1 - .var 0)
  ⟨⟨trivial, trivial⟩, trivial⟩ (by exact ⟨⟨trivial, trivial⟩, trivial⟩) rfl

/-- C70: two expressions that mean the same in the unlimited integers, wherever both mean something, give
results that `==`, `cmp` and `Hash` do not tell apart. -/
theorem C70_identity {cfg : Cfg} (hv : cfg.Valid) {uenv : Nat → UBig} {env : Nat → IBig}
    (hu : ∀ k, (uenv k).WF cfg) (hi : ∀ k, (env k).WF cfg) :
    (∀ e e' : UExpr, (∀ n n', e.meaning (uvals cfg uenv) = some n → e'.meaning (uvals cfg uenv) = some n' →
      n = n') → UAgree cfg uenv e e') ∧
    (∀ e e' : IExpr, (∀ z z', e.meaning (uvals cfg uenv) (ivals cfg env) = some z →
      e'.meaning (uvals cfg uenv) (ivals cfg env) = some z' → z = z') → IAgree cfg uenv env e e') := by
  constructor
  · intro e e' h x x' hx hx' ho ho' c c' hc hc'
    obtain ⟨h1, h2⟩ := (C70_value hv hu hi).1 x c ho hc
    obtain ⟨h3, h4⟩ := (C70_value hv hu hi).1 x' c' ho' hc'
    rw [← UExpr.meaning_byRef, hx, UExpr.meaning_byRef] at h2
    rw [← UExpr.meaning_byRef, hx', UExpr.meaning_byRef] at h4
    have h5 := h _ _ h2 h4
    refine ⟨(UBig.beq_iff hv h1 h3).mpr h5, ?_, UBig.hash_eq hv h1 h3 h5⟩
    rw [UBig.cmp_spec hv h1 h3, h5]; exact congrArg _ (compare_eq_iff_eq.mpr rfl)
  · intro e e' h x x' hx hx' ho ho' c c' hc hc'
    obtain ⟨h1, h2⟩ := (C70_value hv hu hi).2 x c ho hc
    obtain ⟨h3, h4⟩ := (C70_value hv hu hi).2 x' c' ho' hc'
    rw [← IExpr.meaning_byRef, hx, IExpr.meaning_byRef] at h2
    rw [← IExpr.meaning_byRef, hx', IExpr.meaning_byRef] at h4
    have h5 := h _ _ h2 h4
    refine ⟨(IBig.beq_iff hv h1 h3).mpr h5, ?_, IBig.hash_eq hv h1 h3 h5⟩
    rw [IBig.cmp_spec hv h1 h3, h5]; exact congrArg _ (compare_eq_iff_eq.mpr rfl)

/-- `(a + b)² = a² + 2ab + b²` -/
example : IAgree cfg64 exUEnv exIEnv ((.var 0 + .var 1) * (.var 0 + .var 1))
    (.var 0 * .var 0 + .lit 8 2 * .var 0 * .var 1 + .var 1 * .var 1) :=
  (C70_identity cfg64_valid exUEnv_wf exIEnv_wf).2 _ _ fun z z' h h' =>
    Option.some.inj (h.symm.trans (Eq.trans (by decide +kernel) h'))

/-- C70: identities between `UBig` expressions, for all subexpressions `x`, `y`, `z` and all `usize` values. -/
theorem C70_ubig_laws {cfg : Cfg} (hv : cfg.Valid) {env : Nat → UBig} (hu : ∀ k, (env k).WF cfg)
    (x y z : UExpr) (m n : Nat) :
    -- a commutative semiring
    UAgree cfg env (x + y) (y + x) ∧
    UAgree cfg env (x + y + z) (x + (y + z)) ∧
    UAgree cfg env (x * y) (y * x) ∧
    UAgree cfg env (x * y * z) (x * (y * z)) ∧
    UAgree cfg env (x * (y + z)) (x * y + x * z) ∧
    -- subtraction
    UAgree cfg env (x + y - y) x ∧
    UAgree cfg env (x - y + y) x ∧
    UAgree cfg env (x - y - z) (x - (y + z)) ∧
    -- division
    UAgree cfg env (x / y * y + x % y) x ∧
    UAgree cfg env (x * y / y) x ∧
    UAgree cfg env (x / y / z) (x / (y * z)) ∧
    -- bits
    UAgree cfg env (x &&& y) (y &&& x) ∧
    UAgree cfg env (x ||| y) (y ||| x) ∧
    UAgree cfg env (x ^^^ y) (y ^^^ x) ∧
    UAgree cfg env (x &&& y &&& z) (x &&& (y &&& z)) ∧
    UAgree cfg env (x ||| y ||| z) (x ||| (y ||| z)) ∧
    UAgree cfg env (x ^^^ y ^^^ z) (x ^^^ (y ^^^ z)) ∧
    UAgree cfg env (x &&& (y ||| z)) ((x &&& y) ||| (x &&& z)) ∧
    UAgree cfg env (x ||| (y &&& z)) ((x ||| y) &&& (x ||| z)) ∧
    UAgree cfg env (x ^^^ y ^^^ y) x ∧
    UAgree cfg env (x + y) ((x ||| y) + (x &&& y)) ∧
    UAgree cfg env (.bin .andNot .ref .ref x y) (x - (x &&& y)) ∧
    -- shifts and powers
    UAgree cfg env (x <<< n) (x * .lit 8 2 ^ n) ∧
    UAgree cfg env (x >>> n) (x / .lit 8 2 ^ n) ∧
    UAgree cfg env (x <<< n >>> n) x ∧
    UAgree cfg env (x <<< m <<< n) (x <<< (m + n)) ∧
    UAgree cfg env (x >>> m >>> n) (x >>> (m + n)) ∧
    UAgree cfg env (x ^ m * x ^ n) (x ^ (m + n)) ∧
    UAgree cfg env ((x ^ m) ^ n) (x ^ (m * n)) ∧
    UAgree cfg env ((x * y) ^ n) (x ^ n * y ^ n) ∧
    -- greatest common divisors
    UAgree cfg env (.bin .gcd .ref .ref x y) (.bin .gcd .ref .ref y x) ∧
    UAgree cfg env (.bin .gcd .ref .ref (x * z) (y * z)) (.bin .gcd .ref .ref x y * z) ∧
    UAgree cfg env (.bin .gcd .ref .ref (x % y) y) (.bin .gcd .ref .ref x y) := by
  have key := (C70_identity hv hu (env := fun _ => IBig.ofUBig (env 0)) (fun _ => (IBig.ofUBig_spec hv (hu 0)).1)).1
  refine ⟨?_, ?_, ?_, ?_, ?_, ?_, ?_, ?_, ?_, ?_, ?_, ?_, ?_, ?_, ?_, ?_, ?_, ?_, ?_, ?_, ?_, ?_, ?_, ?_, ?_, ?_,
    ?_, ?_, ?_, ?_, ?_, ?_, ?_⟩
  all_goals
    refine key _ _ fun p q hp hq => ?_
    simp only [UExpr.m_add, UExpr.m_sub, UExpr.m_mul, UExpr.m_div, UExpr.m_rem, UExpr.m_and, UExpr.m_or,
      UExpr.m_xor, UExpr.m_andNot, UExpr.m_gcd, UExpr.m_shl, UExpr.m_shr, UExpr.m_pow, UExpr.m_lit] at hp hq
    generalize x.meaning (uvals cfg env) = a at hp hq
    generalize y.meaning (uvals cfg env) = b at hp hq
    generalize z.meaning (uvals cfg env) = c at hp hq
    rcases a with _ | a <;> rcases b with _ | b <;> rcases c with _ | c <;>
      simp only [Option.bind_none, Option.map_none, Option.bind_some, Option.map_some, reduceCtorEq,
        Option.some.injEq] at hp hq
    all_goals try split_ifs at hp
    all_goals try split_ifs at hq
    all_goals
      try simp only [Option.bind_none, Option.bind_some, reduceCtorEq, Option.some.injEq] at hp hq
    all_goals try split_ifs at hp
    all_goals try simp only [Option.some.injEq] at hp
    all_goals try (subst hp hq)
    all_goals
      first
      | ring1
      | omega
      | exact Nat.land_comm _ _
      | exact Nat.lor_comm _ _
      | exact Nat.xor_comm _ _
      | exact Nat.land_assoc _ _ _
      | exact Nat.lor_assoc _ _ _
      | exact Nat.xor_assoc _ _ _
      | exact Nat.and_or_distrib_left ..
      | exact Nat.or_and_distrib_left ..
      | exact Nat.xor_xor_cancel_right ..
      | exact Nat.div_add_mod' _ _
      | exact Nat.mul_div_cancel _ (by positivity)
      | exact Nat.mul_div_cancel _ (by omega)
      | exact Nat.div_div_eq_div_mul _ _ _
      | exact (Nat.div_div_eq_div_mul _ _ _).trans (by rw [pow_add])
      | exact Nat.gcd_comm _ _
      | exact Nat.gcd_mul_right _ _ _
      | exact (Nat.gcd_comm _ _).trans ((Nat.gcd_rec _ _).symm.trans (Nat.gcd_comm _ _))
      | exact (Nat.gcd_comm _ _).trans (by rw [Nat.gcd_comm a b, Nat.gcd_rec b a, Nat.gcd_comm])
      | (obtain ⟨h1, h2, h3, h4⟩ := nat_bits_split a b; omega)

/-- Distributivity on `a`, `b`, `b + 3`: both sides run, and the crate's `==` says `true`. -/
example := (C70_ubig_laws cfg64_valid exUEnv_wf (.var 0) (.var 1) (.var 1 + .lit 8 3) 70 5).2.2.2.2.1
  (.var 0 * (.var 1 + (.var 1 + .lit 8 3))) (.var 0 * .var 1 + .var 0 * (.var 1 + .lit 8 3)) rfl rfl
  (by exact ⟨trivial, trivial, trivial, by simp [PTy.Valid], by decide⟩)
  (by exact ⟨⟨trivial, trivial⟩, trivial, trivial, by simp [PTy.Valid], by decide⟩) _ _ rfl rfl

/-- C70: identities between `IBig` expressions, for all subexpressions `x`, `y`, `z` and all `usize`
values. -/
theorem C70_ibig_laws {cfg : Cfg} (hv : cfg.Valid) {uenv : Nat → UBig} {env : Nat → IBig}
    (hu : ∀ k, (uenv k).WF cfg) (hi : ∀ k, (env k).WF cfg) (x y z : IExpr) (m n : Nat) :
    -- a commutative ring
    IAgree cfg uenv env (x + y) (y + x) ∧
    IAgree cfg uenv env (x + y + z) (x + (y + z)) ∧
    IAgree cfg uenv env (x * y) (y * x) ∧
    IAgree cfg uenv env (x * y * z) (x * (y * z)) ∧
    IAgree cfg uenv env (x * (y + z)) (x * y + x * z) ∧
    IAgree cfg uenv env (x - y) (x + -y) ∧
    IAgree cfg uenv env (x - y + y) x ∧
    IAgree cfg uenv env (- -x) x ∧
    IAgree cfg uenv env (-x * y) (-(x * y)) ∧
    -- signs
    IAgree cfg uenv env (.un .signum .ref x * .un .abs .ref x) x ∧
    IAgree cfg uenv env (.un .abs .ref (x * y)) (.un .abs .ref x * .un .abs .ref y) ∧
    IAgree cfg uenv env (.un .signum .ref (x * y)) (.un .signum .ref x * .un .signum .ref y) ∧
    -- division
    IAgree cfg uenv env (x / y * y + x % y) x ∧
    IAgree cfg uenv env (.bin .divEuclid .ref .ref x y * y + .bin .remEuclid .ref .ref x y) x ∧
    IAgree cfg uenv env (-x / y) (-(x / y)) ∧
    IAgree cfg uenv env (x / -y) (-(x / y)) ∧
    IAgree cfg uenv env (-x % y) (-(x % y)) ∧
    IAgree cfg uenv env (x % -y) (x % y) ∧
    IAgree cfg uenv env (.bin .remEuclid .ref .ref x (-y)) (.bin .remEuclid .ref .ref x y) ∧
    IAgree cfg uenv env (x * y / y) x ∧
    -- bits
    IAgree cfg uenv env (x &&& y) (y &&& x) ∧
    IAgree cfg uenv env (x ||| y) (y ||| x) ∧
    IAgree cfg uenv env (x ^^^ y) (y ^^^ x) ∧
    IAgree cfg uenv env (x &&& y &&& z) (x &&& (y &&& z)) ∧
    IAgree cfg uenv env (x ||| y ||| z) (x ||| (y ||| z)) ∧
    IAgree cfg uenv env (x ^^^ y ^^^ z) (x ^^^ (y ^^^ z)) ∧
    IAgree cfg uenv env (x &&& (y ||| z)) ((x &&& y) ||| (x &&& z)) ∧
    IAgree cfg uenv env (x ||| (y &&& z)) ((x ||| y) &&& (x ||| z)) ∧
    IAgree cfg uenv env (~~~(x &&& y)) (~~~x ||| ~~~y) ∧
    IAgree cfg uenv env (~~~(x ||| y)) (~~~x &&& ~~~y) ∧
    IAgree cfg uenv env (~~~(~~~x)) x ∧
    IAgree cfg uenv env (~~~x) (-x - .lit 8 1) ∧
    IAgree cfg uenv env (x ^^^ y ^^^ y) x ∧
    IAgree cfg uenv env (x + y) ((x ||| y) + (x &&& y)) ∧
    IAgree cfg uenv env (x + y) ((x ^^^ y) + (x &&& y) <<< 1) ∧
    IAgree cfg uenv env (.bin .andNot .ref .ref x y) (x &&& ~~~y) ∧
    -- shifts and powers
    IAgree cfg uenv env (x <<< n) (x * .lit 8 2 ^ n) ∧
    IAgree cfg uenv env (x >>> n) (.bin .divEuclid .ref .ref x (.lit 8 2 ^ n)) ∧
    IAgree cfg uenv env (x <<< n >>> n) x ∧
    IAgree cfg uenv env (~~~x >>> n) (~~~(x >>> n)) ∧
    IAgree cfg uenv env (x <<< m <<< n) (x <<< (m + n)) ∧
    IAgree cfg uenv env (x >>> m >>> n) (x >>> (m + n)) ∧
    IAgree cfg uenv env (x ^ m * x ^ n) (x ^ (m + n)) ∧
    IAgree cfg uenv env ((x ^ m) ^ n) (x ^ (m * n)) ∧
    IAgree cfg uenv env ((x * y) ^ n) (x ^ n * y ^ n) ∧
    -- greatest common divisors
    IAgree cfg uenv env (.bin .gcd .ref .ref x y) (.bin .gcd .ref .ref y x) ∧
    IAgree cfg uenv env (.bin .gcd .ref .ref (-x) y) (.bin .gcd .ref .ref x y) := by
  have key := (C70_identity hv hu hi).2
  refine ⟨?_, ?_, ?_, ?_, ?_, ?_, ?_, ?_, ?_, ?_, ?_, ?_, ?_, ?_, ?_, ?_, ?_, ?_, ?_, ?_, ?_, ?_, ?_, ?_, ?_, ?_,
    ?_, ?_, ?_, ?_, ?_, ?_, ?_, ?_, ?_, ?_, ?_, ?_, ?_, ?_, ?_, ?_, ?_, ?_, ?_, ?_, ?_⟩
  all_goals
    refine key _ _ fun p q hp hq => ?_
    simp only [IExpr.m_add, IExpr.m_sub, IExpr.m_mul, IExpr.m_div, IExpr.m_rem, IExpr.m_divE, IExpr.m_remE,
      IExpr.m_and, IExpr.m_or, IExpr.m_xor, IExpr.m_andNot, IExpr.m_gcd, IExpr.m_neg, IExpr.m_not, IExpr.m_abs,
      IExpr.m_signum, IExpr.m_shl, IExpr.m_shr, IExpr.m_pow, IExpr.m_lit] at hp hq
    generalize x.meaning (uvals cfg uenv) (ivals cfg env) = a at hp hq
    generalize y.meaning (uvals cfg uenv) (ivals cfg env) = b at hp hq
    generalize z.meaning (uvals cfg uenv) (ivals cfg env) = c at hp hq
    rcases a with _ | a <;> rcases b with _ | b <;> rcases c with _ | c <;>
      simp only [Option.bind_none, Option.map_none, Option.bind_some, Option.map_some, reduceCtorEq,
        Option.some.injEq] at hp hq
    all_goals try split_ifs at hp
    all_goals try split_ifs at hq
    all_goals
      try simp only [Option.bind_none, Option.bind_some, Option.map_none, Option.map_some, reduceCtorEq,
        Option.some.injEq] at hp hq
    all_goals try (subst hp hq)
    all_goals
      first
      | ring1
      | omega
      | exact Int.sign_mul_abs _
      | exact abs_mul _ _
      | exact Int.sign_mul _ _
      | exact Int.tdiv_mul_add_tmod _ _
      | exact Int.ediv_mul_add_emod _ _
      | exact Int.neg_tdiv _ _
      | exact Int.tdiv_neg _ _
      | exact Int.neg_tmod _ _
      | exact Int.tmod_neg _ _
      | exact Int.emod_neg _ _
      | exact Int.mul_tdiv_cancel _ ‹_›
      | exact Int.mul_ediv_cancel _ (by positivity)
      | exact int_ldiff_eq _ _
      | rw [Int.neg_gcd]
      | rw [Int.gcd_comm]
      | (rw [pow_add, Int.ediv_ediv_of_nonneg (by positivity)])
      | (refine int_ext fun i => ?_
         simp only [int_not, Int.testBit_land, Int.testBit_lor, Int.testBit_lxor, Int.testBit_lnot]
         cases a.testBit i <;> cases b.testBit i <;> cases c.testBit i <;> rfl)
      | (refine int_ext fun i => ?_
         simp only [int_not, Int.testBit_land, Int.testBit_lor, Int.testBit_lxor, Int.testBit_lnot]
         cases a.testBit i <;> cases b.testBit i <;> rfl)
      | (obtain ⟨h1, h2, h3, h4⟩ := int_bits_split a b; omega)
      | exact int_not_shiftRight _ _

/-- `(a / b) * b + a % b == a` for `a = -(2^128 - 1)`, `b = 2^64 + 5`. -/
example := (C70_ibig_laws cfg64_valid exUEnv_wf exIEnv_wf (.var 0) (.var 1) (.var 0) 70 5).2.2.2.2.2.2.2.2.2.2.2.2.1
  (.var 0 / .var 1 * .var 1 + .var 0 % .var 1) (.var 0) rfl rfl
  (by exact ⟨⟨⟨trivial, trivial⟩, trivial⟩, trivial, trivial⟩) trivial _ _ rfl rfl

/-- C70: `IBig::from` a `UBig` result is the result of the `IBig` operation. -/
theorem C70_mixed_laws {cfg : Cfg} (hv : cfg.Valid) {uenv : Nat → UBig} {env : Nat → IBig}
    (hu : ∀ k, (uenv k).WF cfg) (hi : ∀ k, (env k).WF cfg) (x y : UExpr) (n : Nat) :
    IAgree cfg uenv env (.ofU (x + y)) (.ofU x + .ofU y) ∧
    IAgree cfg uenv env (.ofU (x - y)) (.ofU x - .ofU y) ∧
    IAgree cfg uenv env (.ofU (x * y)) (.ofU x * .ofU y) ∧
    IAgree cfg uenv env (.ofU (x / y)) (.ofU x / .ofU y) ∧
    IAgree cfg uenv env (.ofU (x % y)) (.ofU x % .ofU y) ∧
    IAgree cfg uenv env (.ofU (x &&& y)) (.ofU x &&& .ofU y) ∧
    IAgree cfg uenv env (.ofU (x ||| y)) (.ofU x ||| .ofU y) ∧
    IAgree cfg uenv env (.ofU (x ^^^ y)) (.ofU x ^^^ .ofU y) ∧
    IAgree cfg uenv env (.ofU (.bin .andNot .ref .ref x y)) (.ofU x &&& ~~~(.ofU y)) ∧
    IAgree cfg uenv env (.ofU (x <<< n)) (IExpr.ofU x <<< n) ∧
    IAgree cfg uenv env (.ofU (x >>> n)) (IExpr.ofU x >>> n) ∧
    IAgree cfg uenv env (.ofU (x ^ n)) (IExpr.ofU x ^ n) ∧
    IAgree cfg uenv env (.ofU (.bin .gcd .ref .ref x y)) (.bin .gcd .ref .ref (.ofU x) (.ofU y)) := by
  have key := (C70_identity hv hu hi).2
  refine ⟨?_, ?_, ?_, ?_, ?_, ?_, ?_, ?_, ?_, ?_, ?_, ?_, ?_⟩
  all_goals
    refine key _ _ fun p q hp hq => ?_
    simp only [IExpr.m_add, IExpr.m_sub, IExpr.m_mul, IExpr.m_div, IExpr.m_rem, IExpr.m_and, IExpr.m_or,
      IExpr.m_xor, IExpr.m_gcd, IExpr.m_not, IExpr.m_shl, IExpr.m_shr, IExpr.m_pow, IExpr.m_ofU,
      UExpr.m_add, UExpr.m_sub, UExpr.m_mul, UExpr.m_div, UExpr.m_rem, UExpr.m_and, UExpr.m_or,
      UExpr.m_xor, UExpr.m_andNot, UExpr.m_gcd, UExpr.m_shl, UExpr.m_shr, UExpr.m_pow] at hp hq
    generalize x.meaning (uvals cfg uenv) = a at hp hq
    generalize y.meaning (uvals cfg uenv) = b at hp hq
    rcases a with _ | a <;> rcases b with _ | b <;>
      simp only [Option.bind_none, Option.map_none, Option.bind_some, Option.map_some, reduceCtorEq,
        Option.some.injEq] at hp hq
    all_goals try split_ifs at hp
    all_goals try split_ifs at hq
    all_goals try simp only [Option.map_none, Option.map_some, reduceCtorEq, Option.some.injEq] at hp hq
    all_goals try (subst hp hq)
    all_goals
      first
      | rfl
      | omega
      | exact Nat.cast_pow _ _
      | exact (Int.ofNat_tdiv _ _).symm
      | exact (Int.ofNat_tmod _ _).symm
      | (rw [← int_ldiff_eq]; rfl)

/-- `IBig::from(a - b) == IBig::from(a) - IBig::from(b)` -/
example := (C70_mixed_laws cfg64_valid exUEnv_wf exIEnv_wf (.var 0) (.var 1) 5).2.1
  (.ofU (.var 0 - .var 1)) (.ofU (.var 0) - .ofU (.var 1)) rfl rfl ⟨trivial, trivial⟩
  (by exact ⟨trivial, trivial⟩)
  _ _ rfl rfl

/-- C70: comparison is a total order that addition and multiplication respect. -/
theorem C70_order {cfg : Cfg} (hv : cfg.Valid) {a b c : IBig} (ha : a.WF cfg) (hb : b.WF cfg)
    (hc : c.WF cfg) :
    a.cmp a = .ok .eq ∧
    (a.cmp b = .ok .eq ↔ a.beq b = true) ∧
    (a.cmp b = .ok .lt ↔ b.cmp a = .ok .gt) ∧
    (∃ o, a.cmp b = .ok o) ∧
    (a.cmp b = .ok .lt → b.cmp c = .ok .lt → a.cmp c = .ok .lt) ∧
    (∀ (o1 o2 o3 o4 : Own) (s t : IBig), IBig.add cfg o1 o2 a c = .ok s → IBig.add cfg o3 o4 b c = .ok t →
      s.cmp t = a.cmp b) ∧
    (∀ (o1 o2 o3 o4 : Own) (s t : IBig), IBig.sub cfg o1 o2 a c = .ok s → IBig.sub cfg o3 o4 b c = .ok t →
      s.cmp t = a.cmp b) ∧
    (∀ (o1 o2 o3 o4 : Own) (s z : IBig), IBig.sub cfg o1 o2 a b = .ok s → IBig.sub cfg o3 o4 c c = .ok z →
      s.cmp z = a.cmp b) ∧
    (∀ (o1 o2 o3 o4 o5 o6 : Own) (s t z : IBig), IBig.mul cfg o1 o2 a c = .ok s → IBig.mul cfg o3 o4 b c = .ok t →
      IBig.sub cfg o5 o6 c c = .ok z → (c.cmp z = .ok .gt → s.cmp t = a.cmp b) ∧
      (c.cmp z = .ok .lt → s.cmp t = b.cmp a)) ∧
    (∀ (o1 o2 : Own) (s t : IBig), a.negOwn cfg o1 = .ok s → b.negOwn cfg o2 = .ok t → s.cmp t = b.cmp a) := by
  have hadd := fun {x y s : IBig} (o1 o2 : Own) (hx : x.WF cfg) (hy : y.WF cfg) h =>
    (IBin.ref hv .add o1 o2 hx hy).value (c := s) h
  have hsub := fun {x y s : IBig} (o1 o2 : Own) (hx : x.WF cfg) (hy : y.WF cfg) h =>
    (IBin.ref hv .sub o1 o2 hx hy).value (c := s) h
  have hmul := fun {x y s : IBig} (o1 o2 : Own) (hx : x.WF cfg) (hy : y.WF cfg) h =>
    (IBin.ref hv .mul o1 o2 hx hy).value (c := s) h
  have hneg := fun {x s : IBig} (o1 : Own) (hx : x.WF cfg) h =>
    (IUn.ref hv .neg o1 hx).value (c := s) h
  have hcmp := fun {x y : IBig} (hx : x.WF cfg) (hy : y.WF cfg) => IBig.cmp_spec hv hx hy
  have hcong : ∀ {p q r s : Int}, (p < q ↔ r < s) → (p = q ↔ r = s) → compare p q = compare r s := by
    intro p q r s h1 h2
    rcases lt_trichotomy p q with h | h | h
    · rw [compare_lt_iff_lt.mpr h, compare_lt_iff_lt.mpr (h1.mp h)]
    · rw [compare_eq_iff_eq.mpr h, compare_eq_iff_eq.mpr (h2.mp h)]
    · rw [compare_gt_iff_gt.mpr h, compare_gt_iff_gt.mpr (by omega)]
  refine ⟨?_, ?_, ?_, ?_, ?_, ?_, ?_, ?_, ?_, ?_⟩
  · rw [hcmp ha ha]; exact congrArg _ (compare_eq_iff_eq.mpr rfl)
  · rw [hcmp ha hb, IBig.beq_iff hv ha hb, Except.ok.injEq, compare_eq_iff_eq]
  · rw [hcmp ha hb, hcmp hb ha, Except.ok.injEq, Except.ok.injEq, compare_lt_iff_lt, compare_gt_iff_gt]
  · exact ⟨_, hcmp ha hb⟩
  · rw [hcmp ha hb, hcmp hb hc, hcmp ha hc]
    simp only [Except.ok.injEq, compare_lt_iff_lt]
    exact lt_trans
  · intro o1 o2 o3 o4 s t h1 h2
    obtain ⟨ws, hs⟩ := hadd o1 o2 ha hc h1
    obtain ⟨wt, ht⟩ := hadd o3 o4 hb hc h2
    rw [hcmp ws wt, hcmp ha hb, ← (limI_ok_iff.mp hs).1, ← (limI_ok_iff.mp ht).1]
    exact congrArg _ (hcong (by omega) (by omega))
  · intro o1 o2 o3 o4 s t h1 h2
    obtain ⟨ws, hs⟩ := hsub o1 o2 ha hc h1
    obtain ⟨wt, ht⟩ := hsub o3 o4 hb hc h2
    rw [hcmp ws wt, hcmp ha hb, ← (limI_ok_iff.mp hs).1, ← (limI_ok_iff.mp ht).1]
    exact congrArg _ (hcong (by omega) (by omega))
  · intro o1 o2 o3 o4 s t h1 h2
    obtain ⟨ws, hs⟩ := hsub o1 o2 ha hb h1
    obtain ⟨wt, ht⟩ := hsub o3 o4 hc hc h2
    rw [hcmp ws wt, hcmp ha hb, ← (limI_ok_iff.mp hs).1, ← (limI_ok_iff.mp ht).1]
    exact congrArg _ (hcong (by omega) (by omega))
  · intro o1 o2 o3 o4 o5 o6 s t z h1 h2 h3
    obtain ⟨ws, hs⟩ := hmul o1 o2 ha hc h1
    obtain ⟨wt, ht⟩ := hmul o3 o4 hb hc h2
    obtain ⟨wz, hz⟩ := hsub o5 o6 hc hc h3
    rw [hcmp ws wt, hcmp ha hb, hcmp hc wz, hcmp hb ha, ← (limI_ok_iff.mp hs).1, ← (limI_ok_iff.mp ht).1,
      ← (limI_ok_iff.mp hz).1, sub_self]
    simp only [Except.ok.injEq, compare_lt_iff_lt, compare_gt_iff_gt]
    constructor <;> intro h0
    · exact hcong (mul_lt_mul_iff_left₀ h0) (mul_left_inj' h0.ne')
    · exact hcong (mul_lt_mul_right_of_neg h0) ((mul_left_inj' h0.ne).trans eq_comm)
  · intro o1 o2 s t h1 h2
    obtain ⟨ws, hs⟩ := hneg o1 ha h1
    obtain ⟨wt, ht⟩ := hneg o2 hb h2
    have hs : (Except.ok (-a.value cfg) : R Int) = .ok (s.value cfg) := hs
    have ht : (Except.ok (-b.value cfg) : R Int) = .ok (t.value cfg) := ht
    rw [hcmp ws wt, hcmp hb ha, ← Except.ok.inj hs, ← Except.ok.inj ht]
    exact congrArg _ (hcong (by omega) (by omega))

/-- Negative and positive integers. -/
example := C70_order cfg64_valid exNegA_wf exNegB_wf exPosB_wf

end Ibig
