import Verif.Model.Serde
import Verif.Proofs.FmtNonPow2
import Verif.Proofs.FmtPow2
import Verif.Proofs.Parse
import Verif.Proofs.Number
import Verif.Proofs.Bytes
import Mathlib.Data.Nat.Digits.Defs
import Mathlib.Data.Nat.Digits.Lemmas
/-!
Lemmas about serialisation.
-/
namespace Ibig

theorem Cfg.Valid.wpu {cfg : Cfg} (hv : cfg.Valid) :
    wordsPerU64 cfg.W * cfg.W = 64 ∧ 1 ≤ wordsPerU64 cfg.W ∧ wordsPerU64 cfg.W ≤ 4 := by
  unfold wordsPerU64
  rcases hv.word with h | h | h <;> rw [h] <;> norm_num

theorem base64_eq : base 64 = 2 ^ 64 := base_eq 64

theorem val64_eq (l : List Nat) : val 64 l = Nat.ofDigits (2 ^ 64) l := by
  induction l with
  | nil => simp
  | cons x l ih => rw [val_cons, Nat.ofDigits_cons, ih, base64_eq]

theorem joinWords_spec {W K : Nat} (hK : K * W = 64) (hW : 1 ≤ W) {ws : List Nat} (hw : IsWords W ws) {i acc : Nat}
    (hi : i + ws.length ≤ K) (ha : acc < base W ^ i) :
    joinWords W i ws acc = .ok (acc + base W ^ i * val W ws) := by
  induction ws generalizing i acc with
  | nil => simp [joinWords]
  | cons w ws ih =>
    rw [isWords_cons] at hw
    simp only [List.length_cons] at hi
    have hlt : i * W < 64 := by
      have : (i + 1) * W ≤ K * W := Nat.mul_le_mul_right _ (by omega)
      rw [Nat.succ_mul] at this; omega
    have hb : base W ^ i = 2 ^ (i * W) := by rw [base_eq, ← pow_mul, Nat.mul_comm]
    have hle : w * 2 ^ (i * W) < base 64 := by
      rw [base64_eq]
      calc w * 2 ^ (i * W) < base W * 2 ^ (i * W) := Nat.mul_lt_mul_of_pos_right hw.1 (by positivity)
        _ = 2 ^ ((i + 1) * W) := by rw [base_eq, ← pow_add]; congr 1; ring
        _ ≤ 2 ^ 64 := Nat.pow_le_pow_right (by norm_num) (by rw [← hK]; exact Nat.mul_le_mul_right _ (by omega))
    simp only [joinWords, shlW, if_pos hlt, bind, Except.bind, Nat.mod_eq_of_lt hle]
    have e : acc ||| w * 2 ^ (i * W) = acc + base W ^ i * w := by
      rw [Nat.lor_comm, Nat.mul_comm, mul_pow_or (hb ▸ ha), hb, Nat.add_comm]
    rw [e, ih hw.2 (by omega), val_cons]
    · congr 1; ring
    · calc acc + base W ^ i * w < base W ^ i + base W ^ i * w := by omega
        _ = base W ^ i * (w + 1) := by ring
        _ ≤ base W ^ i * base W := Nat.mul_le_mul_left _ hw.1
        _ = base W ^ (i + 1) := (pow_succ ..).symm

theorem base_pow_wpu {W K : Nat} (hK : K * W = 64) : base W ^ K = base 64 := by
  rw [base_eq, base_eq, ← pow_mul, Nat.mul_comm, hK]

theorem joinChunks_spec {W K : Nat} (hK : K * W = 64) (hW : 1 ≤ W) (fuel : Nat) {l : List Nat} (hl : IsWords W l)
    (hf : l.length ≤ fuel) :
    Returns (joinChunks W (chunksFuel K fuel l)) fun xs => xs.length = (chunksFuel K fuel l).length ∧
      IsWords 64 xs ∧ val 64 xs = val W l ∧ (l ≠ [] → xs ≠ []) ∧
      (l.getLast? ≠ some 0 → xs.getLast? ≠ some 0) := by
  have hK1 : 1 ≤ K := by
    rcases Nat.eq_zero_or_pos K with h | h
    · rw [h] at hK; omega
    · exact h
  induction fuel generalizing l with
  | zero =>
    have : l = [] := List.length_eq_zero_iff.mp (by omega)
    subst this
    simp [chunksFuel, joinChunks]
  | succ fuel ih =>
    cases l with
    | nil => simp [chunksFuel, joinChunks]
    | cons w ws =>
      generalize hl' : w :: ws = l at *
      have hne : l ≠ [] := by rw [← hl']; simp
      have hc : chunksFuel K (fuel + 1) l = l.take K :: chunksFuel K fuel (l.drop K) := by
        rw [← hl']; rfl
      rw [hc]
      simp only [joinChunks]
      rw [joinWords_spec hK hW (hl.take K) (by simp) (by simp)]
      simp only [bind, Except.bind]
      obtain ⟨xs, e, h1, h2, h3, h4, h5⟩ := ih (l := l.drop K) (hl.drop K) (by rw [List.length_drop]; omega)
      rw [e]
      simp only [returns_ok, pow_zero, zero_add, one_mul]
      have hx : val W (l.take K) < base 64 := by
        rw [← base_pow_wpu hK]
        exact lt_of_lt_of_le (val_lt (hl.take K)) (Nat.pow_le_pow_right (base_pos W) (by simp))
      have hsplit : val W l = val W (l.take K) + base W ^ (l.take K).length * val W (l.drop K) := by
        rw [← val_append, List.take_append_drop]
      refine ⟨by simp [h1], by rw [isWords_cons]; exact ⟨hx, h2⟩, ?_, by simp, ?_⟩
      · rw [val_cons, h3, hsplit]
        rcases Nat.lt_or_ge K l.length with h | h
        · rw [List.length_take, Nat.min_eq_left (by omega), base_pow_wpu hK]
        · rw [List.drop_eq_nil_of_le h]; simp
      · intro ht
        rcases Nat.lt_or_ge K l.length with h | h
        · have hd : l.drop K ≠ [] := by simp; omega
          have hxs := h4 hd
          have : (l.drop K).getLast? = l.getLast? := by
            rw [List.getLast?_drop, if_neg (by omega)]
          obtain ⟨y, ys, rfl⟩ := List.exists_cons_of_ne_nil hxs
          rw [List.getLast?_cons_cons]
          exact h5 (this ▸ ht)
        · have hd : l.drop K = [] := List.drop_eq_nil_of_le h
          have hxs : xs = [] := by
            rw [hd] at h1
            cases fuel <;> exact List.length_eq_zero_iff.mp h1
          have hv := val_top_ge (W := W) hne ht
          have := base_pow_pos W (l.length - 1)
          subst hxs
          rw [List.take_of_length_le h]
          simp; omega

theorem UBig.serialize_spec {cfg : Cfg} (hv : cfg.Valid) {x : UBig} (hx : x.WF cfg) :
    x.serialize cfg = .ok ((Nat.digits (2 ^ 64) (x.value cfg)).length, Nat.digits (2 ^ 64) (x.value cfg)) := by
  obtain ⟨h1, h2, h3⟩ := asWords_spec hx
  obtain ⟨xs, e, g1, g2, g3, -, g5⟩ := joinChunks_spec hv.wpu.1 hv.W1 x.asWords.length h1 le_rfl
  have : Nat.digits (2 ^ 64) (x.value cfg) = xs := by
    rw [← h2, ← g3, val64_eq]
    refine Nat.digits_ofDigits _ (by norm_num) _ (fun l hl => base64_eq ▸ g2 l hl) (fun h e => ?_)
    exact g5 h3 (by rw [List.getLast?_eq_some_getLast h, e])
  rw [this]
  simp only [UBig.serialize, e, bind, Except.bind, g1]

/-! ### Deserialisation -/

theorem pushWord64_spec {cfg : Cfg} (hv : cfg.Valid) {x : Nat} (hx : x < 2 ^ 64) (k : Nat) {i : Nat}
    (hi : i + k = wordsPerU64 cfg.W) {b : Buffer} (hb : b.OK cfg) (hc : b.words.length + k ≤ b.cap) :
    Returns (pushWord64 cfg.W x i k b) fun c => c.OK cfg ∧ c.cap = b.cap ∧
      ∃ l, c.words = b.words ++ l ∧ l.length = k ∧ val cfg.W l = x / 2 ^ (i * cfg.W) := by
  obtain ⟨hK, -, -⟩ := hv.wpu
  induction k generalizing i b with
  | zero =>
    simp only [pushWord64]
    rw [returns_ok]
    refine ⟨hb, rfl, [], by simp, rfl, ?_⟩
    rw [val_nil, show i = wordsPerU64 cfg.W by omega, hK, Nat.div_eq_of_lt hx]
  | succ k ih =>
    simp only [pushWord64]
    have hlt : i * cfg.W < 64 := by
      have : (i + 1) * cfg.W ≤ wordsPerU64 cfg.W * cfg.W := Nat.mul_le_mul_right _ (by omega)
      rw [Nat.succ_mul] at this
      have := hv.W1
      omega
    rw [shrW_ok hlt]
    simp only [bind, Except.bind]
    refine Returns.bind (Buffer.push_spec hb (Nat.mod_lt _ (base_pos _)) (by omega)) ?_
    rintro c ⟨h1, h2, h3⟩
    refine (ih (i := i + 1) (by omega) h1 (by rw [h2, h3]; simp; omega)).mono ?_
    rintro d ⟨g1, g2, l, g3, g4, g5⟩
    refine ⟨g1, by rw [g2, h3], (x / 2 ^ (i * cfg.W) % base cfg.W) :: l, by rw [g3, h2]; simp, by simp [g4], ?_⟩
    rw [val_cons, g5, show (i + 1) * cfg.W = i * cfg.W + cfg.W by ring, pow_add, ← Nat.div_div_eq_div_mul,
      ← base_eq cfg.W, Nat.mod_add_div]

theorem pushAll64_spec {cfg : Cfg} (hv : cfg.Valid) {es : List Nat} (hes : ∀ e ∈ es, e < 2 ^ 64) {b : Buffer}
    (hb : b.OK cfg) (hc : b.words.length + es.length * wordsPerU64 cfg.W ≤ b.cap) :
    Returns (pushAll64 cfg.W es b) fun c => c.OK cfg ∧
      ∃ l, c.words = b.words ++ l ∧ val cfg.W l = Nat.ofDigits (2 ^ 64) es := by
  obtain ⟨hK, -, -⟩ := hv.wpu
  induction es generalizing b with
  | nil => simpa [pushAll64] using hb
  | cons x es ih =>
    simp only [List.mem_cons, forall_eq_or_imp] at hes
    rw [List.length_cons, Nat.succ_mul] at hc
    simp only [pushAll64]
    refine Returns.bind (pushWord64_spec hv hes.1 _ (Nat.zero_add _) hb (by omega)) ?_
    rintro c ⟨h1, h2, l, h3, h4, h5⟩
    refine (ih hes.2 h1 (by rw [h3, h2, List.length_append]; omega)).mono ?_
    rintro d ⟨g1, l', g2, g3⟩
    refine ⟨g1, l ++ l', by rw [g2, h3]; simp, ?_⟩
    rw [val_append, g3, h5, h4, base_pow_wpu hK, Nat.ofDigits_cons, base64_eq]; simp

theorem takeAll64_eq (W : Nat) (es : List Nat) (b : Buffer) :
    takeAll64 W es.length es b = (do let c ← pushAll64 W es b; .ok (c, [])) := by
  induction es generalizing b with
  | nil => rfl
  | cons x es ih =>
    simp only [List.length_cons, takeAll64, pushAll64]
    cases pushWord64 W x 0 (wordsPerU64 W) b with
    | error p => rfl
    | ok c => simp only [bind, Except.bind]; rw [ih]; rfl

/-- Too few elements. -/
theorem takeAll64_short (W : Nat) {n : Nat} {es : List Nat} (h : es.length < n) (b : Buffer) :
    ∃ p, takeAll64 W n es b = .error p := by
  induction es generalizing b n with
  | nil =>
    obtain ⟨n, rfl⟩ : ∃ m, n = m + 1 := ⟨n - 1, by simp at h; omega⟩
    exact ⟨_, rfl⟩
  | cons x es ih =>
    obtain ⟨n, rfl⟩ : ∃ m, n = m + 1 := ⟨n - 1, by simp at h; omega⟩
    simp only [takeAll64]
    cases pushWord64 W x 0 (wordsPerU64 W) b with
    | error p => exact ⟨p, rfl⟩
    | ok c => simp only [bind, Except.bind]; exact ih (by simpa using h) c

/-- Too many elements: something is left. -/
theorem takeAll64_long (W : Nat) {n : Nat} {es : List Nat} (h : n < es.length) (b c : Buffer) {rest : List Nat}
    (e : takeAll64 W n es b = .ok (c, rest)) : rest ≠ [] := by
  induction n generalizing b es with
  | zero =>
    simp only [takeAll64, Except.ok.injEq, Prod.mk.injEq] at e
    rw [← e.2]; intro h'; rw [h'] at h; simp at h
  | succ n ih =>
    cases es with
    | nil => simp at h
    | cons x es =>
      simp only [takeAll64] at e
      cases hp : pushWord64 W x 0 (wordsPerU64 W) b with
      | error p => rw [hp] at e; cases e
      | ok d => rw [hp] at e; simp only [bind, Except.bind] at e; exact ih (by simpa using h) d e

/-- The unannounced sequence. -/
theorem UBig.deserialize_none {cfg : Cfg} (hv : cfg.Valid) {es : List Nat} (hes : ∀ e ∈ es, e < 2 ^ 64) :
    (es.length * wordsPerU64 cfg.W ≤ cfg.maxLen + 4 →
      Yields cfg (UBig.deserialize cfg none es) (Nat.ofDigits (2 ^ 64) es)) ∧
    (cfg.maxLen + 4 < es.length * wordsPerU64 cfg.W → UBig.deserialize cfg none es = .error .tooLarge) := by
  have hU : cfg.maxLen + 4 < 2 ^ cfg.U := by
    have := hv.bits; have := hv.W16; have := hv.large
    have : cfg.maxLen * 16 ≤ cfg.maxLen * cfg.W := Nat.mul_le_mul_left _ hv.W16
    omega
  refine ⟨fun h => ?_, fun h => ?_⟩
  · simp only [UBig.deserialize, len64ToMaxLen, if_pos (lt_of_le_of_lt h hU), bind, Except.bind,
      Buffer.allocate_ok h]
    refine Yields.of_bind (pushAll64_spec hv hes ⟨by simp [IsWords], by simp⟩ ?_) ?_
    · simpa using le_allocCap h
    · rintro c ⟨h1, l, h2, h3⟩
      exact yields_ofBuffer hv h1 (by rw [h2]; simpa using h3)
  · simp only [UBig.deserialize, len64ToMaxLen]
    split
    · simp only [bind, Except.bind, Buffer.allocate_err h]
    · rfl

theorem UBig.deserialize_some {cfg : Cfg} (hv : cfg.Valid) {es : List Nat} (hes : ∀ e ∈ es, e < 2 ^ 64) :
    (es.length * wordsPerU64 cfg.W ≤ cfg.maxLen + 4 →
      Yields cfg (UBig.deserialize cfg (some es.length) es) (Nat.ofDigits (2 ^ 64) es)) ∧
    (cfg.maxLen + 4 < es.length * wordsPerU64 cfg.W →
      UBig.deserialize cfg (some es.length) es = .error .tooLarge) := by
  have hl := hv.large
  have hw := hv.wpu.2.2
  match es, hes with
  | [], hes =>
    simp only [List.length_nil, zero_mul, Nat.not_lt_zero, false_implies, and_true]
    intro _
    exact yields_small hv (base_pos _)
  | [x], hes =>
    simp only [List.length_cons, List.length_nil, zero_add, one_mul]
    refine ⟨fun _ => ?_, fun h => by omega⟩
    have := (UBig.fromUnsigned_spec hv (bits := 64) (x := x) rfl (by norm_num) (hes x (by simp))).1
    simpa [UBig.deserialize, assertR, Nat.ofDigits, bind, Except.bind] using this
  | x :: y :: es, hes =>
    have key : UBig.deserialize cfg (some (x :: y :: es).length) (x :: y :: es)
        = UBig.deserialize cfg none (x :: y :: es) := by
      simp only [UBig.deserialize, List.length_cons]
      rw [show es.length + 1 + 1 = (x :: y :: es).length from rfl, ]
      cases len64ToMaxLen cfg (x :: y :: es).length with
      | error p => rfl
      | ok m =>
        simp only [bind, Except.bind]
        cases Buffer.allocate cfg m with
        | error p => rfl
        | ok b =>
          simp only
          rw [takeAll64_eq]
          cases pushAll64 cfg.W (x :: y :: es) b with
          | error p => rfl
          | ok c => simp [bind, Except.bind, assertR]
    rw [key]
    exact UBig.deserialize_none hv hes

/-- A wrong announcement is never accepted. -/
theorem UBig.deserialize_lie (cfg : Cfg) {n : Nat} {es : List Nat} (h : n ≠ es.length) :
    ∃ p, UBig.deserialize cfg (some n) es = .error p := by
  match n with
  | 0 =>
    cases es with
    | nil => simp at h
    | cons x es => exact ⟨_, rfl⟩
  | 1 =>
    match es with
    | [] => exact ⟨_, rfl⟩
    | [x] => simp at h
    | x :: y :: es => exact ⟨_, rfl⟩
  | n + 2 =>
    simp only [UBig.deserialize]
    cases len64ToMaxLen cfg (n + 2) with
    | error p => exact ⟨p, rfl⟩
    | ok m =>
      simp only [bind, Except.bind]
      cases Buffer.allocate cfg m with
      | error p => exact ⟨p, rfl⟩
      | ok b =>
        simp only
        rcases Nat.lt_or_gt_of_ne h with h | h
        · cases e : takeAll64 cfg.W (n + 2) es b with
          | error p => exact ⟨p, rfl⟩
          | ok c =>
            obtain ⟨c, rest⟩ := c
            have := takeAll64_long _ h b c e
            exact ⟨.assertFailed, by simp [assertR, this]⟩
        · obtain ⟨p, e⟩ := takeAll64_short cfg.W h b
          rw [e]; exact ⟨p, rfl⟩

/-- The size limit in terms of the elements. -/
theorem digits64_len {cfg : Cfg} (hv : cfg.Valid) {n : Nat} (h : Fits cfg n) :
    (Nat.digits (2 ^ 64) n).length * wordsPerU64 cfg.W ≤ cfg.maxLen + 4 := by
  obtain ⟨hK, h1, h4⟩ := hv.wpu
  rcases Nat.eq_zero_or_pos n with rfl | hn
  · simp
  have hb : (2 ^ 64) ^ ((Nat.digits (2 ^ 64) n).length - 1) ≤ n := by
    have hne : Nat.digits (2 ^ 64) n ≠ [] := Nat.digits_ne_nil_iff_ne_zero.mpr (by omega)
    have := Nat.lt_digits_length_iff (b := 2 ^ 64) (by norm_num) (k := (Nat.digits (2 ^ 64) n).length - 1) n
    rw [← this]
    have := List.length_pos_iff.mpr hne
    omega
  generalize (Nat.digits (2 ^ 64) n).length = k at *
  rw [← pow_mul, ← hK] at hb
  have h2 : wordsPerU64 cfg.W * cfg.W * (k - 1) < cfg.maxLen * cfg.W :=
    (Nat.pow_lt_pow_iff_right (by norm_num : 1 < 2)).mp (lt_of_le_of_lt hb h)
  have h3 : (k - 1) * wordsPerU64 cfg.W < cfg.maxLen := by
    refine Nat.lt_of_mul_lt_mul_right (a := cfg.W) (lt_of_eq_of_lt ?_ h2); ring
  rcases k with _ | k
  · simp
  · rw [Nat.succ_mul]; simp only [Nat.add_sub_cancel] at h3; omega

theorem UBig.deserialize_spec {cfg : Cfg} (hv : cfg.Valid) (n : Nat) {hint : Option Nat}
    (hh : hint = none ∨ hint = some (Nat.digits (2 ^ 64) n).length) :
    Yields cfg (UBig.deserialize cfg hint (Nat.digits (2 ^ 64) n)) n := by
  have hes : ∀ e ∈ Nat.digits (2 ^ 64) n, e < 2 ^ 64 := fun e he => Nat.digits_lt_base (by norm_num) he
  have key : ∀ x, ((Nat.digits (2 ^ 64) n).length * wordsPerU64 cfg.W ≤ cfg.maxLen + 4 →
      Yields cfg x (Nat.ofDigits (2 ^ 64) (Nat.digits (2 ^ 64) n))) ∧
      (cfg.maxLen + 4 < (Nat.digits (2 ^ 64) n).length * wordsPerU64 cfg.W → x = .error .tooLarge) →
      Yields cfg x n := by
    rintro x ⟨h1, h2⟩
    rw [Nat.ofDigits_digits] at h1
    refine ⟨fun h => (h1 (digits64_len hv h)).1 h, fun h => ?_⟩
    rcases Nat.lt_or_ge (cfg.maxLen + 4) ((Nat.digits (2 ^ 64) n).length * wordsPerU64 cfg.W) with g | g
    · exact h2 g
    · exact (h1 g).2 h
  rcases hh with rfl | rfl
  · exact key _ (UBig.deserialize_none hv hes)
  · exact key _ (UBig.deserialize_some hv hes)

end Ibig
