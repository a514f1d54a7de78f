import Verif.Spec.Address
import Verif.Proofs.ModularPow
namespace Ibig

/-! ### Bytes and words -/

theorem val_digits (v s : Nat) : val 8 ((List.range s).map fun j => v / 256 ^ j % 256) = v % 256 ^ s := by
  induction s with
  | zero => simp [Nat.mod_one]
  | succ s ih =>
    rw [List.range_succ, List.map_append, val_append, ih]
    simp only [List.map_cons, List.map_nil, val_cons, val_nil, List.length_map, List.length_range]
    have e : base 8 = 256 := rfl
    rw [e, pow_succ, Nat.mod_mul]
    ring

theorem mapM_some {f : Nat → Option Nat} {g : Nat → Nat} : ∀ {l : List Nat}, (∀ j ∈ l, f j = some (g j)) →
    l.mapM f = some (l.map g)
  | [], _ => rfl
  | x :: l, h => by
    rw [List.mapM_cons, h x (by simp), mapM_some fun j hj => h j (by simp [hj])]
    rfl

theorem mapM_congr' {f g : Nat → Option Nat} : ∀ {l : List Nat}, (∀ j ∈ l, f j = g j) →
    l.mapM f = l.mapM g
  | [], _ => rfl
  | x :: l, h => by
    rw [List.mapM_cons, List.mapM_cons, h x (by simp), mapM_congr' fun j hj => h j (by simp [hj])]

theorem Target.load_congr {t : Target} {m m' : Bytes} {p : Nat}
    (h : ∀ a, p ≤ a → a < p + t.size → m' a = m a) : t.load m' p = t.load m p := by
  unfold Target.load
  rw [mapM_congr' (g := fun j => m (p + j))]
  intro j hj
  rw [List.mem_range] at hj
  exact h _ (by omega) (by omega)

theorem Target.OK.pow {t : Target} (ht : t.OK) : 256 ^ t.size = base t.cfg.W := by
  have h256 : 256 = 2 ^ 8 := by norm_num
  unfold Target.size base
  rw [h256, ← pow_mul]
  congr 1
  rcases ht.valid.word with h | h | h <;> rw [h]

theorem Target.OK.size_pos {t : Target} (ht : t.OK) : 0 < t.size := by
  unfold Target.size
  rcases ht.valid.word with h | h | h <;> rw [h] <;> norm_num

theorem Target.load_store {t : Target} (ht : t.OK) (m : Bytes) (p : Nat) {v : Nat}
    (hv : v < base t.cfg.W) : t.load (t.store m p v) p = some v := by
  unfold Target.load
  rw [mapM_some (g := t.byteOf v)]
  · show some _ = some _
    congr 1
    have key : (if t.be = true then ((List.range t.size).map (t.byteOf v)).reverse
        else (List.range t.size).map (t.byteOf v)) = (List.range t.size).map fun j => v / 256 ^ j % 256 := by
      cases hb : t.be with
      | false => simp [Target.byteOf, hb]
      | true =>
        rw [if_pos rfl]
        apply List.ext_getElem (by simp)
        intro i h1 h2
        simp only [List.length_reverse, List.length_map, List.length_range] at h1
        rw [List.getElem_reverse]
        simp only [List.getElem_map, List.getElem_range, Target.byteOf, hb, if_true, List.length_map,
          List.length_range]
        congr 3
        omega
    rw [key, val_digits, ht.pow, Nat.mod_eq_of_lt hv]
  · intro j hj
    rw [List.mem_range] at hj
    unfold Target.store
    rw [if_pos (by omega)]
    congr 2
    omega

theorem Target.load_store_of_disjoint {t : Target} (m : Bytes) {p q : Nat} (v : Nat)
    (h : q + t.size ≤ p ∨ p + t.size ≤ q) : t.load (t.store m p v) q = t.load m q := by
  apply Target.load_congr
  intro a h1 h2
  unfold Target.store
  rw [if_neg (by omega)]

/-- The words of `l` are in memory at address `p`. -/
def Target.Holds (t : Target) (m : Bytes) (p : Nat) (l : List Nat) : Prop :=
  ∀ i (h : i < l.length), t.load m (p + i * t.size) = some l[i]

theorem Target.Holds.congr {t : Target} {m m' : Bytes} {p : Nat} {l : List Nat} (h : t.Holds m p l)
    (hm : ∀ a, p ≤ a → a < p + l.length * t.size → m' a = m a) : t.Holds m' p l := by
  intro i hi
  rw [← h i hi]
  apply Target.load_congr
  intro a h1 h2
  have : (i + 1) * t.size ≤ l.length * t.size := Nat.mul_le_mul_right _ hi
  rw [Nat.add_mul, Nat.one_mul] at this
  exact hm a (by omega) (by omega)

theorem Target.Holds.append {t : Target} {m : Bytes} {p : Nat} {l l' : List Nat} (h : t.Holds m p l)
    (h' : t.Holds m (p + l.length * t.size) l') : t.Holds m p (l ++ l') := by
  intro i hi
  rw [List.length_append] at hi
  by_cases hl : i < l.length
  · rw [List.getElem_append_left hl]; exact h i hl
  · rw [List.getElem_append_right (by omega)]
    have := h' (i - l.length) (by omega)
    rw [← this, Nat.add_assoc, ← Nat.add_mul]
    congr 3
    omega

/-! ### Writing a slice -/

theorem requireR_true {p : Prop} [Decidable p] (h : p) : requireR p = .ok () := by
  unfold requireR; rw [if_pos h]

theorem writeFrom_spec {t : Target} (ht : t.OK) {A : MemoryAllocation} {ptr : Nat}
    (hA : A.layout.size ≤ t.isizeMax) (h0 : A.start ≤ ptr) (hal : t.align ∣ ptr) :
    ∀ {vs : List Nat} {m : Bytes} {i : Nat}, IsWords t.cfg.W vs → ptr + (i + vs.length) * t.size ≤ A.stop →
    ∃ m', writeFrom t A ptr m i vs = .ok m' ∧ t.Holds m' (ptr + i * t.size) vs ∧
      ∀ a, a < ptr + i * t.size ∨ ptr + (i + vs.length) * t.size ≤ a → m' a = m a := by
  intro vs
  induction vs with
  | nil =>
    intro m i _ _
    exact ⟨m, rfl, fun i hi => absurd hi (by simp), fun _ _ => rfl⟩
  | cons v vs ih =>
    intro m i hw hs
    have hv : v < base t.cfg.W := (isWords_cons.mp hw).1
    have hws : IsWords t.cfg.W vs := (isWords_cons.mp hw).2
    have hsz := ht.size_pos
    rw [List.length_cons] at hs ⊢
    have e1 : (i + (vs.length + 1)) * t.size = i * t.size + t.size + vs.length * t.size := by ring
    have e2 : (i + 1 + vs.length) * t.size = i * t.size + t.size + vs.length * t.size := by ring
    have e3 : (i + 1) * t.size = i * t.size + t.size := by ring
    have hstop : A.stop = A.start + A.layout.size := rfl
    rw [e1] at hs ⊢
    obtain ⟨m', g1, g2, g3⟩ := ih (m := t.store m (ptr + i * t.size) v) (i := i + 1) hws (by rw [e2]; omega)
    rw [e2] at g3
    rw [e3] at g2 g3
    refine ⟨m', ?_, ?_, ?_⟩
    · have hp : t.align ∣ ptr + i * t.size := (Nat.dvd_add_right hal).mpr (Dvd.dvd.mul_left ht.dvd _)
      have s1 : ptrAdd t A ptr i = .ok (ptr + i * t.size) := by
        unfold ptrAdd
        rw [requireR_true ⟨by omega, by omega, by omega⟩]
        rfl
      have s2 : ptrWrite t A m (ptr + i * t.size) v = .ok (t.store m (ptr + i * t.size) v) := by
        unfold ptrWrite
        rw [requireR_true ⟨Nat.mod_eq_zero_of_dvd hp, by omega, by omega⟩]
        rfl
      unfold writeFrom
      rw [s1]
      show (ptrWrite t A m (ptr + i * t.size) v >>= fun m => writeFrom t A ptr m (i + 1) vs) = _
      rw [s2]
      exact g1
    · intro j hj
      cases j with
      | zero =>
        simp only [Nat.zero_mul, Nat.add_zero, List.getElem_cons_zero]
        rw [← Target.load_store ht m (ptr + i * t.size) hv]
        apply Target.load_congr
        intro a h1 h2
        exact g3 a (by omega)
      | succ j =>
        rw [List.getElem_cons_succ, ← g2 j (by simpa using hj)]
        congr 1
        ring
    · intro a ha
      rw [g3 a (by omega)]
      unfold Target.store
      rw [if_neg (by omega)]

/-! ### Allocating a slice -/

theorem padding_zero {t : Target} (ht : t.OK) {x : Nat} (hx : t.align ∣ x) (hlt : x < 2 ^ t.cfg.U) :
    (2 ^ t.cfg.U - x) % 2 ^ t.cfg.U &&& (t.align - 1) = 0 := by
  obtain ⟨k, hk⟩ := ht.align
  have hsz : t.align ≤ t.size := Nat.le_of_dvd ht.size_pos ht.dvd
  have hkU : k ≤ t.cfg.U := by
    have h3 : 2 ^ k ≤ 2 ^ 3 := by
      rw [← hk]
      unfold Target.size at hsz
      rcases ht.valid.word with h | h | h <;> rw [h] at hsz <;> norm_num at hsz ⊢ <;> omega
    have := (Nat.pow_le_pow_iff_right (by norm_num : 1 < 2)).mp h3
    rcases ht.valid.usize with h | h | h <;> omega
  have hU : 2 ^ k ∣ 2 ^ t.cfg.U := pow_dvd_pow 2 hkU
  rw [hk, Nat.and_two_pow_sub_one_eq_mod, Nat.mod_mod_of_dvd _ hU]
  rw [hk] at hx
  exact Nat.mod_eq_zero_of_dvd (Nat.dvd_sub hU hx)

theorem tryFind_aligned {t : Target} (ht : t.OK) {c : Chunk} {n : Nat} (hc : t.align ∣ c.start)
    (h1 : c.start ≤ c.stop) (h2 : c.stop < 2 ^ t.cfg.U) :
    tryFind t c n = if c.start + n * t.size ≤ c.stop then some (c.start, c.start + n * t.size) else none := by
  unfold tryFind
  rw [padding_zero ht hc (by omega)]
  simp only [Nat.add_zero]
  split_ifs <;> first | rfl | omega

/-- Layout, address and room of an allocation of `room` words from which slices can be allocated. -/
structure MemoryAllocation.Good (t : Target) (A : MemoryAllocation) (room : Nat) : Prop where
  size : A.layout.size = room * t.size
  small : A.layout.size ≤ t.isizeMax
  pos : A.start ≠ 0
  al : t.align ∣ A.start
  stop : A.stop < 2 ^ t.cfg.U

/-- The state represents the stack of lists. -/
def Scratch.Rep (t : Target) (A : MemoryAllocation) (m : Bytes) : List (Slice × Chunk) → List (List Nat) → Prop
  | [], [] => True
  | (s, c) :: fs, l :: ls =>
    s.ptr = A.start + (ls.map List.length).sum * t.size ∧ s.len = l.length ∧
    c.start = A.start + ((l :: ls).map List.length).sum * t.size ∧ c.stop = A.stop ∧
    IsWords t.cfg.W l ∧ t.Holds m s.ptr l ∧ Scratch.Rep t A m fs ls
  | _, _ => False

theorem Scratch.Rep.congr {t : Target} {A : MemoryAllocation} {m m' : Bytes} :
    ∀ {fs : List (Slice × Chunk)} {ls : List (List Nat)}, Scratch.Rep t A m fs ls →
    (∀ a, A.start ≤ a → a < A.start + (ls.map List.length).sum * t.size → m' a = m a) →
    Scratch.Rep t A m' fs ls
  | [], [], _, _ => trivial
  | [], _ :: _, h, _ => h.elim
  | _ :: _, [], h, _ => h.elim
  | (s, c) :: fs, l :: ls, h, hm => by
    obtain ⟨h1, h2, h3, h4, h5, h6, h7⟩ := h
    simp only [List.map_cons, List.sum_cons, Nat.add_mul] at hm
    refine ⟨h1, h2, h3, h4, h5, h6.congr ?_, h7.congr ?_⟩
    · intro a g1 g2
      exact hm a (by omega) (by omega)
    · intro a g1 g2
      exact hm a g1 (by omega)

theorem Scratch.Rep.live {t : Target} {A : MemoryAllocation} {m : Bytes} {p n : Nat} :
    ∀ {fs : List (Slice × Chunk)} {ls : List (List Nat)}, Scratch.Rep t A m fs ls →
    A.start + (ls.map List.length).sum * t.size ≤ p →
    ∀ s ∈ fs.map Prod.fst, s.Disjoint t ⟨p, n⟩
  | [], [], _, _ => by simp
  | [], _ :: _, h, _ => h.elim
  | _ :: _, [], h, _ => h.elim
  | (s, c) :: fs, l :: ls, h, hp => by
    obtain ⟨h1, h2, h3, h4, h5, h6, h7⟩ := h
    simp only [List.map_cons, List.sum_cons, Nat.add_mul] at hp
    intro x hx
    simp only [List.map_cons, List.mem_cons] at hx
    rcases hx with rfl | hx
    · unfold Slice.Disjoint
      rw [h2]
      simp only
      omega
    · exact h7.live (by omega) x hx

theorem Scratch.Rep.chunk {t : Target} {A : MemoryAllocation} {room : Nat} (hA : A.Good t room) {s : Scratch}
    {ls : List (List Nat)} (h : Scratch.Rep t A s.bytes s.frames ls) :
    (s.chunk t A).start = A.start + (ls.map List.length).sum * t.size ∧ (s.chunk t A).stop = A.stop := by
  obtain ⟨m, fs⟩ := s
  match fs, ls, h with
  | [], [], _ =>
    unfold Scratch.chunk MemoryAllocation.memory
    have := hA.stop
    unfold MemoryAllocation.stop at this ⊢
    simp [Nat.mod_eq_of_lt this]
  | (sl, c) :: fs, l :: ls, h =>
    obtain ⟨h1, h2, h3, h4, h5, h6, h7⟩ := h
    exact ⟨h3, h4⟩

theorem Scratch.Rep.sum_le {t : Target} (ht : t.OK) {A : MemoryAllocation} {room : Nat} (hA : A.Good t room)
    {m : Bytes} : ∀ {fs : List (Slice × Chunk)} {ls : List (List Nat)}, Scratch.Rep t A m fs ls →
    (∀ f ∈ fs, f.2.start ≤ f.2.stop) → (ls.map List.length).sum ≤ room
  | [], [], _, _ => by simp
  | [], _ :: _, h, _ => h.elim
  | _ :: _, [], h, _ => h.elim
  | (s, c) :: fs, l :: ls, h, hf => by
    obtain ⟨h1, h2, h3, h4, h5, h6, h7⟩ := h
    have := hf (s, c) (by simp)
    simp only at this
    rw [h3, h4] at this
    unfold MemoryAllocation.stop at this
    rw [hA.size] at this
    exact Nat.le_of_mul_le_mul_right (by omega) ht.size_pos

theorem isWords_replicate {W n x : Nat} (h : x < base W) : IsWords W (List.replicate n x) := by
  intro w hw
  rw [List.eq_of_mem_replicate hw]
  exact h

/-- `Scratch.alloc` does what `pureAlloc` does. -/
theorem Scratch.alloc_spec {t : Target} (ht : t.OK) {A : MemoryAllocation} {room : Nat} (hA : A.Good t room)
    {s : Scratch} {ls : List (List Nat)} (h : Scratch.Rep t A s.bytes s.frames ls)
    (hf : ∀ f ∈ s.frames, f.2.start ≤ f.2.stop) {n : Nat} {first second : List Nat}
    (w1 : IsWords t.cfg.W first) (w2 : IsWords t.cfg.W second) (hn : n = (first ++ second).length) :
    match pureAlloc room true ls (first ++ second) with
    | .error p => s.alloc t A n first second = .error (.panic p)
    | .ok (ls', o) => ∃ s', s.alloc t A n first second = .ok (s', o) ∧
        Scratch.Rep t A s'.bytes s'.frames ls' ∧ ∀ f ∈ s'.frames, f.2.start ≤ f.2.stop := by
  obtain ⟨c1, c2⟩ := h.chunk hA
  have hsum := h.sum_le ht hA hf
  have hsz := ht.size_pos
  have hstop : A.stop = A.start + room * t.size := by unfold MemoryAllocation.stop; rw [hA.size]
  have hmul : (ls.map List.length).sum * t.size ≤ room * t.size := Nat.mul_le_mul_right _ hsum
  have hal : t.align ∣ A.start + (ls.map List.length).sum * t.size :=
    (Nat.dvd_add_right hA.al).mpr (Dvd.dvd.mul_left ht.dvd _)
  have hfind : tryFind t (s.chunk t A) n =
      if (ls.map List.length).sum + n ≤ room then
        some (A.start + (ls.map List.length).sum * t.size,
          A.start + (ls.map List.length).sum * t.size + n * t.size) else none := by
    rw [tryFind_aligned ht (by rw [c1]; exact hal) (by rw [c1, c2]; omega) (by rw [c2]; exact hA.stop), c1, c2,
      hstop]
    have : (ls.map List.length).sum + n ≤ room ↔
        A.start + (ls.map List.length).sum * t.size + n * t.size ≤ A.start + room * t.size := by
      rw [Nat.add_assoc, ← Nat.add_mul, Nat.add_le_add_iff_left]
      exact ⟨fun h => Nat.mul_le_mul_right _ h, fun h => Nat.le_of_mul_le_mul_right h hsz⟩
    simp only [this]
  unfold Scratch.alloc allocateSlice
  rw [hfind]
  unfold pureAlloc
  rw [← hn]
  by_cases hroom : (ls.map List.length).sum + n ≤ room
  · rw [if_pos hroom, if_pos ⟨rfl, hroom⟩]
    generalize hp : A.start + (ls.map List.length).sum * t.size = p at *
    rw [List.length_append] at hn
    have hroom' : (ls.map List.length).sum * t.size + n * t.size ≤ room * t.size := by
      rw [← Nat.add_mul]; exact Nat.mul_le_mul_right _ hroom
    have e12 : n * t.size = first.length * t.size + second.length * t.size := by rw [hn]; ring
    obtain ⟨m1, g1, g2, g3⟩ := writeFrom_spec ht hA.small (ptr := p) (by omega) hal (vs := first)
      (m := s.bytes) (i := 0) w1 (by rw [Nat.zero_add]; omega)
    obtain ⟨m2, k1, k2, k3⟩ := writeFrom_spec ht hA.small (ptr := p) (by omega) hal (vs := second)
      (m := m1) (i := first.length) w2 (by rw [Nat.add_mul]; omega)
    simp only [Nat.zero_mul, Nat.add_zero, Nat.zero_add] at g2 g3
    rw [Nat.add_mul] at k3
    have holds : t.Holds m2 p (first ++ second) :=
      (g2.congr (fun a h1 h2 => k3 a (by omega))).append k2
    have outside : ∀ a, a < p → m2 a = s.bytes a := by
      intro a ha
      rw [k3 a (by omega), g3 a (by omega)]
    have hslice : fromRawPartsMut t A m2 s.live p n = .ok ⟨p, n⟩ := by
      unfold fromRawPartsMut
      have hpos := hA.pos
      have hsm := hA.small
      rw [hA.size] at hsm
      rw [requireR_true ⟨by omega, Nat.mod_eq_zero_of_dvd hal, by omega⟩,
        requireR_true (Or.inr ⟨by omega, by omega⟩)]
      show (requireR _ >>= fun _ => _) = _
      rw [requireR_true]
      · show (requireR _ >>= fun _ => _) = _
        rw [requireR_true]
        · rfl
        · exact h.live (by omega)
      · intro i hi
        rw [List.mem_range] at hi
        rw [holds i (by rw [List.length_append]; omega)]
        rfl
    refine ⟨⟨m2, (⟨p, n⟩, ⟨p + n * t.size, A.stop⟩) :: s.frames⟩, ?_, ?_, ?_⟩
    · simp only [g1, k1, hslice, c2, bind, Except.bind]
    · refine ⟨hp.symm, by rw [List.length_append]; exact hn, ?_, rfl, ?_, holds, ?_⟩
      · simp only [List.map_cons, List.sum_cons, List.length_append]
        rw [Nat.add_mul, Nat.add_mul]; omega
      · exact isWords_append.mpr ⟨w1, w2⟩
      · exact h.congr fun a h1 h2 => outside a (by omega)
    · intro f hfm
      simp only [List.mem_cons] at hfm
      rcases hfm with rfl | hfm
      · simp only; omega
      · exact hf f hfm
  · rw [if_neg hroom, if_neg (fun h => hroom h.2)]
    rfl

theorem Scratch.Rep.get {t : Target} {A : MemoryAllocation} {m : Bytes} :
    ∀ {k : Nat} {fs : List (Slice × Chunk)} {ls : List (List Nat)}, Scratch.Rep t A m fs ls →
    match ls[k]? with
    | none => fs[k]? = none
    | some l => ∃ s c, fs[k]? = some (s, c) ∧ s.len = l.length ∧ t.Holds m s.ptr l
  | _, [], [], _ => by simp
  | _, [], _ :: _, h => h.elim
  | _, _ :: _, [], h => h.elim
  | 0, (s, c) :: fs, l :: ls, h => by
    obtain ⟨h1, h2, h3, h4, h5, h6, h7⟩ := h
    exact ⟨s, c, rfl, h2, h6⟩
  | k + 1, (s, c) :: fs, l :: ls, h => by
    obtain ⟨h1, h2, h3, h4, h5, h6, h7⟩ := h
    exact h7.get (k := k)

/-- Writing a word of one slice changes that word and nothing else. -/
theorem Scratch.Rep.write {t : Target} (ht : t.OK) {A : MemoryAllocation} {m : Bytes} {i v : Nat}
    (hv : v < base t.cfg.W) :
    ∀ {k : Nat} {fs : List (Slice × Chunk)} {ls : List (List Nat)}, Scratch.Rep t A m fs ls →
    ∀ (l : List Nat) (s : Slice) (c : Chunk), ls[k]? = some l → fs[k]? = some (s, c) → i < l.length →
    Scratch.Rep t A (t.store m (s.ptr + i * t.size) v) fs (ls.set k (l.set i v)) ∧
      A.start ≤ s.ptr + i * t.size ∧
      s.ptr + i * t.size + t.size ≤ A.start + (ls.map List.length).sum * t.size
  | _, [], [], _ => by intro l s c h; simp at h
  | _, [], _ :: _, h => h.elim
  | _, _ :: _, [], h => h.elim
  | 0, (s, c) :: fs, l :: ls, h => by
    intro l' s' c' e1 e2 hi
    simp only [List.getElem?_cons_zero, Option.some.injEq, Prod.mk.injEq] at e1 e2
    obtain ⟨rfl, rfl⟩ := e2
    subst e1
    obtain ⟨h1, h2, h3, h4, h5, h6, h7⟩ := h
    have hsz := ht.size_pos
    have hii : (i + 1) * t.size ≤ l.length * t.size := Nat.mul_le_mul_right _ hi
    rw [Nat.add_mul, Nat.one_mul] at hii
    refine ⟨⟨h1, by simpa using h2, by simpa using h3, h4, isWords_set h5 i hv, ?_, ?_⟩, by omega, ?_⟩
    · intro j hj
      rw [List.length_set] at hj
      by_cases hij : i = j
      · subst hij
        rw [List.getElem_set_self, Target.load_store ht _ _ hv]
      · rw [List.getElem_set_ne hij, ← h6 j hj]
        apply Target.load_store_of_disjoint
        rcases Nat.lt_or_gt_of_ne hij with hlt | hlt
        · right
          have : (i + 1) * t.size ≤ j * t.size := Nat.mul_le_mul_right _ hlt
          rw [Nat.add_mul, Nat.one_mul] at this
          omega
        · left
          have : (j + 1) * t.size ≤ i * t.size := Nat.mul_le_mul_right _ hlt
          rw [Nat.add_mul, Nat.one_mul] at this
          omega
    · apply h7.congr
      intro a g1 g2
      unfold Target.store
      rw [if_neg (by omega)]
    · simp only [List.map_cons, List.sum_cons, Nat.add_mul]
      omega
  | k + 1, (s, c) :: fs, l :: ls, h => by
    intro l' s' c' e1 e2 hi
    simp only [List.getElem?_cons_succ] at e1 e2
    obtain ⟨h1, h2, h3, h4, h5, h6, h7⟩ := h
    obtain ⟨g1, g2, g3⟩ := h7.write ht hv _ _ _ e1 e2 hi
    have hlen : ((ls.set k (l'.set i v)).map List.length) = ls.map List.length := by
      rw [List.map_set, List.length_set]
      apply List.ext_getElem (by simp)
      intro j j1 j2
      rw [List.getElem_set]
      split
      · rename_i hkj
        subst hkj
        obtain ⟨q1, q2⟩ := List.getElem?_eq_some_iff.mp e1
        simp [q2]
      · rfl
    refine ⟨⟨by rw [hlen]; exact h1, h2, ?_, h4, h5, ?_, g1⟩, g2, ?_⟩
    · rw [List.map_cons, hlen]; exact h3
    · apply h6.congr
      intro a q1 q2
      unfold Target.store
      rw [if_neg (by omega)]
    · simp only [List.map_cons, List.sum_cons, Nat.add_mul]
      omega

theorem MemOp.exec_spec {t : Target} (ht : t.OK) {A : MemoryAllocation} {room : Nat} (hA : A.Good t room)
    {op : MemOp} (hop : op.OK t.cfg.W)
    {s : Scratch} {ls : List (List Nat)} (h : Scratch.Rep t A s.bytes s.frames ls)
    (hf : ∀ f ∈ s.frames, f.2.start ≤ f.2.stop) :
    match op.pure room true ls with
    | .error p => op.exec t A s = .error (.panic p)
    | .ok (ls', o) => ∃ s', op.exec t A s = .ok (s', o) ∧
        Scratch.Rep t A s'.bytes s'.frames ls' ∧ ∀ f ∈ s'.frames, f.2.start ≤ f.2.stop := by
  cases op with
  | fill n x =>
    have := Scratch.alloc_spec ht hA h hf (n := n) (first := List.replicate n x) (second := [])
      (isWords_replicate hop) (by simp [IsWords]) (by simp)
    rw [List.append_nil] at this
    exact this
  | copy source =>
    have := Scratch.alloc_spec ht hA h hf (n := source.length) (first := source) (second := [])
      hop (by simp [IsWords]) (by simp)
    rw [List.append_nil] at this
    exact this
  | copyFill n source x =>
    simp only [MemOp.pure, MemOp.exec]
    by_cases hl : source.length ≤ n
    · rw [if_pos hl, if_pos hl]
      exact Scratch.alloc_spec ht hA h hf hop.1 (isWords_replicate hop.2) (by simp; omega)
    · rw [if_neg hl, if_neg hl]
  | release =>
    refine ⟨_, rfl, ?_, ?_⟩
    · obtain ⟨m, fs⟩ := s
      match fs, ls, h with
      | [], [], _ => trivial
      | (sl, c) :: fs, l :: ls, h =>
        obtain ⟨h1, h2, h3, h4, h5, h6, h7⟩ := h
        exact h7
    · intro f hfm
      exact hf f (List.mem_of_mem_tail hfm)
  | write k i v =>
    have hg := h.get (k := k)
    simp only [MemOp.pure, MemOp.exec]
    cases hl : ls[k]? with
    | none =>
      rw [hl] at hg
      simp only at hg ⊢
      rw [hg]
    | some l =>
      rw [hl] at hg
      obtain ⟨sl, c, e1, e2, e3⟩ := hg
      simp only [e1, e2]
      by_cases hi : i < l.length
      · rw [if_pos hi, if_pos hi]
        exact ⟨_, rfl, (h.write ht hop _ _ _ hl e1 hi).1, hf⟩
      · rw [if_neg hi, if_neg hi]
  | read k i =>
    have hg := h.get (k := k)
    simp only [MemOp.pure, MemOp.exec]
    cases hl : ls[k]? with
    | none =>
      rw [hl] at hg
      simp only at hg ⊢
      rw [hg]
    | some l =>
      rw [hl] at hg
      obtain ⟨sl, c, e1, e2, e3⟩ := hg
      simp only [e1, e2]
      by_cases hi : i < l.length
      · rw [if_pos hi, List.getElem?_eq_getElem hi, e3 i hi]
        exact ⟨_, rfl, h, hf⟩
      · rw [if_neg hi, List.getElem?_eq_none (by omega)]

theorem runScratch_spec {t : Target} (ht : t.OK) {A : MemoryAllocation} {room : Nat} (hA : A.Good t room) :
    ∀ {ops : List MemOp} {s : Scratch} {ls : List (List Nat)}, (∀ op ∈ ops, op.OK t.cfg.W) →
    Scratch.Rep t A s.bytes s.frames ls → (∀ f ∈ s.frames, f.2.start ≤ f.2.stop) →
    runScratch t A s ops = ((runPure room true ls ops).1, (runPure room true ls ops).2.map Fault.panic) := by
  intro ops
  induction ops with
  | nil => intros; rfl
  | cons op ops ih =>
    intro s ls hops h hf
    have := MemOp.exec_spec ht hA (hops op (by simp)) h hf
    unfold runScratch runPure
    cases hp : op.pure room true ls with
    | error p =>
      rw [hp] at this
      simp only at this ⊢
      rw [this]
      rfl
    | ok r =>
      obtain ⟨ls', o⟩ := r
      rw [hp] at this
      obtain ⟨s', e1, e2, e3⟩ := this
      simp only [e1]
      rw [ih (fun op hop => hops op (by simp [hop])) e2 e3]

/-! ### Allocation -/

theorem Target.OK.align_pos {t : Target} (ht : t.OK) : 0 < t.align := by
  obtain ⟨k, hk⟩ := ht.align
  rw [hk]; exact Nat.two_pow_pos k

theorem Target.OK.align_le {t : Target} (ht : t.OK) : t.align ≤ 8 := by
  have := Nat.le_of_dvd ht.size_pos ht.dvd
  unfold Target.size at this
  rcases ht.valid.word with h | h | h <;> rw [h] at this <;> omega

theorem Target.OK.U16 {t : Target} (ht : t.OK) : 65536 ≤ 2 ^ t.cfg.U := by
  rcases ht.valid.usize with h | h | h <;> rw [h] <;> norm_num

theorem MemoryAllocation.new_spec {t : Target} (layout : Layout) (answer : Nat) :
    MemoryAllocation.new t layout answer =
      if layout.size = 0 then .ok ⟨layout, layout.align⟩
      else if layout.size ≤ t.isizeMax ∧ answer ≠ 0 then .ok ⟨layout, answer⟩
      else .error (.panic .outOfMemory) := by
  unfold MemoryAllocation.new globalAlloc
  by_cases h0 : layout.size = 0
  · rw [if_pos h0, if_pos h0]
  · rw [if_neg h0, if_neg h0]
    by_cases h1 : t.isizeMax < layout.size
    · rw [if_pos h1, if_neg (by omega)]
    · rw [if_neg h1, requireR_true h0]
      simp only [bind, Except.bind]
      by_cases h2 : answer = 0
      · rw [if_pos h2, if_neg (by omega)]
      · rw [if_neg h2, if_pos (by omega)]

theorem MemoryAllocation.good {t : Target} (ht : t.OK) {layout : Layout} {answer M : Nat} {A : MemoryAllocation}
    (hw : layout.Words t M) (ha : AllocatorOK t layout answer) (hal : layout.align = t.align)
    (hA : MemoryAllocation.new t layout answer = .ok A) : A.Good t M := by
  have h1 := ht.align_pos
  have h2 := ht.align_le
  have h3 := ht.U16
  rw [MemoryAllocation.new_spec] at hA
  split_ifs at hA with g1 g2
  · cases hA
    refine ⟨hw.1, by show layout.size ≤ _; omega, by show layout.align ≠ 0; omega, by
      show t.align ∣ layout.align; rw [hal], ?_⟩
    show layout.align + layout.size < _
    omega
  · cases hA
    rcases ha with rfl | ⟨q1, q2⟩
    · exact absurd rfl g2.2
    · exact ⟨hw.1, g2.1, g2.2, by rw [← hal]; exact Nat.dvd_of_mod_eq_zero q1, q2⟩

theorem pureAlloc_false (room : Nat) (ls : List (List Nat)) (l : List Nat) :
    pureAlloc room false ls l = .error .allocatedTooLittle := by
  unfold pureAlloc; rw [if_neg (by simp)]

/-- From the layout of size zero and alignment one nothing can be allocated. -/
theorem tryFind_zero {t : Target} (ht : t.OK) (h1 : t.align ≠ 1) (n : Nat) :
    tryFind t ⟨1, 1⟩ n = none := by
  obtain ⟨k, hk⟩ := ht.align
  have hle := ht.align_le
  have h3 := ht.U16
  have hk1 : 1 ≤ k := by
    rcases Nat.eq_zero_or_pos k with h | h
    · rw [h] at hk; exact absurd hk h1
    · exact h
  have hkU : k ≤ t.cfg.U := by
    rw [hk] at hle
    have := (Nat.pow_le_pow_iff_right (by norm_num : 1 < 2)).mp (show 2 ^ k ≤ 2 ^ 3 by omega)
    rcases ht.valid.usize with h | h | h <;> omega
  have hpad : (2 ^ t.cfg.U - 1) % 2 ^ t.cfg.U &&& (t.align - 1) ≠ 0 := by
    rw [hk, Nat.and_two_pow_sub_one_eq_mod, Nat.mod_mod_of_dvd _ (pow_dvd_pow 2 hkU)]
    have hm : 2 ∣ 2 ^ k := dvd_pow_self 2 (by omega)
    have hm2 : 2 ∣ 2 ^ t.cfg.U := dvd_pow_self 2 (by omega)
    intro h
    have := Nat.dvd_of_mod_eq_zero h
    have := Dvd.dvd.trans hm this
    omega
  unfold tryFind
  simp only
  split_ifs <;> first | rfl | omega

theorem runScratch_zero {t : Target} (ht : t.OK) (h1 : t.align ≠ 1) (m : Bytes) :
    ∀ {ops : List MemOp},
    runScratch t ⟨⟨0, 1⟩, 1⟩ ⟨m, []⟩ ops =
      ((runPure 0 false [] ops).1, (runPure 0 false [] ops).2.map Fault.panic) := by
  have hch : Scratch.chunk t ⟨⟨0, 1⟩, 1⟩ ⟨m, []⟩ = ⟨1, 1⟩ := by
    unfold Scratch.chunk MemoryAllocation.memory
    have := ht.U16
    simp only [Nat.add_zero]
    rw [Nat.mod_eq_of_lt (by omega)]
  have hall : ∀ n f g, Scratch.alloc t ⟨⟨0, 1⟩, 1⟩ ⟨m, []⟩ n f g = .error (.panic .allocatedTooLittle) := by
    intro n f g
    unfold Scratch.alloc allocateSlice
    rw [hch, tryFind_zero ht h1]
    rfl
  intro ops
  induction ops with
  | nil => rfl
  | cons op ops ih =>
    unfold runScratch runPure
    cases op with
    | fill n x => simp only [MemOp.exec, MemOp.pure, hall, pureAlloc_false]; rfl
    | copy source => simp only [MemOp.exec, MemOp.pure, hall, pureAlloc_false]; rfl
    | copyFill n source x =>
      simp only [MemOp.exec, MemOp.pure, hall, pureAlloc_false]
      split_ifs <;> rfl
    | release =>
      simp only [MemOp.exec, MemOp.pure, List.tail_nil]
      rw [ih]
    | write k i v => simp only [MemOp.exec, MemOp.pure, List.getElem?_nil]; rfl
    | read k i => simp only [MemOp.exec, MemOp.pure, List.getElem?_nil]; rfl

theorem runScratch_refines {t : Target} (ht : t.OK) {layout : Layout} {answer M : Nat} {A : MemoryAllocation}
    (hw : layout.Words t M) (ha : AllocatorOK t layout answer)
    (hA : MemoryAllocation.new t layout answer = .ok A) (m : Bytes) {ops : List MemOp}
    (hops : ∀ op ∈ ops, op.OK t.cfg.W) :
    runScratch t A ⟨m, []⟩ ops =
      ((runPure M (decide (layout.align = t.align)) [] ops).1,
        (runPure M (decide (layout.align = t.align)) [] ops).2.map Fault.panic) := by
  by_cases hal : layout.align = t.align
  · rw [decide_eq_true hal]
    exact runScratch_spec ht (MemoryAllocation.good ht hw ha hal hA) hops trivial (by simp)
  · rw [decide_eq_false hal]
    obtain ⟨h1, h2⟩ := hw
    rcases h2 with h2 | ⟨rfl, h2⟩
    · exact absurd h2 hal
    · obtain ⟨sz, al⟩ := layout
      simp only at h1 h2 hal
      subst h2
      rw [Nat.zero_mul] at h1
      subst h1
      rw [MemoryAllocation.new_spec] at hA
      simp only [if_true] at hA
      cases hA
      exact runScratch_zero ht (fun h => hal h.symm) m

/-! ### Layouts -/

/-- The layout is one for `w` words, or there is no such layout and the panic is `outOfMemory`. -/
def Agrees (t : Target) (x : R Layout) (w : Nat) : Prop :=
  (∃ l, x = .ok l ∧ l.Words t w) ∨ (x = .error .outOfMemory ∧ t.isizeMax < w * t.size)

theorem roundUpTo_of_dvd {x a : Nat} (ha : 0 < a) (h : a ∣ x) : roundUpTo x a = x := by
  obtain ⟨k, rfl⟩ := h
  unfold roundUpTo
  rw [Nat.mul_comm a k, Nat.add_comm, Nat.add_mul_div_right _ _ ha, Nat.div_eq_of_lt (by omega), Nat.zero_add]

theorem isPow2_and {a k : Nat} (h : a = 2 ^ k) : a ≠ 0 ∧ a &&& (a - 1) = 0 := by
  subst h
  refine ⟨(Nat.two_pow_pos k).ne', ?_⟩
  rw [Nat.and_two_pow_sub_one_eq_mod, Nat.mod_self]

theorem fromSizeAlign_of_dvd {t : Target} {size align : Nat} (hal : ∃ k, align = 2 ^ k) (hd : align ∣ size) :
    Layout.fromSizeAlign t size align = if size ≤ t.layoutMax then some ⟨size, align⟩ else none := by
  obtain ⟨k, hk⟩ := hal
  obtain ⟨h1, h2⟩ := isPow2_and hk
  unfold Layout.fromSizeAlign
  rw [roundUpTo_of_dvd (by omega) hd]
  simp only [h1, h2, ne_eq, not_false_eq_true, true_and]

theorem zeroLayout_agrees (t : Target) : Agrees t (zeroLayout t) 0 := by
  left
  refine ⟨⟨0, 1⟩, ?_, by simp [Layout.Words]⟩
  unfold zeroLayout
  rw [fromSizeAlign_of_dvd (align := 1) ⟨0, rfl⟩ (by simp), if_pos (by omega)]
  rfl

theorem arrayLayout_agrees {t : Target} (ht : t.OK) (w : Nat) : Agrees t (arrayLayout t w) w := by
  unfold arrayLayout Layout.array
  have h1 := ht.lo
  have h2 := ht.hi
  rw [fromSizeAlign_of_dvd ht.align (Dvd.dvd.mul_left ht.dvd _)]
  split_ifs with g1 g2
  · left; exact ⟨_, rfl, rfl, Or.inl rfl⟩
  · right; exact ⟨rfl, by omega⟩
  · right; exact ⟨rfl, by omega⟩

theorem Layout.Words.dvd {t : Target} (ht : t.OK) {l : Layout} {w : Nat} (h : l.Words t w) :
    (∃ k, l.align = 2 ^ k) ∧ l.align ∣ t.align := by
  obtain ⟨k, hk⟩ := ht.align
  rcases h.2 with h2 | ⟨_, h2⟩
  · rw [h2]; exact ⟨⟨k, hk⟩, dvd_rfl⟩
  · rw [h2]; exact ⟨⟨0, rfl⟩, one_dvd _⟩

theorem max_align {t : Target} (ht : t.OK) {a b : Layout} {v w : Nat} (ha : a.Words t v) (hb : b.Words t w) :
    (max a.align b.align = t.align) ∨ (v = 0 ∧ w = 0 ∧ max a.align b.align = 1) := by
  have := ht.align_pos
  rcases ha.2 with h1 | ⟨h0, h1⟩ <;> rcases hb.2 with h2 | ⟨h3, h2⟩ <;> rw [h1, h2]
  · left; simp
  · left; omega
  · left; omega
  · right; exact ⟨h0, h3, by simp⟩

theorem maxLayout_agrees {t : Target} (ht : t.OK) {a b : Layout} {v w : Nat} (ha : a.Words t v)
    (hb : b.Words t w) : Agrees t (maxLayout t a b) (max v w) := by
  have hs : max a.size b.size = max v w * t.size := by
    rw [ha.1, hb.1]
    rcases Nat.le_total v w with h | h
    · rw [Nat.max_eq_right h, Nat.max_eq_right (Nat.mul_le_mul_right _ h)]
    · rw [Nat.max_eq_left h, Nat.max_eq_left (Nat.mul_le_mul_right _ h)]
  have h1 := ht.lo
  unfold maxLayout
  rw [hs]
  rcases max_align ht ha hb with h | ⟨rfl, rfl, h⟩ <;> rw [h]
  · rw [fromSizeAlign_of_dvd ht.align (Dvd.dvd.mul_left ht.dvd _)]
    split_ifs with g
    · left; exact ⟨_, rfl, rfl, Or.inl rfl⟩
    · right; exact ⟨rfl, by omega⟩
  · rw [fromSizeAlign_of_dvd (align := 1) ⟨0, rfl⟩ (by simp), if_pos (by simp)]
    left; exact ⟨_, rfl, rfl, Or.inr ⟨by simp, rfl⟩⟩

theorem addLayout_agrees {t : Target} (ht : t.OK) {a b : Layout} {v w : Nat} (ha : a.Words t v)
    (hb : b.Words t w) : Agrees t (addLayout t a b) (v + w) := by
  have h1 := ht.lo
  have h2 := ht.hi
  obtain ⟨⟨k, hk⟩, hd⟩ := hb.dvd ht
  have hr : roundUpTo a.size b.align = a.size := by
    apply roundUpTo_of_dvd (by rw [hk]; exact Nat.two_pow_pos k)
    rw [ha.1]
    exact Dvd.dvd.mul_left (hd.trans ht.dvd) _
  have hs : a.size + b.size = (v + w) * t.size := by rw [ha.1, hb.1, Nat.add_mul]
  unfold addLayout Layout.extend
  simp only
  rw [hr, hs]
  rcases max_align ht ha hb with h | ⟨rfl, rfl, h⟩ <;> rw [h]
  · rw [fromSizeAlign_of_dvd ht.align (Dvd.dvd.mul_left ht.dvd _)]
    split_ifs with g1 g2
    · left; exact ⟨_, rfl, rfl, Or.inl rfl⟩
    · right; exact ⟨rfl, by omega⟩
    · right; exact ⟨rfl, by omega⟩
  · have := ht.U16
    rw [fromSizeAlign_of_dvd (align := 1) ⟨0, rfl⟩ (by simp), if_pos (by simp), if_pos (by simp)]
    left; exact ⟨_, rfl, by simp, Or.inr ⟨by simp, rfl⟩⟩

theorem Agrees.bind {t : Target} {x : R Layout} {w w' : Nat} {f : Layout → R Layout} (h : Agrees t x w)
    (hw : w ≤ w') (hf : ∀ l, l.Words t w → Agrees t (f l) w') : Agrees t (x >>= f) w' := by
  rcases h with ⟨l, rfl, hl⟩ | ⟨rfl, h⟩
  · exact hf l hl
  · right
    exact ⟨rfl, lt_of_lt_of_le h (Nat.mul_le_mul_right _ hw)⟩

theorem mulLayout_agrees {t : Target} (ht : t.OK) {n : Nat} (hn : n ≤ t.cfg.maxLen + 4) :
    Agrees t (mulLayout t n) (mulMemoryRequirement n) := by
  have hM := ht.valid.maxLen_lt
  have hL := ht.valid.large
  have hbl : bitLen (n - 1) ≤ t.cfg.U := bitLen_le_iff.mpr (by omega)
  have hU : 13 * t.cfg.U + 16 < 2 ^ t.cfg.U / 2 := by
    rcases ht.valid.usize with h | h | h <;> rw [h] <;> norm_num
  unfold mulLayout mulMemoryRequirement
  split_ifs with g1 g2
  · exact zeroLayout_agrees t
  · have hs : n ≠ 0 := by intro h; apply g1; rw [h]; exact Nat.zero_le _
    unfold karatsubaLayout ceilLog2R
    rw [ckMul_ok (by omega), assertR_true hs, ckSub_ok (by omega)]
    simp only [bind, Except.bind]
    rw [ckMul_ok (by omega)]
    simp only
    rw [ckAdd_ok (by omega)]
    exact arrayLayout_agrees ht _
  · have hs : n ≠ 0 := by intro h; apply g1; rw [h]; exact Nat.zero_le _
    unfold toom3Layout ceilLog2R
    rw [ckMul_ok (by omega), assertR_true hs, ckSub_ok (by omega)]
    simp only [bind, Except.bind]
    rw [ckMul_ok (by omega)]
    simp only
    rw [ckAdd_ok (by omega)]
    exact arrayLayout_agrees ht _

/-- The layout for a division and the number of words; the assertions are the same. -/
theorem divLayout_agrees {t : Target} (ht : t.OK) {l r : Nat} (hr : r ≤ t.cfg.maxLen + 4) :
    (∃ w, divMemoryRequirement l r = .ok w ∧ Agrees t (divLayout t l r) w) ∨
      ∃ p, divMemoryRequirement l r = .error p ∧ divLayout t l r = .error p := by
  unfold divLayout divMemoryRequirement
  by_cases h : r ≤ l ∧ 2 ≤ r
  · rw [assertR_true h]
    simp only [bind, Except.bind]
    left
    split_ifs with g
    · exact ⟨_, rfl, zeroLayout_agrees t⟩
    · refine ⟨_, rfl, ?_⟩
      unfold dcLayout
      rw [assertR_true h.1, ckSub_ok h.1]
      exact mulLayout_agrees ht (by omega)
  · right
    refine ⟨.assertFailed, ?_, ?_⟩ <;>
    · unfold assertR
      rw [if_neg h]
      rfl

theorem ringMulLayout_agrees {t : Target} (ht : t.OK) {n : Nat} (h2 : 2 ≤ n) (hn : n ≤ t.cfg.maxLen) :
    ∃ w, (∀ r : RingLarge, r.modulus.length = n → r.mulMemory t.cfg = .ok w) ∧
      Agrees t (ringMulLayout t n) w := by
  have hM := ht.valid.maxLen_lt
  rcases divLayout_agrees ht (l := 2 * n) (r := n) (by omega) with ⟨d, e1, e2⟩ | ⟨p, e1, _⟩
  · refine ⟨2 * n + max (mulMemoryRequirement n) d, ?_, ?_⟩
    · intro r hr
      unfold RingLarge.mulMemory
      simp only
      rw [hr, ckMul_ok (by omega)]
      simp only [bind, Except.bind]
      rw [e1]
    · unfold ringMulLayout
      rw [ckMul_ok (by omega)]
      show Agrees t (arrayLayout t (2 * n) >>= fun a => _) _
      refine (arrayLayout_agrees ht _).bind (by omega) fun a ha => ?_
      refine (mulLayout_agrees ht (by omega)).bind (by omega) fun m hm => ?_
      refine e2.bind (by omega) fun d hd => ?_
      refine (maxLayout_agrees ht hm hd).bind (by omega) fun b hb => ?_
      exact addLayout_agrees ht ha hb
  · exfalso
    unfold divMemoryRequirement at e1
    rw [assertR_true ⟨by omega, h2⟩] at e1
    simp only [bind, Except.bind] at e1
    split_ifs at e1

theorem powLayout_agrees {t : Target} (ht : t.OK) {e n : Nat} (h2 : 2 ≤ n) (hn : n ≤ t.cfg.maxLen) :
    ∃ w, (∀ r : RingLarge, r.modulus.length = n → r.mulMemory t.cfg = .ok w) ∧
      Agrees t (powLayout t e n) (e * n + w) := by
  obtain ⟨w, h, hw⟩ := ringMulLayout_agrees ht h2 hn
  refine ⟨w, h, ?_⟩
  have h3 := ht.lo
  have h4 := ht.hi
  have h5 := ht.size_pos
  unfold powLayout
  by_cases hf : e * n < 2 ^ t.cfg.U
  · rw [if_pos hf]
    show Agrees t (arrayLayout t (e * n) >>= fun a => _) _
    refine (arrayLayout_agrees ht _).bind (by omega) fun a ha => ?_
    exact hw.bind (by omega) fun b hb => addLayout_agrees ht ha hb
  · rw [if_neg hf]
    right
    refine ⟨rfl, ?_⟩
    have : (e * n + w) * 1 ≤ (e * n + w) * t.size := Nat.mul_le_mul_left _ h5
    omega

theorem Agrees.provides {t : Target} {x : R Layout} {w answer : Nat} (h : Agrees t x w)
    (ha : answer ≠ 0) :
    Provides t (x.raw >>= fun l => MemoryAllocation.new t l answer) (allocMemory t.cfg w) := by
  unfold allocMemory Provides
  have e : t.isizeMax = 2 ^ (t.cfg.U - 1) - 1 := rfl
  have e2 : t.size = t.cfg.W / 8 := rfl
  rw [← e, ← e2]
  rcases h with ⟨l, rfl, hl⟩ | ⟨rfl, h⟩
  · show match (if w * t.size ≤ t.isizeMax then Except.ok w else Except.error Panic.outOfMemory) with
      | .ok w => ∃ A, MemoryAllocation.new t l answer = .ok A ∧ A.layout.Words t w
      | .error p => MemoryAllocation.new t l answer = .error (.panic p)
    rw [MemoryAllocation.new_spec, hl.1]
    by_cases h0 : w * t.size = 0
    · rw [if_pos (by omega), if_pos h0]
      exact ⟨_, rfl, hl⟩
    · rw [if_neg h0]
      by_cases h1 : w * t.size ≤ t.isizeMax
      · rw [if_pos h1, if_pos ⟨h1, ha⟩]
        exact ⟨_, rfl, hl⟩
      · rw [if_neg h1, if_neg (fun h => h1 h.1)]
  · rw [if_neg (by omega)]
    rfl

end Ibig
