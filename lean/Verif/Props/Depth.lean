import Verif.Proofs.Depth
import Verif.Proofs.History
import Verif.Spec.Examples

/-!
C55: the calls of the recursive algorithms (multiplication, division, parsing and printing) nest only
logarithmically deep, so that long operands cannot exhaust the stack.

The recursive functions of the model take the number of nested calls they may make and fail when they
need more. The theorems below say how many are enough; the model of the public operations, and so every
other theorem, gives them no more than that.
-/
namespace Ibig

/-- C55, multiplication: to multiply `a` and `b` (and add the product to `c`), `2 * L + 4` nested calls of
the recursive functions are enough, where `L` is the number of bits of the smaller of the two lengths. -/
theorem C55_multiplication {cfg : Cfg} (hv : cfg.Valid) {a b c : List Nat} {sign : Sign} {mem d : Nat}
    (ha : IsWords cfg.W a) (hb : IsWords cfg.W b) (hc : IsWords cfg.W c)
    (hl : c.length = a.length + b.length)
    (hm : mulMemoryRequirement (min a.length b.length) ≤ mem)
    (hd : 2 * Nat.size (min a.length b.length) + 4 ≤ d) :
    ∃ c' carry, addSignedMulFuel cfg.W d c sign a b mem = .ok (c', carry) ∧ c'.length = c.length ∧
      IsWords cfg.W c' ∧
      (val cfg.W c' : Int) + carry * (2 ^ cfg.W : Int) ^ c.length
        = val cfg.W c + sign.toInt * (val cfg.W a * val cfg.W b) := by
  rw [size_eq_bitLen] at hd
  obtain ⟨⟨c', k⟩, e, h⟩ := addSignedMulFuel_ok hv.W4 d a.length b.length mem (mulDeep_mulDepth hd)
    (mulMem_of_requirement hm) c sign a b hc ha hb rfl rfl hl
  refine ⟨c', k, e, h.len, h.words, ?_⟩
  have := h.eq
  rw [base_eq] at this
  exact_mod_cast this

/-- C55, multiplication of factors of the same length (also used for modular multiplication): `d + 1`
nested calls are enough when the factors have at most `24 * 2 ^ d` words. -/
theorem C55_same_length {cfg : Cfg} (hv : cfg.Valid) {a b c : List Nat} {sign : Sign} {mem d : Nat}
    (ha : IsWords cfg.W a) (hb : IsWords cfg.W b) (hc : IsWords cfg.W c)
    (hab : b.length = a.length) (hl : c.length = 2 * a.length)
    (hm : mulMemoryRequirement a.length ≤ mem) (hd : a.length ≤ 24 * 2 ^ d) :
    ∃ c' carry, mulSameLen cfg.W (d + 1) c sign a b mem = .ok (c', carry) ∧ c'.length = c.length ∧
      IsWords cfg.W c' ∧
      (val cfg.W c' : Int) + carry * (2 ^ cfg.W : Int) ^ c.length
        = val cfg.W c + sign.toInt * (val cfg.W a * val cfg.W b) := by
  obtain ⟨⟨c', k⟩, e, h⟩ := mulSameLen_ok hv.W4 d a.length mem hd
    (mulMem_of_requirement hm) c sign a b hc ha hb rfl hab (by omega)
  refine ⟨c', k, e, h.len, h.words, ?_⟩
  have := h.eq
  rw [base_eq] at this
  exact_mod_cast this

/-- Factors of 100 words: two levels below the simple algorithm. -/
example := C55_same_length cfg64_valid (a := List.replicate 100 3) (b := List.replicate 100 5)
  (c := List.replicate 200 0) (sign := .neg) (mem := 1000) (d := 3)
  (by intro x hx; rw [List.mem_replicate] at hx; rw [hx.2]; decide)
  (by intro x hx; rw [List.mem_replicate] at hx; rw [hx.2]; decide)
  (by intro x hx; rw [List.mem_replicate] at hx; rw [hx.2]; decide)
  (by simp only [List.length_replicate]) (by simp only [List.length_replicate])
  (by simp only [List.length_replicate]; decide) (by simp only [List.length_replicate]; decide)

/-- C55, division: with `d + 1` nested calls allowed, a quotient of at most `32 * 2 ^ d` words can be
computed. The divisor `rhs` has its top bit set, as the algorithm arranges by shifting. The quotient
is `q`, plus one more bit if `overflow`. -/
theorem C55_division {cfg : Cfg} (hv : cfg.Valid) {lhs rl : List Nat} {v0 v1 mem d : Nat}
    {fd : FastDivideNormalized} (hl : IsWords cfg.W lhs) (hr : IsWords cfg.W (rl ++ [v1, v0]))
    (htop : 2 ^ (cfg.W - 1) ≤ v0) (hfd : FastDivideNormalized.new cfg.W v0 = .ok fd)
    (h1 : (rl ++ [v1, v0]).length ≤ lhs.length) (h2 : lhs.length < 2 * (rl ++ [v1, v0]).length)
    (hm : mulMemoryRequirement
      (min (lhs.length - (rl ++ [v1, v0]).length) ((rl ++ [v1, v0]).length / 2)) ≤ mem)
    (hd : lhs.length - (rl ++ [v1, v0]).length ≤ 32 * 2 ^ d) :
    ∃ rem q overflow, dcSmall cfg.W fd mem (d + 1) lhs (rl ++ [v1, v0]) = .ok (rem ++ q, overflow) ∧
      rem.length = (rl ++ [v1, v0]).length ∧ rem.length + q.length = lhs.length ∧
      val cfg.W rem < val cfg.W (rl ++ [v1, v0]) ∧
      val cfg.W lhs = (val cfg.W q + overflow.toNat * (2 ^ cfg.W) ^ q.length)
        * val cfg.W (rl ++ [v1, v0]) + val cfg.W rem := by
  have hW := hv.W1
  have hv0 : v0 < base cfg.W := by
    simp only [isWords_append, isWords_cons] at hr
    exact hr.2.2.1
  have hb : base cfg.W ≤ 2 * v0 := by
    have : base cfg.W = 2 * 2 ^ (cfg.W - 1) := by rw [base_eq, ← pow_succ']; congr 1; omega
    omega
  obtain ⟨fd', e, hval⟩ := FastDivideNormalized.new_spec hW hv0 hb
  rw [hfd] at e
  cases e
  generalize hrhs : rl ++ [v1, v0] = rhs at *
  have hn : NormDiv cfg.W rhs fd rl v1 v0 := ⟨hrhs.symm, hr, hb, hval⟩
  have hn2 : 2 ≤ rhs.length := by rw [← hrhs]; simp
  obtain ⟨⟨l, o⟩, e, rem, q, rfl, g1, g2, g3, g4, g5, g6⟩ := dcSmall_ok (mem := mem) (fd := fd) hv.W4 d
    rhs.length (lhs.length - rhs.length) hd hn2 (by omega) (mulMem_of_requirement hm)
    lhs rhs rl v1 v0 hl hn rfl (by omega)
  refine ⟨rem, q, o, e, g1, by simpa using g2, g5, ?_⟩
  simp only at g6
  rw [← g6, base_eq]

/-- C55, parsing: the recursion over the text descends once per power of the radix, and there are at most
as many powers as the length of the text has bits. -/
theorem C55_parsing {cfg : Cfg} {chunk : Nat} {bytes : List Nat} {power : UBig} {powers : List UBig}
    (h : npPowersLoop cfg chunk bytes.length (bitLen bytes.length) [power] = .ok powers) :
    powers.length ≤ Nat.size bytes.length := by
  rw [size_eq_bitLen]
  have := npPowersLoop_length _ _ _ h
  rw [List.length_singleton] at this
  omega

/-- Nine digits in chunks of two. -/
example := C55_parsing (cfg := cfg64) (chunk := 2) (bytes := [49, 50, 51, 52, 53, 54, 55, 56, 57])
  (power := .small 100) (powers := [.small (10 ^ 8), .small (10 ^ 4), .small (10 ^ 2)]) (by decide +kernel)

/-- C55, printing: a chunk is printed by a recursion that descends as often as its index says; every index is
less than the number of powers of the radix, of which there are at most as many as the number of bits
that the number occupies has bits. -/
theorem C55_printing {cfg : Cfg} {n : UBig} {radix : Nat} {p : PreparedLarge}
    (h : npLargeNew cfg n radix = .ok p) :
    p.powers.length ≤ Nat.size (n.len * cfg.W) ∧ ∀ c ∈ p.chunks, c.1 < p.powers.length := by
  rw [size_eq_bitLen]
  exact npLargeNew_depth h

/-- C55: all these limits are small numbers, whatever the operands: a number or a text has fewer than
`2 ^ cfg.U` words or bytes, and `cfg.U` is 16, 32 or 64. -/
theorem C55_limits {cfg : Cfg} (hv : cfg.Valid) {n : UBig} (hn : n.WF cfg) :
    2 * Nat.size n.len + 4 ≤ 2 * cfg.U + 4 ∧ n.len ≤ 32 * 2 ^ cfg.U ∧
    Nat.size (n.len * cfg.W) ≤ cfg.U ∧ cfg.U ≤ 64 := by
  have h1 := UBig.len_le hv hn
  have h2 := hv.bits
  have h3 : n.len * cfg.W ≤ cfg.maxLen * cfg.W := Nat.mul_le_mul_right _ h1
  have h4 : n.len ≤ n.len * cfg.W := Nat.le_mul_of_pos_right _ hv.W1
  have h5 : Nat.size n.len ≤ cfg.U := Nat.size_le.mpr (by omega)
  refine ⟨by omega, by omega, Nat.size_le.mpr (by omega), ?_⟩
  rcases hv.usize with h | h | h <;> omega

/-- The limits for a product of numbers with 100 and 70 words: 18 nested calls. -/
example : 2 * Nat.size (min 100 70) + 4 = 18 ∧ mulMemoryRequirement (min 100 70) = 154 := by decide

example : ∃ c' carry, addSignedMulFuel cfg64.W 18 (List.replicate 170 0) .pos (List.replicate 100 3)
      (List.replicate 70 5) 154 = .ok (c', carry) ∧ c'.length = 170 ∧ IsWords cfg64.W c' ∧
      (val cfg64.W c' : Int) + carry * (2 ^ cfg64.W : Int) ^ 170
        = val cfg64.W (List.replicate 170 0)
          + Sign.pos.toInt * (val cfg64.W (List.replicate 100 3) * val cfg64.W (List.replicate 70 5)) := by
  have := C55_multiplication cfg64_valid (a := List.replicate 100 3) (b := List.replicate 70 5)
    (c := List.replicate 170 0) (sign := .pos) (mem := 154) (d := 18)
    (by intro x hx; rw [List.mem_replicate] at hx; rw [hx.2]; decide)
    (by intro x hx; rw [List.mem_replicate] at hx; rw [hx.2]; decide)
    (by intro x hx; rw [List.mem_replicate] at hx; rw [hx.2]; decide)
    (by rw [List.length_replicate, List.length_replicate, List.length_replicate])
    (by simp only [List.length_replicate]; decide) (by simp only [List.length_replicate]; decide)
  simpa only [List.length_replicate] using this

/-- With too few calls allowed the product is not found: the limit is not vacuous. -/
example : addSignedMulFuel cfg64.W 1 (List.replicate 60 0) .pos (List.replicate 30 3)
    (List.replicate 30 5) 1000 = .error .fuel := by decide +kernel

/-- A concrete division, of six words by four. -/
example : ∃ fd, FastDivideNormalized.new cfg64.W (2 ^ 63 + 5) = .ok fd ∧
    ∃ rem q overflow, dcSmall cfg64.W fd 0 1 [1, 2, 3, 4, 5, 6] ([7, 8] ++ [9, 2 ^ 63 + 5])
      = .ok (rem ++ q, overflow) ∧ rem.length = 4 ∧ rem.length + q.length = 6 ∧
      val cfg64.W rem < val cfg64.W ([7, 8] ++ [9, 2 ^ 63 + 5]) ∧
      val cfg64.W [1, 2, 3, 4, 5, 6] = (val cfg64.W q + overflow.toNat * (2 ^ cfg64.W) ^ q.length)
        * val cfg64.W ([7, 8] ++ [9, 2 ^ 63 + 5]) + val cfg64.W rem := by
  have hw : ∀ l : List Nat, (l.all fun x => decide (x < base cfg64.W)) = true → IsWords cfg64.W l := by
    intro l h x hx
    simpa using List.all_eq_true.mp h x hx
  obtain ⟨fd, e, -⟩ := FastDivideNormalized.new_spec (W := cfg64.W) (d := 2 ^ 63 + 5) (by decide)
    (by decide) (by decide)
  exact ⟨fd, e, C55_division cfg64_valid (d := 0) (hw _ (by decide)) (hw _ (by decide)) (by decide) e
    (by decide) (by decide) (by decide) (by decide)⟩

/-- A text of nine digits cut into chunks of two digits: powers `10 ^ 2`, `10 ^ 4`, `10 ^ 8`. -/
example : npPowersLoop cfg64 2 [49, 50, 51, 52, 53, 54, 55, 56, 57].length
    (bitLen [49, 50, 51, 52, 53, 54, 55, 56, 57].length) [.small 100]
      = .ok [.small (10 ^ 8), .small (10 ^ 4), .small (10 ^ 2)] := by decide +kernel

/-- Printing a number of 18 words of 16 bits in base ten: one power, and one chunk of index 0. -/
example : (npLargeNew cfg16 (bigOf (List.replicate 18 (2 ^ 16 - 1))) 10).map
    (fun p => (p.powers.length, p.chunks.map (·.1))) = .ok (1, [0]) := by decide +kernel

example : 2 * Nat.size exLong.len + 4 ≤ 2 * cfg64.U + 4 := (C55_limits cfg64_valid exLong_wf).1

end Ibig
