import Verif.Proofs.Cfg
/-! Concrete builds and numbers used to show that the hypotheses of the property theorems are met. -/
namespace Ibig

/-- A 64-bit build. -/
def cfg64 : Cfg := ⟨64, 64, 2 ^ 57, fun _ => 0⟩
/-- A 32-bit build, with a standard library that gives twice the requested capacity. -/
def cfg32 : Cfg := ⟨32, 32, 2 ^ 27 - 2, fun n => n⟩
/-- A build with 16-bit words on a 16-bit machine. -/
def cfg16 : Cfg := ⟨16, 16, 4094, fun _ => 0⟩

theorem cfg64_real : cfg64 ∈ builds fun _ => 0 :=
  List.mem_map.mpr ⟨(64, 64, 2 ^ 57), by decide +kernel, rfl⟩
theorem cfg32_real : cfg32 ∈ builds fun n => n :=
  List.mem_map.mpr ⟨(32, 32, 2 ^ 27 - 2), by decide +kernel, rfl⟩
theorem cfg16_real : cfg16 ∈ builds fun _ => 0 :=
  List.mem_map.mpr ⟨(16, 16, 4094), by decide +kernel, rfl⟩

theorem cfg64_valid : cfg64.Valid := builds_valid _ cfg64_real
theorem cfg32_valid : cfg32.Valid := builds_valid _ cfg32_real
theorem cfg16_valid : cfg16.Valid := builds_valid _ cfg16_real

/-- A number given by its words, in an exactly fitting buffer. -/
def bigOf (ws : List Nat) : UBig := .large ⟨ws, ws.length⟩

/-- the integer with sign `s` and the given words -/
def ibigOf (s : Sign) (ws : List Nat) : IBig := ⟨s, bigOf ws⟩

theorem bigOf_wf {cfg : Cfg} (ws : List Nat)
    (h : (ws.all (fun w => decide (w < 2 ^ cfg.W)) && decide (2 ≤ ws.length) &&
      decide (ws.getLast? ≠ some 0) && decide (ws.length ≤ cfg.maxLen)) = true) :
    (bigOf ws).WF cfg := by
  simp only [Bool.and_eq_true, List.all_eq_true, decide_eq_true_eq] at h
  obtain ⟨⟨⟨h1, h2⟩, h3⟩, h4⟩ := h
  exact ⟨h1, h2, h3, h4, Nat.le_refl _, fun _ => by simp only; omega⟩

/-- A negative (or positive) example integer. -/
theorem ibigOf_wf {cfg : Cfg} (s : Sign) {ws : List Nat} (h : (bigOf ws).WF cfg)
    (h0 : val cfg.W ws ≠ 0) : (ibigOf s ws).WF cfg := ⟨h, fun e => absurd e h0⟩

/-- `2^128 - 1` on a 64-bit build -/
def exA : UBig := bigOf [2 ^ 64 - 1, 2 ^ 64 - 1]
/-- `2^64 + 5` on a 64-bit build -/
def exB : UBig := bigOf [5, 1]
/-- `2^(64·300) - 1`: long enough for every algorithm -/
def exLong : UBig := bigOf (List.replicate 300 (2 ^ 64 - 1))
/-- `3·2^(64·99)`: long enough for divide and conquer -/
def exMid : UBig := bigOf (List.replicate 99 0 ++ [3])

theorem exA_wf : exA.WF cfg64 := bigOf_wf _ (by decide +kernel)
theorem exB_wf : exB.WF cfg64 := bigOf_wf _ (by decide +kernel)
theorem exLong_wf : exLong.WF cfg64 := bigOf_wf _ (by decide +kernel)
theorem exMid_wf : exMid.WF cfg64 := bigOf_wf _ (by decide +kernel)

/-- `-(2^128 - 1)` -/
def exNegA : IBig := ⟨.neg, exA⟩
/-- `2^64 + 5` -/
def exPosB : IBig := ⟨.pos, exB⟩
/-- `-(2^64 + 5)` -/
def exNegB : IBig := ⟨.neg, exB⟩

theorem exNegA_wf : exNegA.WF cfg64 := ⟨exA_wf, fun h => absurd h (by decide +kernel)⟩
theorem exPosB_wf : exPosB.WF cfg64 := ⟨exB_wf, fun _ => rfl⟩
theorem exNegB_wf : exNegB.WF cfg64 := ⟨exB_wf, fun h => absurd h (by decide +kernel)⟩

end Ibig
