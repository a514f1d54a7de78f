import Verif.Proofs.SerdeErr
import Verif.Props.Serde
/-! # C54 (serialisation with a data format that reports errors): theorems -/
namespace Ibig

/-- C54: serialising makes the calls `serialize_seq(Some(len))`, one `serialize_element` for each base-2⁶⁴ digit,
`end`, in this order, until a call fails.  If one fails, that error is returned and no further call is made. -/
theorem C54_serialize {cfg : Cfg} (hv : cfg.Valid) {x : UBig} (hx : x.WF cfg) {E : Type}
    (format : List SerCall → Except E Unit) :
    let digits := Nat.digits (2 ^ 64) (x.value cfg)
    ∃ result calls, x.serializeInto format cfg = .ok (result, calls) ∧
      match result with
      | .ok _ => calls = .seq digits.length :: digits.map .element ++ [.finish] ∧
          ∀ k < calls.length, format (calls.take (k + 1)) = .ok ()
      | .error e => calls <+: .seq digits.length :: digits.map .element ++ [.finish] ∧ calls ≠ [] ∧
          format calls = .error e ∧ ∀ k < calls.length - 1, format (calls.take (k + 1)) = .ok () := by
  intro digits
  have h := UBig.serializeInto_eq format (C31_ubig_serialize hv hx)
  obtain ⟨r, qs, h1, h2, h3⟩ := makeCalls_spec format
    (.seq digits.length :: digits.map .element ++ [.finish]) [] (by simp)
  rw [List.nil_append] at h1 h3
  refine ⟨r, qs, by rw [h, h1], ?_⟩
  rcases r with e | u
  · exact ⟨h2, h3⟩
  · exact ⟨h3.2, h3.1⟩

/-- A 300-word number, to a format that fails at the third call. -/
example := C54_serialize cfg64_valid exLong_wf fun calls : List SerCall =>
  if calls.length = 3 then .error "full" else .ok ()

/-- C54: if the data format reports no error, deserialising is that of C31. -/
theorem C54_deserialize_ok (cfg : Cfg) (hint : Option Nat) (es : List Nat) {E : Type} :
    UBig.deserializeErr cfg hint (es.map (Except.ok (ε := E))) =
      match UBig.deserialize cfg hint es with
      | .ok u => .ok (.ok u)
      | .error p => .error p := by
  rw [UBig.deserializeErr_ok]
  rcases UBig.deserialize cfg hint es with p | u <;> rfl

/-- C54: if the data format reports an error, after any number of elements, that error is returned: there is no
panic and no number.  The announced length, if there is one, must not be less than the number of elements
delivered before the error, nor be so large that the number is refused as too large. -/
theorem C54_deserialize_error {cfg : Cfg} (hv : cfg.Valid) {es : List Nat} (hes : ∀ x ∈ es, x < 2 ^ 64)
    {hint : Option Nat} (hh : ∀ n, hint = some n → es.length ≤ n ∧ n * (64 / cfg.W) ≤ cfg.maxLen + 4)
    {E : Type} (e : E) (rest : SeqData E) :
    UBig.deserializeErr cfg hint (es.map .ok ++ .error e :: rest) = .ok (.error e) :=
  UBig.deserializeErr_error hv hes e rest hh

/-- An error after three elements, of which five were announced. -/
example := C54_deserialize_error cfg64_valid (es := [5, 2 ^ 64 - 1, 0]) (by decide +kernel) (hint := some 5)
  (fun n h => by cases h; decide +kernel) "end of file" []

/-- A format that reports error 7 for the third call. -/
def exFormat : List SerCall → Except Nat Unit := fun calls => if calls.length = 3 then .error 7 else .ok ()

example : exA.serializeInto exFormat cfg64 =
    .ok (.error 7, [.seq 2, .element (2 ^ 64 - 1), .element (2 ^ 64 - 1)]) := by decide +kernel
example : (UBig.small 5).serializeInto exFormat cfg64 = .ok (.error 7, [.seq 1, .element 5, .finish]) := by
  decide +kernel
example : (UBig.small 0).serializeInto exFormat cfg64 = .ok (.ok (), [.seq 0, .finish]) := by decide +kernel
example : UBig.deserializeErr cfg32 (some 3) [.ok 1, .ok (2 ^ 64 - 1), .error 9, .ok 5] = .ok (.error 9) := by
  decide +kernel
example : (∀ x ∈ [1, 2 ^ 64 - 1], x < 2 ^ 64) ∧
    (∀ n, some 3 = some n → [1, 2 ^ 64 - 1].length ≤ n ∧ n * (64 / cfg32.W) ≤ cfg32.maxLen + 4) := by
  refine ⟨by decide, ?_⟩
  intro n h
  cases h
  decide +kernel

end Ibig
