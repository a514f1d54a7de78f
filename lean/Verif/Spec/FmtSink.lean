import Verif.Model.FmtSink
/-!
# Printing into a sink that may fail (specification)
-/
namespace Ibig

/-- All calls made to the sink before number `n` have succeeded. -/
def AcceptedBefore (accept : Calls → Bool) (calls : Calls) (n : Nat) : Prop :=
  ∀ k < n, accept (calls.take (k + 1)) = true

/-- Printing `text` into the sink `accept`, as observed from outside: it does not panic, and
 * either it returns `Ok`; then every call of the sink has succeeded and the strings passed to it make up `text`;
 * or it returns `Err`; then the last call has failed, all the calls before it have succeeded, and the strings
   passed make up a prefix of `text` (so the failure is not ignored, and nothing is written after it). -/
def PrintsInto (accept : Calls → Bool) (text : List Nat) (x : Io Unit) : Prop :=
  ∃ result calls, x [] = .ok (result, calls) ∧
    match result with
    | .ok _ => AcceptedBefore accept calls calls.length ∧ calls.flatten = text
    | .error _ => calls ≠ [] ∧ accept calls = false ∧ AcceptedBefore accept calls (calls.length - 1) ∧
        calls.flatten <+: text

end Ibig
