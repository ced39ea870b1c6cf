import Verif.Proofs.Requests
/-! # Property C21: nonces of requests -/
namespace Noise
open Spec

/-- The observations of a history of calls on a fresh table. -/
def reqHistory (ops : List ReqOp) : List ReqObs := (RequestMap.new.run 0 ops).2

/-- What the next request would observe after that history. -/
def reqNext (ops : List ReqOp) : ReqObs := ((RequestMap.new.run 0 ops).1.exec ops.length .register).2

/-- C21: after every history of requests, responses, failures and closings (of any length, so also after any number of wrap-arounds of the 64-bit
counter) the next request either gets a nonce that is not zero and not the nonce of an outstanding request, or is refused while some request is
outstanding; the k-th request for k < 2^64 is never refused and gets nonce k. -/
theorem C21_fresh_nonces (ops : List ReqOp) :
    ((∃ n, reqNext ops = .issued n ∧ n ≠ 0 ∧ ¬ Outstanding (reqHistory ops) n) ∨
      (reqNext ops = .refused ∧ ∃ n, n ≠ 0 ∧ Outstanding (reqHistory ops) n)) ∧
    (attempts (reqHistory ops) < 2 ^ 64 - 1 → reqNext ops = .issued (UInt64.ofNat (attempts (reqHistory ops) + 1))) := by
  have inv : ReqInv (RequestMap.new.run 0 ops).1 (reqHistory ops) := by
    simpa [reqHistory] using ReqInv.new.run 0 ops
  constructor
  · have hz := candidate_ne_zero (RequestMap.new.run 0 ops).1
    have hi := inv (RequestMap.new.run 0 ops).1.candidate
    cases hc : (RequestMap.new.run 0 ops).1.entries (RequestMap.new.run 0 ops).1.candidate with
    | none =>
      left
      rw [hc] at hi
      exact ⟨_, by simp only [reqNext, RequestMap.exec, RequestMap.nextNonce, hc], hz, fun h => by simpa using hi.2 h⟩
    | some x =>
      right
      rw [hc] at hi
      exact ⟨by simp only [reqNext, RequestMap.exec, RequestMap.nextNonce, hc], _, hz, hi.1 rfl⟩
  · intro h
    have he : ReqEarly RequestMap.new 0 := ⟨rfl, fun _ _ => rfl⟩
    have := he.run 0 ops (by simpa [reqHistory] using Nat.le_of_lt h)
    rw [Nat.zero_add] at this
    exact (this.exec ops.length .register h).1

/-- A request outstanding when the counter comes round again is refused, not confused: both sides of the alternative occur. -/
example : reqNext [.register, .find 1, .register] = .issued 3 ∧ Outstanding (reqHistory [.register, .find 1, .register]) 2 ∧
    ¬ Outstanding (reqHistory [.register, .find 1, .register]) 1 := by
  refine ⟨by decide, ⟨[.issued 1, .resolved 1], [], by decide, by simp, by simp⟩, ?_⟩
  have : reqHistory [.register, .find 1, .register] = (([] ++ [.issued 1]) ++ [.resolved 1]) ++ [.issued 2] := by decide
  rw [this, outstanding_snoc, outstanding_snoc, outstanding_snoc]
  simp [outstanding_nil]

/-- The counter wraps from 2^64-1 to 1, skipping 0. -/
example : (RequestMap.mk (fun _ => none) 18446744073709551615).candidate = 1 ∧
    ((RequestMap.mk (fun n => if n = 1 then some 7 else none) 18446744073709551615).exec 0 .register).2 = .refused := by decide

end Noise
