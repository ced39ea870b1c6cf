import Verif.Model.Requests
/-! # Specification vocabulary: outstanding requests -/
namespace Noise.Spec
open Noise

/-- In the observed history, nonce `n` was issued to a request that has neither been resolved nor closed since. -/
def Outstanding (hist : List ReqObs) (n : UInt64) : Prop :=
  ∃ pre post, hist = pre ++ .issued n :: post ∧ .resolved n ∉ post ∧ .closedAll ∉ post

/-- Number of requests attempted in a history. -/
def attempts (hist : List ReqObs) : Nat :=
  hist.countP fun o => match o with | .issued _ => true | .refused => true | _ => false

end Noise.Spec
