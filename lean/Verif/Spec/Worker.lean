import Verif.Model.Worker
/-! # Specification vocabulary: reading the event log of the workers -/
namespace Noise.Spec
open Noise.Wk
variable {ε : Type}

/-- The event is about the handling of item `k`. -/
def about (k : Nat) : Wk.Event ε → Bool
  | .taken _ k' | .started k' _ | .finished k' _ _ => k' = k
  | _ => false

/-- The events about item `k`, in order. -/
def handlingOf (k : Nat) (log : List (Wk.Event ε)) : List (Wk.Event ε) := log.filter (about k)

/-- Worker `w` took item `k` and the first `n` handlers, in order, were run and succeeded. -/
def handledUpTo (w k n : Nat) : List (Wk.Event ε) := .taken w k :: (List.range n).flatMap fun h => [.started k h, .finished k h none]

/-- The handlers that successfully sent something back for item `k`, in order; and the same for one handler. -/
def respondersOf (k : Nat) (log : List (Wk.Event ε)) : List Nat := log.filterMap fun | .sendOk k' h _ _ => if k' = k then some h else none | _ => none

/-- How many handler invocations returned an error. -/
def failures (log : List (Wk.Event ε)) : Nat := log.countP fun | .finished _ _ (some _) => true | _ => false

/-- The items taken off the queue, in order. -/
def takenOf (log : List (Wk.Event ε)) : List Nat := log.filterMap fun | .taken _ k => some k | _ => none

end Noise.Spec
