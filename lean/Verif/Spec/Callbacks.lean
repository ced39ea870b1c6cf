import Verif.Model.Client
/-! # Specification vocabulary: the message callbacks of a connection -/
namespace Noise.Spec
open Noise.Cl
variable {ε : Type}

/-- The number of calls of `OnMessageSent`, `OnMessageRecv`. -/
def sentCalls (log : List (Event ε)) : Nat := log.countP fun | .sentCb => true | _ => false
def recvCalls (log : List (Event ε)) : Nat := log.countP fun | .recvCb => true | _ => false

/-- Where a connection stands with its outgoing messages: none written since the last `OnMessageSent`; some written; written and flushed. -/
inductive Out where
  | idle
  | writing
  | flushed
  deriving DecidableEq

/-- Legal sequences of writing, flushing and calling `OnMessageSent`: one or more messages, then a flush, then the call. Other events do not matter. -/
def Out.next : Out → Event ε → Option Out
  | .idle, .wrote _ | .writing, .wrote _ => some .writing
  | .writing, .flushed => some .flushed
  | .flushed, .sentCb => some .idle
  | _, .wrote _ | _, .flushed | _, .sentCb => none
  | p, _ => some p

/-- Where the connection stands after this log, if the log is legal. -/
def outOf (log : List (Event ε)) : Option Out := log.foldl (fun p e => p.bind fun p => p.next e) (some .idle)

/-- Legal sequences of deliveries to the handlers and calls of `OnMessageRecv`: they alternate. The state is: a delivery waits for its call. -/
def recvNext (pending : Bool) : Event ε → Option Bool
  | .delivered _ _ _ => if pending then none else some true
  | .recvCb => if pending then some false else none
  | _ => some pending

def recvOf (log : List (Event ε)) : Option Bool := log.foldl (fun p e => p.bind fun p => recvNext p e) (some false)

/-- A call of `OnMessageSent` or `OnMessageRecv`. -/
def messageCb : Event ε → Bool
  | .sentCb | .recvCb => true
  | _ => false

end Noise.Spec
