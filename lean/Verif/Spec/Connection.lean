import Verif.Model.Client
/-! # Specification vocabulary: reading the event log of a connection -/
namespace Noise.Spec
open Noise.Cl
variable {ε : Type}

/-- The messages submitted for sending, in order. -/
def submittedOf (log : List (Event ε)) : List Message := log.filterMap fun | .submitted m => some m | _ => none

/-- The messages put on the wire, in order. -/
def wroteOf (log : List (Event ε)) : List Message := log.filterMap fun | .wrote m => some m | _ => none

/-- The errors reported, in order. -/
def reportedOf (log : List (Event ε)) : List ε := log.filterMap fun | .reported e => some e | _ => none

/-- The received messages that are bound for the handlers, in order. -/
def toHandlersOf (log : List (Event ε)) : List Message := log.filterMap fun | .processed m false => some m | _ => none

/-- The messages put on the work queue, in order. -/
def deliveredOf (log : List (Event ε)) : List Message := log.filterMap fun | .delivered m _ _ => some m | _ => none

/-- The received messages that were processed, in order, whether a request claimed them or not. -/
def processedOf (log : List (Event ε)) : List Message := log.filterMap fun | .processed m _ => some m | _ => none

/-- The messages that the network and the peer gave to the receive loop, in order. -/
def readsOf (as : List (Action ε)) : List Message := as.filterMap fun | .readMsg m => some m | _ => none

/-- The calls of `OnPeerConnected`. -/
def connectedOf (log : List (Event ε)) : List (Option ID) := log.filterMap fun | .connected id => some id | _ => none

/-- The number of calls of `OnPeerDisconnected`. -/
def disconnects (log : List (Event ε)) : Nat := log.countP fun | .disconnected => true | _ => false

end Noise.Spec
