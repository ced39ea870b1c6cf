import Verif.Model.Kad
import Verif.Model.Client
/-!
# kademlia/protocol.go:156-213 bound to a node: connections, callbacks and the routing table

Composition of any number of connections (`Model/Client.lean`) with the routing table and the calls of `Ack` and `OnPingFailed` in progress (`Model/Kad.lean`): the callbacks `OnPeerConnected`, `OnMessageSent` and
`OnMessageRecv` call `Ack(client.ID())` (kademlia/protocol.go:188-213). `client.ID()` is the zero `ID{}` as long as the handshake has not verified one (client.go:117-119).

Simplified: the goroutine that calls the callback goes on while `Ack` runs (more interleavings than in the code, where it waits); outcomes of pings and failed dials are arbitrary; several protocols of this kind on one node are
not considered.
-/
namespace Noise.KadNode

/-- node.go:24-58 and kademlia/protocol.go:23-31: a node with the overlay. -/
structure State (ε : Type) where
  kad : Kad.State
  conns : List (Cl.State ε)
  /-- the IDs that the application itself has passed to `Ack` or to `Table().Update` -/
  user : List ID

variable {ε : Type}

/-- kademlia/protocol.go:169-170 `Bind`. -/
def State.new (t : Table) : State ε := ⟨Kad.State.new t, [], []⟩

/-- node.go:24-58 and kademlia/protocol.go:82-236: a step of the node, of the overlay, or of both. -/
inductive Action (ε : Type) where
  /-- a connection is accepted or begun -/
  | connect (side : Cl.Side)
  /-- connection number `i` does something -/
  | conn (i : Nat) (act : Cl.Action ε)
  /-- node.go:438: the dial of `a` has failed -/
  | dialFailed (a : Text)
  /-- call number `i` of `Ack` or `OnPingFailed` goes on -/
  | step (i : Nat)
  /-- its ping has ended -/
  | pinged (i : Nat) (pong : Bool)
  /-- the application calls `Ack(e)` -/
  | userAck (e : ID)
  /-- the application calls a method of `Table()` -/
  | userTable (op : TableOp)

/-- client.go:117-119 `ID()`. -/
def clientID (c : Cl.State ε) : ID := c.id.getD ID.zero

/-- kademlia/protocol.go:188-213: the arguments of `Ack` in the callbacks that are called in a step of a connection from `c` to `c'`. -/
def acks (c c' : Cl.State ε) : List ID := (c'.log.drop c.log.length).filterMap fun
  | .connected _ | .sentCb | .recvCb => some (clientID c')
  | _ => none

/-- `Ack` is called for each of them. kademlia/protocol.go:188-213. -/
def State.callAcks (s : State ε) (l : List ID) : State ε := { s with kad := { s.kad with threads := s.kad.threads ++ l.map fun e => ⟨e, .update⟩ } }

/-- client.go:508-514, 550-556, 643-649 call kademlia/protocol.go:188-213; otherwise one step of the node or of the overlay. -/
def step (s : State ε) (a : Action ε) : Option (State ε) :=
  if s.kad.crashed then none else
  match a with
  | .connect side => some { s with conns := s.conns ++ [Cl.State.new side] }
  | .conn i act => match s.conns[i]? with
    | some c => (Cl.step c act).map fun c' => ({ s with conns := s.conns.set i c' }).callAcks (acks c c')
    | none => none
  | .dialFailed a => (Kad.step s.kad (.pingFailed a)).map fun k => { s with kad := k }
  | .step i => (Kad.step s.kad (.step i)).map fun k => { s with kad := k }
  | .pinged i pong => (Kad.step s.kad (.pinged i pong)).map fun k => { s with kad := k }
  | .userAck e => (Kad.step s.kad (.ack e)).map fun k => { s with kad := k, user := s.user ++ [e] }
  | .userTable op => (Kad.step s.kad (.table op)).map fun k => { s with kad := k, user := match op with
    | .update e => s.user ++ [e]
    | _ => s.user }

/-- States reachable from a node that has just bound the protocol, with its own ID `self` in the table (kademlia/table.go:21-33). -/
def Reachable (self : ID) (s : State ε) : Prop := ∃ t, newTable self = some t ∧ ReachFrom step (State.new t) s

end Noise.KadNode
