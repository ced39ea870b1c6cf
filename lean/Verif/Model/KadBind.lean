import Verif.Model.KadNode
/-!
# kademlia/protocol.go before the node listens

`(*Node).Bind` only stores the protocol (node.go:450-456); its `Bind`, which sets `p.node`, `p.table` and `p.logger` (kademlia/protocol.go:168-175), is called by `Listen` (node.go:167-176). Until then `p.table` and `p.node` are nil: a method of the
nil table panics when it locks its mutex (kademlia/table.go:42-216), except for `Update` with the zero key, which returns before that (kademlia/table.go:67-69); and so does a method of the nil node (node.go:505, 511). Connections can be dialled before that (node.go:390-441), and their callbacks
are those of the protocol.

Composition of any number of connections (`Model/Client.lean`) with the protocol before and after `Listen`; after it, this is `Model/KadNode.lean`. Simplified: `Listen` is called once and succeeds; the crash of the nil table is
the only one here, that of a bound protocol is in `Kad.State.crashed`; the callback `OnPeerActivity` that `Ack` calls for the zero key is not recorded before `Listen`.
-/
namespace Noise.KadBind

/-- kademlia/protocol.go:23-31: the protocol, whose table is nil until `Bind` (168-184) is called. -/
structure State (ε : Type) where
  /-- `none`: not bound yet, the table is nil -/
  kad : Option Kad.State
  conns : List (Cl.State ε)
  user : List ID
  /-- nil has been dereferenced -/
  crashed : Bool

variable {ε : Type}

/-- The protocol has been given to `(*Node).Bind`. node.go:449-455. -/
def State.new : State ε := ⟨none, [], [], false⟩

/-- kademlia/protocol.go:48-213: what can happen before and after `Bind`. -/
inductive Action (ε : Type) where
  /-- node.go:104-176: `Listen` calls `Bind` of the protocol; the node's ID is now `self` -/
  | listen (self : ID)
  /-- kademlia/protocol.go:48-56, 73-76, gossip/protocol.go:61-64: the application calls `Find`, `Discover`, gossip's `Push`, or a method of `Table()` that only reads -/
  | find
  /-- anything else -/
  | node (a : KadNode.Action ε)

/-- kademlia/table.go:66-73: `Update` of the nil table panics. -/
def panics (e : ID) : Bool := decide (e.id ≠ zeroPublicKey)

/-- One step while the table is nil. kademlia/protocol.go:48-213. -/
def stepNil (s : State ε) : KadNode.Action ε → Option (State ε)
  /- node.go:212-224: only a node that listens accepts connections -/
  | .connect .inbound => none
  | .connect .outbound => some { s with conns := s.conns ++ [Cl.State.new .outbound] }
  | .conn i act => match s.conns[i]? with
    | some c => (Cl.step c act).map fun c' => { s with conns := s.conns.set i c', crashed := (KadNode.acks c c').any panics }
    | none => none
  | .dialFailed _ => some { s with crashed := true }
  | .userAck e | .userTable (.update e) => some { s with crashed := panics e }
  | .userTable _ => some { s with crashed := true }
  | .step _ | .pinged _ _ => none

/-- kademlia/protocol.go:48-213: one step; `none`: not enabled. -/
def step (s : State ε) (a : Action ε) : Option (State ε) :=
  if s.crashed then none else
  match a, s.kad with
  | .listen self, none => (newTable self).map fun t => { s with kad := some (Kad.State.new t) }
  | .listen _, some _ => none
  | .find, none => some { s with crashed := true }
  | .find, some _ => some s
  | .node a, none => stepNil s a
  | .node a, some k => (KadNode.step ⟨k, s.conns, s.user⟩ a).map fun n => { s with kad := some n.kad, conns := n.conns, user := n.user }

/-- Not in the code: the states that any finite schedule can lead to, for the theorems. -/
def Reachable (s : State ε) : Prop := ReachFrom step State.new s

end Noise.KadBind
