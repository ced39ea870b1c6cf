import Verif.Model.KadWire
/-!
# Kademlia on a network of whole nodes: where the results of pings come from

`Model/KadWire.lean`, with the pings of `Ack` (kademlia/protocol.go:106-141) and the calls of `OnPingFailed` (kademlia/protocol.go:193-201) joined to the node: `Ack` makes a call of `Request` on the node and goes on with its result; `OnPingFailed` is called
for the calls of `Ping`, `Send` and `Request` that could not connect (node.go:416-438).

Simplified: as in `Model/KadWire.lean`, the goroutine that calls a callback goes on while `Ack` runs (in the code it waits, so that a ping over the very connection whose receive loop has called `Ack` is not answered before its timeout, see also C91); and `OnPingFailed` is called when the call has returned, not just before.
-/
namespace Noise.KPing
variable {ε : Type}

/-- kademlia/protocol.go:109: thread `thread` of node `node` (a call of `Ack`) waits for this call of `Request`. -/
structure Wait where
  node : Nat
  thread : Nat
  call : Nat
  deriving DecidableEq

/-- kademlia/protocol.go:82-201, node.go:109-441: the network; the pings that `Ack` waits for; the calls (node and index) for which `OnPingFailed` has been called. -/
structure State (ε : Type) where
  kw : KWire.State ε
  waits : List Wait
  reported : List (Nat × Nat)

/-- kademlia/protocol.go:82-201, node.go:109-441: the steps. -/
inductive Action (ε : Type) where
  /-- anything in the network, other than the following -/
  | kw (a : KWire.Action ε)
  /-- call `i` of `Ack` at node `n` pings (kademlia/protocol.go:108-109) -/
  | ping (n i : Nat)
  /-- that call of `Request` has returned (kademlia/protocol.go:109-141) -/
  | pinged (n i : Nat)
  /-- `OnPingFailed` is called for call `k` of node `n` (node.go:418-438) -/
  | failed (n k : Nat)

/-- kademlia/protocol.go:109, kademlia/msg.go:10-16, codec.go:55-77: the request. -/
def request (o : Kad.Opcodes) : Bytes := put16 o.ping ++ marshalPing

/-- kademlia/protocol.go:109-126, codec.go:79-102: the request has returned a `Pong`. -/
def isPong (o : Kad.Opcodes) : Node.Result → Bool
  | .response m => decide (2 ≤ m.data.length ∧ get16 (m.data.take 2) = .ok o.pong)
  | _ => false

/-- kademlia/protocol.go:109, 193: what the code decides, not its environment. -/
def decided : KWire.Action ε → Bool
  | .kad _ (.pinged _ _) => true
  | .kad _ (.pingFailed _) => true
  | _ => false

/-- kademlia/protocol.go:82-201, node.go:109-441: one atomic step; `none`: not enabled. -/
def step (S : Sorter) (c : KWire.Cfg ε) (s : State ε) : Action ε → Option (State ε)
  | .kw a => if decided a then none else (KWire.step S c s.kw a).map fun k => { s with kw := k }
  | .ping n i => match s.kw.net.nodes[n]?, s.kw.parts[n]? with
    | some x, some p => match p.kad.threads[i]? with
      | some ⟨_, .ping e⟩ =>
        if s.waits.any (fun w => w.node = n ∧ w.thread = i) then none
        else (KWire.step S c s.kw (.net (.node n (.call (.request (request c.ops)) e.address)))).map fun k => { s with kw := k, waits := s.waits ++ [⟨n, i, x.calls.length⟩] }
      | _ => none
    | _, _ => none
  | .pinged n i => match s.waits.find? (fun w => w.node = n ∧ w.thread = i), s.kw.net.nodes[n]? with
    | some w, some x => match x.calls[w.call]? with
      | some d => match d.pc with
        | .returned r => (KWire.step S c s.kw (.kad n (.pinged i (isPong c.ops r)))).map fun k => { s with kw := k, waits := s.waits.filter fun w => ¬ (w.node = n ∧ w.thread = i) }
        | _ => none
      | none => none
    | _, _ => none
  | .failed n k => match s.kw.net.nodes[n]? with
    | some x => match x.calls[k]? with
      | some d => match d.pc with
        | .returned .dialFailed => if s.reported.contains (n, k) then none else (KWire.step S c s.kw (.kad n (.pingFailed d.addr))).map fun y => { s with kw := y, reported := s.reported ++ [(n, k)] }
        | _ => none
      | none => none
    | none => none

/-- node.go:62-102, kademlia/protocol.go:168-184, for each of `n` nodes. -/
def Start (c : KWire.Cfg ε) (n : Nat) (s : State ε) : Prop := KWire.Start c n s.kw ∧ s.waits = [] ∧ s.reported = []

/-- Not in the code: the states that any finite schedule can lead to, for the theorems. -/
def Reachable (S : Sorter) (c : KWire.Cfg ε) (n : Nat) (s : State ε) : Prop := ∃ s0, Start c n s0 ∧ ReachFrom (step S c) s0 s

end Noise.KPing
