import Verif.Model.Gossip
import Verif.Model.Net
import Verif.Model.KadNode
/-!
# Gossip on a network of whole nodes

Composition of `Model/Gossip.lean` (gossip/protocol.go), one instance for each node, with `Model/Net.lean`: the sends of the goroutines of `Push` are calls of `Send` of the node among any other calls (gossip/protocol.go:79,
node.go:276-283, 316-336), and `Handle` is called by the workers of the node, as one of its handlers, for what comes over its connections (gossip/protocol.go:91-125, node.go:182-196). A goroutine of `Push` goes on when its call has returned, and a
worker when `Handle` has.

Simplified: the codec of all nodes has given the same opcode to `gossip.Message` (`Model/Codec.lean`, C16). The entries of the routing table are arbitrary each time they are read (`Model/KadNode.lean`). The contexts of pushes end at any time, as those of all calls.
-/
namespace Noise.GWire
variable {ε : Type}

/-- node.go:29-43, gossip/protocol.go:48-55: the configurations and keys of the nodes; the opcode of `gossip.Message`; which of the handlers is that of gossip. Not in the code: a bound on the pushes that run at the same time on a node, as in `Model/Gossip.lean`. -/
structure Cfg (ε : Type) where
  node : Nat → Node.Cfg ε
  key : Nat → PublicKey
  op : UInt16
  handler : Nat
  pushes : Nat → Nat

/-- gossip/protocol.go:15-21 for node `n`. -/
def Cfg.gossip (c : Cfg ε) (n : Nat) : Gossip.Cfg := ⟨c.key n, (c.node n).numWorkers, c.pushes n⟩

/-- node.go:276-283, codec.go:58-77, gossip/msg.go:7-9 `Marshal`: what `SendMessage(Message(data))` passes to `Send`. -/
def encode (op : UInt16) (data : Bytes) : Bytes := put16 op ++ data

/-- gossip/protocol.go:92-104, msg.go:63-65, 88-93, codec.go:79-102, gossip/msg.go:12-14: the data of a gossip message; `none`: `Handle` returns nil at once. -/
def decode (op : UInt16) (m : Message) : Option Bytes :=
  if m.isRequest then none else if m.data.take 2 = put16 op then some (m.data.drop 2) else none

/-- Goroutine `gor` of push `push` is in call `call` of `SendMessage`, or has been. gossip/protocol.go:79. -/
structure Ask where
  push : Nat
  gor : Nat
  call : Nat
  deriving DecidableEq

/-- gossip/protocol.go:15-21: gossip on one node. `pushed` is what the application has called `Push` with. -/
structure Part (ε : Type) where
  g : Gossip.State
  pushed : List Bytes
  asks : List Ask
  /-- for which item of the work queue `Handle` was called, and the number of the call -/
  runs : List (Nat × Nat)
  /-- calls of `Handle` for which `OnGossipReceived` has returned an error -/
  errors : List (Nat × ε)

/-- gossip/protocol.go:25-36, node.go:24-58: the nodes, and gossip on each. -/
structure State (ε : Type) where
  net : Net.State ε
  parts : List (Part ε)

/-- gossip/protocol.go:25-36 `New`. -/
def Part.new : Part ε := ⟨Gossip.State.new, [], [], [], []⟩
/-- node.go:62-102, gossip/protocol.go:25-36, for each node. -/
def State.new (n : Nat) : State ε := ⟨Net.State.new n, List.replicate n Part.new⟩

/-- gossip/protocol.go:61-125, node.go:109-441: the steps. -/
inductive Action (ε : Type) where
  /-- anything in the nodes and the network, other than the following -/
  | net (a : Net.Action ε)
  /-- the application of node `n` calls `Push` -/
  | push (n : Nat) (data : Bytes)
  /-- a step of a call of `Handle` or `Push` at node `n`, other than the following -/
  | own (n : Nat) (a : Gossip.Action)
  /-- `OnGossipReceived` returns -/
  | callback (n i : Nat) (r : Option ε)
  /-- worker `w` of node `n` is in the handler of gossip; it has decoded the message (gossip/protocol.go:91-104) -/
  | enter (n w : Nat)
  /-- the call of `Handle` on worker `w` returns -/
  | leave (n w : Nat)
  /-- goroutine `j` of push `k` calls `SendMessage` -/
  | send (n k j : Nat)
  /-- that call has returned -/
  | sent (n k j : Nat)

/-- node.go:187, gossip/protocol.go:91-104: worker `w` is in the handler of gossip for this item. -/
def invocation (c : Cfg ε) (x : Node.State ε) (w : Nat) : Option (Nat × Wk.Item) := match x.wk with
  | some q => match q.workers[w]? with
    | some (.inside k h) => if h = c.handler then (q.items[k]?).map fun it => (k, it) else none
    | _ => none
  | none => none

/-- gossip/protocol.go:91-125: the steps of a node that are not for its environment to decide: gossip sends nothing with a context, and what its handler returns is determined by the code. -/
def bars (c : Cfg ε) (s : Net.State ε) : Net.Action ε → Bool
  | .node _ (.ctxSend _ h _) => h = c.handler
  | .node n (.handlerReturn w r) => match s.nodes[n]? with
    | some x => match invocation c x w with
      | some (_, it) => (decode c.op it.msg).isSome || r.isSome
      | none => false
    | none => false
  | _ => false

/-- Not in the code: gossip on node `n` goes on, unless the process has crashed. -/
def State.with (s : State ε) (n : Nat) (f : Node.State ε → Part ε → Option (Part ε)) : Option (State ε) := match s.net.nodes[n]?, s.parts[n]? with
  | some x, some p => if x.crashed then none else (f x p).map fun p' => { s with parts := s.parts.set n p' }
  | _, _ => none

/-- gossip/protocol.go:72-79: the message and the peer of goroutine `j` of push `k`, which is about to send or sends. -/
def sending (g : Gossip.State) (k j : Nat) : Option (Bytes × ID) := match g.pushes[k]? with
  | some p => match p.gors[j]? with
    | some q => if q.pc = .send then some (p.data, q.peer) else none
    | none => none
  | none => none

/-- gossip/protocol.go:61-125, node.go:109-441: one atomic step; `none`: not enabled. -/
def step (c : Cfg ε) (s : State ε) : Action ε → Option (State ε)
  | .net a => if bars c s.net a then none else (Net.step c.node s.net a).map fun x => { s with net := x }
  | .push n data => s.with n fun _ p => (Gossip.step (c.gossip n) p.g (.push data)).map fun g => { p with g := g, pushed := p.pushed ++ [data] }
  | .own n a => s.with n fun _ p => match a with
    | .receive _ _ | .callback _ _ | .push _ | .sent _ _ _ => none
    | a => (Gossip.step (c.gossip n) p.g a).map fun g => { p with g := g }
  | .callback n i r => s.with n fun _ p => (Gossip.step (c.gossip n) p.g (.callback i r.isNone)).map fun g =>
      { p with g := g, errors := match r with
        | some e => p.errors ++ [(i, e)]
        | none => p.errors }
  | .enter n w => s.with n fun x p => match invocation c x w with
    | some (k, it) => match decode c.op it.msg, x.conns[it.client]? with
      | some data, some y =>
        if p.runs.any (fun r => r.1 = k) then none
        else (Gossip.step (c.gossip n) p.g (.receive (KadNode.clientID y.c) data)).map fun g => { p with g := g, runs := p.runs ++ [(k, p.g.handlers.length)] }
      | _, _ => none
    | none => none
  | .leave n w => match s.net.nodes[n]?, s.parts[n]? with
    | some x, some p => match invocation c x w with
      | some (k, _) => match p.runs.find? (fun r => r.1 = k) with
        | some (_, i) =>
          if (p.g.handlers[i]?).any (fun h => h.pc = .done) then
            (Net.step c.node s.net (.node n (.handlerReturn w ((p.errors.find? (fun e => e.1 = i)).map Prod.snd)))).map fun y => { s with net := y }
          else none
        | none => none
      | none => none
    | _, _ => none
  | .send n k j => match s.net.nodes[n]?, s.parts[n]? with
    | some x, some p => match sending p.g k j with
      | some (data, peer) =>
        if p.asks.any (fun a => a.push = k ∧ a.gor = j) then none
        else (Net.step c.node s.net (.node n (.call (.send (encode c.op data)) peer.address))).map fun y => ⟨y, s.parts.set n { p with asks := p.asks ++ [⟨k, j, x.calls.length⟩] }⟩
      | none => none
    | _, _ => none
  | .sent n k j => s.with n fun x p => match p.asks.find? (fun a => a.push = k ∧ a.gor = j) with
    | some a => match x.calls[a.call]? with
      | some d => match d.pc with
        | .returned r => (Gossip.step (c.gossip n) p.g (.sent k j (r = .sent))).map fun g => { p with g := g }
        | _ => none
      | none => none
    | none => none

/-- Not in the code: the states that any finite schedule can lead to, for the theorems. -/
abbrev Reachable (c : Cfg ε) (n : Nat) (s : State ε) : Prop := ReachFrom (step c) (State.new n) s

end Noise.GWire
