import Verif.Model.KadNode
import Verif.Model.Search
import Verif.Model.Net
/-!
# Kademlia on a network of whole nodes

Composition of `Model/Net.lean` with the protocol of kademlia on each node: the routing table with the calls of `Ack` and `OnPingFailed` (`Model/Kad.lean`), `Handle`, called by the workers of the node, as one of its handlers, for
what comes over its connections (kademlia/protocol.go:216-236, node.go:182-196), and any number of searches (`Model/Iterator.lean`, `Model/Search.lean`), whose requests are calls of `Request` of the node. The callbacks of the connections
call `Ack` (kademlia/protocol.go:188-213, `Model/KadNode.lean`).

Simplified: the codecs of all nodes have given the same opcodes to the messages (`Model/Codec.lean`, C16). As in `Model/KadNode.lean`, the goroutine that calls a callback goes on while `Ack` runs, and the outcomes of the pings of `Ack` and the addresses
for which a dial is reported to have failed are arbitrary. `Handle` reads the table in the step in which it decodes the message. The methods of `Table()` that change nothing are left out.
-/
namespace Noise.KWire
variable {ε : Type}

/-- node.go:29-43, kademlia/protocol.go:168-184: the configurations and IDs of the nodes; the opcodes of the messages; which of the handlers is that of kademlia. -/
structure Cfg (ε : Type) where
  node : Nat → Node.Cfg ε
  id : Nat → ID
  ops : Kad.Opcodes
  handler : Nat

/-- kademlia/protocol.go:216-236: where a call of `Handle` is. -/
inductive HPc where
  /-- 217-220, 235: it returns nil -/
  | ignored
  /-- 224-226, 229-231: it returns an error -/
  | failed
  /-- 227, 232: it is about to send this -/
  | reply (data : Bytes)
  /-- 227, 232: it has sent its reply -/
  | replied
  deriving DecidableEq

/-- kademlia/protocol.go:216-236: a call of `Handle`, for this item of the work queue. -/
structure Run where
  item : Nat
  pc : HPc
  deriving DecidableEq

/-- kademlia/iterator.go:13-29: a search, what it got from `Peers()`, and the requests that have not ended. -/
structure Find where
  cfg : Iter.Cfg
  peers : List ID
  it : Iter.State
  asks : List Search.Ask

/-- kademlia/protocol.go:23-31: kademlia on one node. `user` are the IDs that the application itself has passed to `Ack` or to `Table().Update`. -/
structure Part where
  kad : Kad.State
  runs : List Run
  finds : List Find
  user : List ID

/-- kademlia/protocol.go:23-31, node.go:24-58: the nodes, and kademlia on each. -/
structure State (ε : Type) where
  net : Net.State ε
  parts : List Part

/-- kademlia/protocol.go:168-184 `Bind`. -/
def Part.new (t : Table) : Part := ⟨Kad.State.new t, [], [], []⟩

/-- node.go:62-102, kademlia/protocol.go:168-184, for each of `n` nodes; kademlia/table.go:21-33 for its table. -/
def Start (c : Cfg ε) (n : Nat) (s : State ε) : Prop :=
  ∃ ts : List Table, ts.length = n ∧ (∀ i t, ts[i]? = some t → newTable (c.id i) = some t) ∧ s = ⟨Net.State.new n, ts.map Part.new⟩

/-- kademlia/protocol.go:43-236, kademlia/iterator.go:55-180, node.go:109-441: the steps. -/
inductive Action (ε : Type) where
  /-- anything in the nodes and the network, other than the following -/
  | net (a : Net.Action ε)
  /-- a step of a call of `Ack` or `OnPingFailed` at node `n`, a call of `OnPingFailed`, or a call of `Ack` or of a method of `Table()` by the application -/
  | kad (n : Nat) (a : Kad.Action)
  /-- worker `w` of node `n` is in the handler of kademlia; it has decoded the message and read the table (kademlia/protocol.go:217-232) -/
  | handle (n w : Nat)
  /-- that call of `Handle` sends its reply (kademlia/protocol.go:227, 232) -/
  | reply (n w : Nat)
  /-- that call of `Handle` returns -/
  | leave (n w : Nat) (r : Option ε)
  /-- `Find` (or `Discover`) is called at node `n`, for this target and with these options -/
  | find (n : Nat) (target : PublicKey) (lookups requests : Nat) (max : Int)
  /-- a step of search `f` at node `n`, other than the following -/
  | it (n f : Nat) (a : Iter.Action)
  /-- worker `j` of lookup `i` takes a peer from the queue and calls `RequestMessage` (kademlia/iterator.go:156-165) -/
  | ask (n f i j : Nat)
  /-- that call has returned (kademlia/iterator.go:165-179); `who` is for the history only -/
  | answer (n f i j : Nat) (who : PublicKey)

/-- node.go:187, kademlia/protocol.go:216: worker `w` is in the handler of kademlia for this item. -/
def invocation (c : Cfg ε) (x : Node.State ε) (w : Nat) : Option (Nat × Wk.Item) := match x.wk with
  | some q => match q.workers[w]? with
    | some (.inside k h) => if h = c.handler then (q.items[k]?).map fun it => (k, it) else none
    | _ => none
  | none => none

/-- kademlia/protocol.go:216-236: the steps of a node that are not for its environment to decide: what the handler of kademlia sends and returns is determined by the code. -/
def bars (c : Cfg ε) (s : Net.State ε) : Net.Action ε → Bool
  | .node _ (.ctxSend _ h _) => h = c.handler
  | .node n (.handlerReturn w _) => match s.nodes[n]? with
    | some x => (invocation c x w).isSome
    | none => false
  | _ => false

/-- kademlia/protocol.go:188-213: the arguments of `Ack` in the callbacks that are called in a step of a node from `x` to `x'`. -/
def acks (x x' : Node.State ε) : List ID := (List.range x'.conns.length).flatMap fun j => match x.conns[j]?, x'.conns[j]? with
  | some y, some y' => KadNode.acks y.c y'.c
  | _, _ => []

/-- kademlia/protocol.go:188-213: `Ack` is called for each of them. -/
def Part.callAcks (p : Part) (l : List ID) : Part := { p with kad := { p.kad with threads := p.kad.threads ++ l.map fun e => ⟨e, .update⟩ } }

/-- kademlia/protocol.go:188-213 for node `n`, in a step of the network from `s` to `s'`. -/
def called (s s' : Net.State ε) (n : Nat) (p : Part) : Part := match s.nodes[n]?, s'.nodes[n]? with
  | some x, some x' => p.callAcks (acks x x')
  | _, _ => p

/-- The process of node `n` has crashed in kademlia (kademlia/table.go:41-46). -/
def dead (s : State ε) : Net.Action ε → Bool
  | .node n _ => match s.parts[n]? with
    | some p => p.kad.crashed
    | none => false
  | _ => false

/-- node.go:109-441 and the callbacks: a step of the network. -/
def State.go (c : Cfg ε) (s : State ε) (a : Net.Action ε) : Option (State ε) :=
  if dead s a then none else (Net.step c.node s.net a).map fun net => ⟨net, s.parts.mapIdx (called s.net net)⟩

/-- Not in the code: kademlia on node `n` goes on, unless the process has crashed. -/
def State.with (s : State ε) (n : Nat) (f : Node.State ε → Part → Option Part) : Option (State ε) := match s.net.nodes[n]?, s.parts[n]? with
  | some x, some p => if x.crashed || p.kad.crashed then none else (f x p).map fun p' => { s with parts := s.parts.set n p' }
  | _, _ => none

/-- kademlia/protocol.go:216-236, for this message. -/
def start (S : Sorter) (o : Kad.Opcodes) (t : Table) (m : Message) : Option HPc := match Kad.handle S o t m.nonce m.data with
  | .ok ⟨(_, data) :: _, _⟩ => some (.reply data)
  | .ok ⟨[], failed⟩ => some (if failed then .failed else .ignored)
  | _ => none

/-- kademlia/protocol.go:216-236: it may return this; 227, 232: if its reply could not be sent, an error. -/
def returns : HPc → Option ε → Bool
  | .ignored, r => r.isNone
  | .failed, r => r.isSome
  | .reply _, r => r.isSome
  | .replied, _ => true

/-- node.go:29-43, kademlia/iterator_options.go: the node and the options of a search at node `n`. -/
def Cfg.search (c : Cfg ε) (n : Nat) (it : Iter.Cfg) : Search.Cfg ε := ⟨c.node n, it, c.ops.request, c.ops.response⟩

/-- kademlia/iterator.go:55-180: a search goes on without a new request. -/
def Find.step (S : Sorter) (c : Cfg ε) (n : Nat) (x : Node.State ε) (f : Find) (a : Search.Action ε) : Option Find :=
  (Search.step S (c.search n f.cfg) ⟨x, f.it, f.asks⟩ a).map fun s => { f with it := s.it, asks := s.asks }

/-- The application's part in a step. kademlia/protocol.go:75, 81-85, kademlia/table.go:67-151. -/
def given : Kad.Action → List ID
  | .ack e => [e]
  | .table (.update e) => [e]
  | _ => []

/-- kademlia/protocol.go:43-236, kademlia/iterator.go:55-180, node.go:109-441: one atomic step; `none`: not enabled. -/
def step (S : Sorter) (c : Cfg ε) (s : State ε) : Action ε → Option (State ε)
  | .net a => if bars c s.net a then none else s.go c a
  | .kad n a => s.with n fun _ p => (Kad.step p.kad a).map fun k => { p with kad := k, user := p.user ++ given a }
  | .handle n w => s.with n fun x p => match invocation c x w with
    | some (k, it) => if p.runs.any (fun r => r.item = k) then none else (start S c.ops p.kad.table it.msg).map fun pc => { p with runs := p.runs ++ [⟨k, pc⟩] }
    | none => none
  | .reply n w => match s.net.nodes[n]?, s.parts[n]? with
    | some x, some p => match invocation c x w with
      | some (k, _) => match p.runs.find? (fun r => r.item = k) with
        | some ⟨_, .reply data⟩ =>
          ({ s with parts := s.parts.set n { p with runs := p.runs.map fun r => if r.item = k then ⟨k, .replied⟩ else r } } : State ε).go c (.node n (.ctxSend k c.handler data))
        | _ => none
      | none => none
    | _, _ => none
  | .leave n w r => match s.net.nodes[n]?, s.parts[n]? with
    | some x, some p => match invocation c x w with
      | some (k, _) => match p.runs.find? (fun r => r.item = k) with
        | some run => if returns run.pc r then s.go c (.node n (.handlerReturn w r)) else none
        | none => none
      | none => none
    | _, _ => none
  | .find n target lookups requests max => s.with n fun _ p => match p.kad.table.peers S with
    | .ok peers => match Iter.init ⟨(c.id n).id, target, requests, max⟩ lookups peers with
      | .ok it => some { p with finds := p.finds ++ [⟨⟨(c.id n).id, target, requests, max⟩, peers, it, []⟩] }
      | _ => none
    | _ => none
  | .it n f a => s.with n fun x p => match p.finds[f]? with
    | some q => (q.step S c n x (.it a)).map fun q' => { p with finds := p.finds.set f q' }
    | none => none
  | .ask n f i j => match s.net.nodes[n]?, s.parts[n]? with
    | some x, some p => match p.finds[f]? with
      | some q => match Search.next q.it i j with
        | some id => match Iter.step S q.cfg q.it (.lookup i (.worker j)) with
          | some it =>
            ({ s with parts := s.parts.set n { p with finds := p.finds.set f { q with it := it, asks := q.asks ++ [⟨i, j, x.calls.length⟩] } } } : State ε).go c
              (.node n (.call (.request (Search.encode c.ops.request id.id)) id.address))
          | none => none
        | none => none
      | none => none
    | _, _ => none
  | .answer n f i j who => s.with n fun x p => match p.finds[f]? with
    | some q => (q.step S c n x (.reply i j who)).map fun q' => { p with finds := p.finds.set f q' }
    | none => none

/-- Not in the code: the states that any finite schedule can lead to, for the theorems. -/
def Reachable (S : Sorter) (c : Cfg ε) (n : Nat) (s : State ε) : Prop := ∃ s0, Start c n s0 ∧ ReachFrom (step S c) s0 s

end Noise.KWire
