import Verif.Spec.KadSearch
import Verif.Model.KadPing
/-! # Specification vocabulary: the pings of `Ack` in a network of nodes with kademlia -/
namespace Noise.Spec
variable {ε : Type}

/-- Call `i` of `Ack` (or `OnPingFailed`) at node `n`, at time `t`. -/
def ThreadAt (σ : Nat → KPing.State ε) (n i t : Nat) (th : Kad.Thread) : Prop := ∃ p, (σ t).kw.parts[n]? = some p ∧ p.kad.threads[i]? = some th

/-- The result of a request is a pong. -/
def Pong (o : Kad.Opcodes) (r : Node.Result) : Prop := ∃ m, r = .response m ∧ m.data.take 2 = put16 o.pong

/-- Node `n` has made a request with a ping to this address, which has returned something else than a pong. -/
def PingFailed (c : KWire.Cfg ε) (s : KWire.State ε) (n : Nat) (addr : Text) : Prop :=
  ∃ (x : Node.State ε) (d : Node.Call ε) (r : Node.Result), s.net.nodes[n]? = some x ∧ d ∈ x.calls ∧ d.addr = addr ∧ d.kind = .request (Query.bytes c.ops .ping) ∧ d.pc = .returned r ∧ ¬ Pong c.ops r

/-- Between times `u` and `t`, node `n` has made a request with a ping to this address, which has returned something else than a pong. -/
def PingedInVain (c : KWire.Cfg ε) (σ : Nat → KPing.State ε) (n u t : Nat) (addr : Text) : Prop :=
  ∃ (x x' : Node.State ε) (k : Nat) (d : Node.Call ε) (r : Node.Result), (σ u).kw.net.nodes[n]? = some x ∧ x.calls[k]? = none ∧ (σ t).kw.net.nodes[n]? = some x' ∧ x'.calls[k]? = some d ∧ d.addr = addr ∧
    d.kind = .request (Query.bytes c.ops .ping) ∧ d.pc = .returned r ∧ ¬ Pong c.ops r

/-- At time `t` this identity is in the routing table of node `n`. -/
def InTable (σ : Nat → KPing.State ε) (n t : Nat) (e : ID) : Prop := ∃ p, (σ t).kw.parts[n]? = some p ∧ e ∈ p.kad.table.all

/-- A call of `Ping`, `Send` or `Request` at node `n` for this address could not connect. -/
def DialFailed (s : KWire.State ε) (n : Nat) (addr : Text) : Prop := ∃ (x : Node.State ε) (d : Node.Call ε), s.net.nodes[n]? = some x ∧ d ∈ x.calls ∧ d.addr = addr ∧ d.pc = .returned .dialFailed

/-- The address belongs to a node that answers pings from node `n`: all connections that node `n` dials there are unbroken, lead to a node with this address, and are used for fewer than 2^64 - 1 requests; that node has workers that run the handler of
kademlia, and no other handler that answers pings. -/
def Responsive (c : KWire.Cfg ε) (σ : Nat → KWire.State ε) (β : Nat → Option (KWire.Action ε)) (n : Nat) (addr : Text) : Prop :=
  ∀ t j x, (σ t).net.conn ⟨n, j⟩ = some x → x.c.side = .outbound → x.addr = addr → ∃ i : Net.End, (c.id i.node).address = addr ∧ Net.Unbroken (fun t => (σ t).net) (KWire.netActs c σ β) ⟨n, j⟩ i ∧ 0 < (c.node i.node).numWorkers ∧
    c.handler < (c.node i.node).numHandlers ∧ OnlyKademlia c σ i.node (Query.bytes c.ops .ping) ∧ ∀ t x, (σ t).net.conn ⟨n, j⟩ = some x → x.c.calls.length < 2 ^ 64 - 1

end Noise.Spec

namespace Noise.KPing
variable {ε : Type}

/-- A step, as a step of the network. -/
def kwOf (c : KWire.Cfg ε) (s : State ε) : Action ε → Option (KWire.Action ε)
  | .kw b => some b
  | .ping n i => match s.kw.parts[n]? with
    | some p => match p.kad.threads[i]? with
      | some ⟨_, .ping e⟩ => some (.net (.node n (.call (.request (request c.ops)) e.address)))
      | _ => none
    | none => none
  | .pinged n i => match s.waits.find? (fun w => w.node = n ∧ w.thread = i), s.kw.net.nodes[n]? with
    | some w, some x => match x.calls[w.call]? with
      | some d => match d.pc with
        | .returned r => some (.kad n (.pinged i (isPong c.ops r)))
        | _ => none
      | none => none
    | _, _ => none
  | .failed n k => match s.kw.net.nodes[n]? with
    | some x => (x.calls[k]?).map fun d => .kad n (.pingFailed d.addr)
    | none => none

/-- What the network does in an execution. -/
def kwActs (c : KWire.Cfg ε) (σ : Nat → State ε) (α : Nat → Option (Action ε)) (t : Nat) : Option (KWire.Action ε) := (α t).bind (kwOf c (σ t))

end Noise.KPing
