import Verif.Spec.GossipRuns
import Verif.Spec.NetLive
/-! # Specification vocabulary: networks in which gossip spreads -/
namespace Noise.Spec
open Net
variable {ε : Type}

/-- `Push` has been called with this data on node `n`, by its application or by the handler of gossip. -/
def Pushes (s : GWire.State ε) (n : Nat) (data : Bytes) : Prop := ∃ (p : GWire.Part ε) (q : Gossip.Pushing), s.parts[n]? = some p ∧ q ∈ p.g.pushes ∧ q.data = data

/-- The application of node `n` has this data: it was reported to it, or it has called `Push` with it. -/
def Has (s : GWire.State ε) (n : Nat) (data : Bytes) : Prop := ∃ p : GWire.Part ε, s.parts[n]? = some p ∧ ((∃ sender, (sender, data) ∈ p.g.delivered) ∨ data ∈ p.pushed)

/-- At time `t`, push `k` of node `n` reads the routing table and finds these entries. -/
def Reads (σ : Nat → GWire.State ε) (α : Nat → Option (GWire.Action ε)) (n k t : Nat) (table : List ID) : Prop :=
  α t = some (.own n (.pushing k table)) ∧ ∃ (p : GWire.Part ε) (q : Gossip.Pushing), (σ t).parts[n]? = some p ∧ p.g.pushes[k]? = some q ∧ q.pc = .entries

/-- Nobody but gossip sends gossip messages: there are no connections to the outside, applications do not send gossip messages except by `Push`, handlers do not send them in reply; and a connection that a node has accepted has the key of the node that has dialled it. -/
structure OnlyGossip (c : GWire.Cfg ε) (s : GWire.State ε) : Prop where
  closed : s.net.foreign = []
  replies : ∀ (n j : Nat) (x : Node.State ε) (data : Bytes), s.net.nodes[n]? = some x → (⟨0, gossipBytes c.op data⟩ : Message) ∉ answeredOn x j
  sends : ∀ (n k : Nat) (x : Node.State ε) (p : GWire.Part ε) (d : Node.Call ε) (data : Bytes), s.net.nodes[n]? = some x → s.parts[n]? = some p → x.calls[k]? = some d → d.kind = .send (gossipBytes c.op data) → ∃ a ∈ p.asks, a.call = k
  peers : ∀ (o i : End) (x : Node.Conn ε) (id : ID), Linked s.net o i → s.net.conn i = some x → x.c.id = some id → id.id = c.key o.node

/-- From time `T` on, node `o.node` keeps node `i.node` informed: it has a connection with it, which it has dialled at `addr` and on which nothing fails; whenever one of its pushes reads the routing table, it finds that node there, with this address. Its gossip is scheduled fairly; it calls no
more addresses than its pool may hold; the contexts of its pushes do not end. The application of the other node accepts what is reported to it. -/
structure Informs (c : GWire.Cfg ε) (N : Nat) (σ : Nat → GWire.State ε) (α : Nat → Option (GWire.Action ε)) (β : Nat → Option (Net.Action ε)) (T : Nat) (o i : End) (addr : Text) : Prop where
  runs : GossipRuns c N o.node σ α
  link : Unbroken (fun t => (σ t).net) β o i
  conn : ∃ x, (σ T).net.conn o = some x ∧ x.addr = addr
  table : ∀ t k l, T ≤ t → Reads σ α o.node k t l → ∃ peer ∈ l, peer.id = c.key i.node ∧ peer.address = addr
  few : ∃ L : List Text, L.length ≤ (c.node o.node).max ∧ ∀ t k d, CallAt (fun t => (σ t).net) o.node k t d → d.addr ∈ L
  patient : ∀ t p (a : GWire.Ask), (σ t).parts[o.node]? = some p → a ∈ p.asks → Endless (fun t => (σ t).net) o.node a.call
  accepts : ∀ t p, (σ t).parts[i.node]? = some p → p.errors = []
  attempts : 0 < (c.node o.node).attempts
  workers : 0 < (c.node o.node).numWorkers ∧ 0 < (c.node i.node).numWorkers
  handler : c.handler < (c.node i.node).numHandlers

/-- From time `T` on, node `n` keeps node `m` informed. -/
def KeepsInformed (c : GWire.Cfg ε) (N : Nat) (σ : Nat → GWire.State ε) (α : Nat → Option (GWire.Action ε)) (β : Nat → Option (Net.Action ε)) (T n m : Nat) : Prop :=
  ∃ (o i : End) (addr : Text), o.node = n ∧ i.node = m ∧ Informs c N σ α β T o i addr

end Noise.Spec
