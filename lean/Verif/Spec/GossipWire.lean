import Verif.Model.GossipWire
import Verif.Props.NodeTraffic
/-! # Where gossip comes from

What the theorems about gossip on a network of whole nodes say of a state, in terms of what the applications called, what came over connections and what calls returned. -/
namespace Noise.Spec
variable {ε : Type}

/-- The bytes of a gossip message with this data, after the codec. -/
def gossipBytes (op : UInt16) (data : Bytes) : Bytes := [(op >>> 8).toUInt8, op.toUInt8] ++ data

/-- Somebody outside gossip has put this data into the network: the application of a node has called `Push` with it; or it came over a connection that leads out of the network; or a call of `SendMessage` or `Send` of the application
of some node, other than those of `Push`, has sent it as a gossip message; or another handler has, in reply to a message. -/
inductive Began (op : UInt16) (s : GWire.State ε) (data : Bytes) : Prop
  | push (n : Nat) (p : GWire.Part ε) : s.parts[n]? = some p → data ∈ p.pushed → Began op s data
  | foreign (b j : Nat) (B : Node.State ε) : s.net.nodes[b]? = some B → (⟨b, j⟩ : Net.End) ∈ s.net.foreign → (⟨0, gossipBytes op data⟩ : Message) ∈ handledFrom B j → Began op s data
  | sent (a k : Nat) (A : Node.State ε) (p : GWire.Part ε) (d : Node.Call ε) : s.net.nodes[a]? = some A → s.parts[a]? = some p → A.calls[k]? = some d → (∀ q ∈ p.asks, q.call ≠ k) →
      d.kind = .send (gossipBytes op data) → d.pc = .returned .sent → Began op s data
  | reply (a j : Nat) (A : Node.State ε) : s.net.nodes[a]? = some A → (⟨0, gossipBytes op data⟩ : Message) ∈ answeredOn A j → Began op s data

/-- Node `n` has a connection whose peer is `sender`, and a gossip message with this data has come over it. -/
def CameFrom (op : UInt16) (s : GWire.State ε) (n : Nat) (sender : ID) (data : Bytes) : Prop :=
  ∃ (x : Node.State ε) (j : Nat) (y : Node.Conn ε), s.net.nodes[n]? = some x ∧ x.conns[j]? = some y ∧ y.c.id.getD ID.zero = sender ∧ (⟨0, gossipBytes op data⟩ : Message) ∈ handledFrom x j

/-- Node `n` has called `Send` with a gossip message with this data for the address of `peer`, and it has returned nil. -/
def WentTo (op : UInt16) (s : GWire.State ε) (n : Nat) (peer : ID) (data : Bytes) : Prop :=
  ∃ (x : Node.State ε) (k : Nat) (d : Node.Call ε), s.net.nodes[n]? = some x ∧ x.calls[k]? = some d ∧ d.kind = .send (gossipBytes op data) ∧ d.addr = peer.address ∧ d.pc = .returned .sent

end Noise.Spec
