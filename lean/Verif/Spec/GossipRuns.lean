import Verif.Spec.GossipWire
import Verif.Spec.Calls
/-! # Specification vocabulary: executions of a network that are fair to gossip on a node -/
namespace Noise.Spec
variable {ε : Type}

/-- What goroutine `j` of push `k` on node `n` does, outside of its call of `SendMessage`. -/
def Spreads (n k j : Nat) (a : GWire.Action ε) : Prop := a = .own n (.gor k j) ∨ a = .send n k j ∨ a = .sent n k j

/-- Node `n` at time `t`. -/
def nodeAt (σ : Nat → GWire.State ε) (n t : Nat) : Node.State ε := ((σ t).net.nodes[n]?).getD Node.State.new

/-- An execution of a network of nodes that gossip, in which goroutines of pushes and calls of node `n` that can go on do go on, and connections that this node closes come to an end. -/
structure GossipRuns (c : GWire.Cfg ε) (N n : Nat) (σ : Nat → GWire.State ε) (α : Nat → Option (GWire.Action ε)) : Prop where
  start : GWire.Reachable c N (σ 0)
  exec : Execution (GWire.step c) σ α
  /-- the goroutine that has called `Push` -/
  push : ∀ k, WeaklyFair σ α (Able (GWire.step c) fun a => ∃ l, a = .own n (.pushing k l)) fun a => ∃ l, a = .own n (.pushing k l)
  /-- those that it has started -/
  spread : ∀ k j, WeaklyFair σ α (Able (GWire.step c) (Spreads n k j)) (Spreads n k j)
  /-- the calls of `Send` -/
  call : ∀ q, WeaklyFair σ α (Able (GWire.step c) fun a => ∃ b, a = .net (.node n b) ∧ Goes q b) (fun a => ∃ b, a = .net (.node n b) ∧ Goes q b)
  /-- a connection whose `close` has begun is closed in the end, and its goroutine ends -/
  closes : ∀ (t j : Nat) (x : Node.Conn ε), (nodeAt σ n t).conns[j]? = some x → x.c.once ≠ .fresh →
    ∃ (t' : Nat) (x' : Node.Conn ε), t ≤ t' ∧ (nodeAt σ n t').conns[j]? = some x' ∧ x'.c.once = .done ∧ x'.c.clientDone = true
  /-- the process does not crash -/
  alive : ∀ t, (nodeAt σ n t).crashed = false

/-- The addresses to which push `k` has called `Send`. -/
def pushAddrs (p : GWire.Part ε) (x : Node.State ε) (k : Nat) : List Text := (p.asks.filter fun a => a.push = k).map fun a => ((x.calls[a.call]?).map Node.Call.addr).getD []

/-- The application of node `n` has this data: gossip has reported it, or the application has pushed it itself; or it came from a peer that has the node's own key, so that gossip takes it for the node's own. -/
def Told (c : GWire.Cfg ε) (s : GWire.State ε) (n : Nat) (data : Bytes) : Prop :=
  ∃ p : GWire.Part ε, s.parts[n]? = some p ∧ ((∃ sender, (sender, data) ∈ p.g.delivered) ∨ data ∈ p.pushed ∨ ∃ sender, sender.id = c.key n ∧ CameFrom c.op s n sender data)

/-- Gossip on node `n` takes the owner of this key for somebody who has this data: it is the node's own key, or the data came from a peer with this key, or was sent to the address of a peer with this key. -/
def Presumed (c : GWire.Cfg ε) (s : GWire.State ε) (n : Nat) (key : PublicKey) (data : Bytes) : Prop :=
  key = c.key n ∨ (∃ sender, sender.id = key ∧ CameFrom c.op s n sender data) ∨ ∃ peer, peer.id = key ∧ WentTo c.op s n peer data

end Noise.Spec
