import Verif.Props.GossipPush
import Verif.Props.NodeCalls
/-! # C143: to whom gossip is sent -/
namespace Noise
open Spec
variable {ε : Type}

/-- **C143, what holds.** Whatever gossip has counted as sent to a peer was given to a connection that the node has dialled at the address of this peer and whose peer is authenticated, as whoever that may be. Missing: that it is this peer. -/
theorem C143_address_partial (c : GWire.Cfg ε) (N : Nat) (s : GWire.State ε) (h : GWire.Reachable c N s) (n : Nat) (x : Node.State ε) (p : GWire.Part ε) (hx : s.net.nodes[n]? = some x) (hp : s.parts[n]? = some p) (peer : ID) (data : Bytes) (hd : (peer, data) ∈ p.g.sent) :
    ∃ (j : Nat) (y : Node.Conn ε), Reached x j peer.address y ∧ (⟨0, gossipBytes c.op data⟩ : Message) ∈ submittedOf y.c.log := by
  obtain ⟨x', k, d, h1, h2, h3, h4, h5⟩ := C140_destinations c N s h n p hp peer data hd
  rw [hx] at h1; cases h1
  obtain ⟨j, y, data', g1, g2, g3⟩ := (C117_calls_reach_authenticated_peers (c.node n) x ((Net.Inv.reach (GWire.Inv.reach h).net).nodes n x hx) k d h2).2.1 h5
  rw [h3] at g1; cases g1
  exact ⟨j, y, by rw [← h4]; exact g2, g3⟩

/-- **C143, what holds.** So it was given to a connection with this peer, if whoever answers at the address has this peer's key. -/
theorem C143_right_peer_partial (c : GWire.Cfg ε) (N : Nat) (s : GWire.State ε) (h : GWire.Reachable c N s) (n : Nat) (x : Node.State ε) (p : GWire.Part ε) (hx : s.net.nodes[n]? = some x) (hp : s.parts[n]? = some p) (peer : ID) (data : Bytes) (hd : (peer, data) ∈ p.g.sent)
    (hown : ∀ (j : Nat) (y : Node.Conn ε) (i : ID), x.conns[j]? = some y → y.c.side = .outbound → y.addr = peer.address → y.c.id = some i → i.id = peer.id) :
    ∃ (j : Nat) (y : Node.Conn ε) (i : ID), x.conns[j]? = some y ∧ y.c.id = some i ∧ i.id = peer.id ∧ (⟨0, gossipBytes c.op data⟩ : Message) ∈ submittedOf y.c.log := by
  obtain ⟨j, y, ⟨h1, h2, h3, i, h4, -⟩, h5⟩ := C143_address_partial c N s h n x p hx hp peer data hd
  exact ⟨j, y, i, h1, h4, hown j y i h1 h3 h2 h4, h5⟩

/-- Three nodes that gossip. Node 0 pushes `[7]` and knows node 1; at the address of node 1 there is node 2, under its own identity. -/
def wrongRun : List (GWire.Action Unit) :=
  onNet (atNode 0 [.listen, .acceptStep] ++ atNode 2 [.listen, .acceptStep]) ++ [.push 0 [7], .own 0 (.pushing 0 []), .own 0 (.pushing 0 [gid 1]), .own 0 (.gor 0 0), .send 0 0 0]
    ++ onNet (atNode 0 ([.callStep 0] ++ connDo 0 (connectOut (gid 2))) ++ atNode 2 ([.acceptConn ['x'], .acceptStep] ++ connDo 0 (connectIn (gid 0))) ++ [.connect ⟨0, 0⟩ ⟨2, 0⟩]
      ++ atNode 0 ([.select 0 .ready, .callStep 0] ++ connDo 0 [.writer, .writer, .writer, .writer, .writer, .writer]))
    ++ [.sent 0 0 0, .own 0 (.gor 0 0), .own 0 (.pushing 0 [])]
    ++ onNet (atNode 2 (connDo 0 [.writer, .arrive, .readMsg ⟨0, gossipBytes 5 [7]⟩, .main, .deliver, .main] ++ [.work 0, .work 0]))
    ++ [.enter 2 0, .own 2 (.handler 0), .own 2 (.handler 0), .own 2 (.handler 0), .callback 2 0 none]

/-- **C143, refuted.** "What gossip counts as sent to a peer was given to a connection with this peer." Node 0 counts its data as sent to node 1 and marks that it has it, so that no later push of this data is sent to it; but the only connection of node 0 is with node 2, whose
application has got the data, and node 1 has no connection at all. The identity of who answers at an address is not compared with the one that the address was taken from. -/
theorem C143_wrong_peer_refuted : ∃ (s : GWire.State Unit) (x : Node.State Unit) (p : GWire.Part Unit) (y : Node.Conn Unit), GWire.Reachable gossipers 3 s ∧ s.net.nodes[0]? = some x ∧ s.parts[0]? = some p ∧ p.g.sent = [(gid 1, [7])] ∧
    Gossip.hash (gid 1).id [7] ∈ p.g.cache ∧ x.conns = [y] ∧ y.c.id = some (gid 2) ∧ (gid 2).id ≠ (gid 1).id ∧ s.parts.map (fun r => r.g.delivered) = [[], [], [(gid 0, [7])]] ∧ (s.net.nodes[1]?).map (fun z => z.conns.length) = some 0 := by
  have h : (runs (GWire.step gossipers) (GWire.State.new 3) wrongRun).map (fun s => match s.net.nodes[0]?, s.parts[0]? with
    | some x, some p => decide (p.g.sent = [(gid 1, [7])]) && decide (Gossip.hash (gid 1).id [7] ∈ p.g.cache) && (match x.conns with | [y] => decide (y.c.id = some (gid 2)) | _ => false)
    | _, _ => false) = some true := by decide +kernel
  have ha : (runs (GWire.step gossipers) (GWire.State.new 3) wrongRun).map (fun s => s.parts.map (fun r => r.g.delivered)) = some [[], [], [(gid 0, [7])]] := by decide +kernel
  have hb : (runs (GWire.step gossipers) (GWire.State.new 3) wrongRun).map (fun s => (s.net.nodes[1]?).map (fun z => z.conns.length)) = some (some 0) := by decide +kernel
  obtain ⟨s, h1, h2⟩ := Option.map_eq_some_iff.1 h
  rw [h1] at ha hb
  split at h2
  swap
  · cases h2
  rename_i x p hx hp
  simp only [Bool.and_eq_true, decide_eq_true_eq] at h2
  obtain ⟨⟨e1, e2⟩, e3⟩ := h2
  split at e3
  · rename_i y hy
    exact ⟨s, x, p, y, ⟨_, h1⟩, hx, hp, e1, e2, hy, of_decide_eq_true e3, by decide, Option.some.inj ha, Option.some.inj hb⟩
  · cases e3

/-- The hypotheses of the positive parts are met at the end of `gossipRun`, where the one who answers is the peer. -/
example : ∃ (s : GWire.State Unit) (x : Node.State Unit) (p : GWire.Part Unit) (y : Node.Conn Unit), GWire.Reachable gossipers 2 s ∧ s.net.nodes[0]? = some x ∧ s.parts[0]? = some p ∧ p.g.sent = [(gid 1, [7])] ∧ x.conns = [y] ∧ y.c.id = some (gid 1) := by
  have h : (runs (GWire.step gossipers) (GWire.State.new 2) gossipRun).map (fun s => match s.net.nodes[0]?, s.parts[0]? with
    | some x, some p => decide (p.g.sent = [(gid 1, [7])]) && (match x.conns with | [y] => decide (y.c.id = some (gid 1)) | _ => false)
    | _, _ => false) = some true := by decide +kernel
  obtain ⟨s, h1, h2⟩ := Option.map_eq_some_iff.1 h
  split at h2
  swap
  · cases h2
  rename_i x p hx hp
  simp only [Bool.and_eq_true, decide_eq_true_eq] at h2
  obtain ⟨e1, e3⟩ := h2
  split at e3
  · rename_i y hy
    exact ⟨s, x, p, y, ⟨_, h1⟩, hx, hp, e1, hy, of_decide_eq_true e3⟩
  · cases e3

end Noise
