import Verif.Proofs.GossipWork
import Verif.Props.Gossip
import Verif.Props.NetLive
/-! # C140, C141: gossip on a network of whole nodes -/
namespace Noise
open Spec
variable {ε : Type}

/-- **C140 (origin).** In every execution of a network of any number of nodes that gossip, with any connections, failures, routing tables, other handlers and timing: whatever `OnGossipReceived` is called with has come over a connection of this node whose peer
is the sender it is called with, and somebody outside gossip has put this data into the network: an application called `Push` with it, or sent it as a gossip message by itself, or it came from outside of the network. Gossip neither invents nor changes data, nor attributes it to
somebody else than who it got it from. -/
theorem C140_origin (c : GWire.Cfg ε) (N : Nat) (s : GWire.State ε) (h : GWire.Reachable c N s) (n : Nat) (p : GWire.Part ε) (hp : s.parts[n]? = some p) (sender : ID) (data : Bytes) (hd : (sender, data) ∈ p.g.delivered) :
    CameFrom c.op s n sender data ∧ Began c.op s data :=
  ((GWire.Inv.reach h).good n p hp).delivered _ hd

/-- **C140 (closed network).** In particular, in a network without connections to the outside whose other handlers do not reply with gossip messages and whose applications do not send them without `Push`, everything that gossip reports has been pushed by an application
of some node. -/
theorem C140_closed (c : GWire.Cfg ε) (N : Nat) (s : GWire.State ε) (h : GWire.Reachable c N s) (hf : s.net.foreign = []) (hr : ∀ A ∈ s.net.nodes, ∀ j, answeredOn A j = [])
    (hs : ∀ (a : Nat) (A : Node.State ε) (p : GWire.Part ε) (k : Nat) (d : Node.Call ε), s.net.nodes[a]? = some A → s.parts[a]? = some p → A.calls[k]? = some d → (∃ q ∈ p.asks, q.call = k) ∨ ∀ data, d.kind ≠ .send (gossipBytes c.op data))
    (n : Nat) (p : GWire.Part ε) (hp : s.parts[n]? = some p) (sender : ID) (data : Bytes) (hd : (sender, data) ∈ p.g.delivered) : ∃ (m : Nat) (r : GWire.Part ε), s.parts[m]? = some r ∧ data ∈ r.pushed := by
  cases (C140_origin c N s h n p hp sender data hd).2 with
  | push m r h1 h2 => exact ⟨m, r, h1, h2⟩
  | foreign b j B _ h1 => rw [hf] at h1; cases h1
  | sent a k A r d h1 h2 h3 h4 h5 =>
    rcases hs a A r k d h1 h2 h3 with ⟨q, g1, g2⟩ | g
    · exact absurd g2 (h4 q g1)
    · exact absurd h5 (g data)
  | reply a j A h1 h2 => rw [hr A (List.mem_of_getElem? h1) j] at h2; cases h2

/-- **C140 (destinations).** Whatever gossip has counted as sent to a peer was sent: a `Send` of this node for the address of this peer, with exactly this data, has returned nil. -/
theorem C140_destinations (c : GWire.Cfg ε) (N : Nat) (s : GWire.State ε) (h : GWire.Reachable c N s) (n : Nat) (p : GWire.Part ε) (hp : s.parts[n]? = some p) (peer : ID) (data : Bytes) (hd : (peer, data) ∈ p.g.sent) :
    WentTo c.op s n peer data :=
  ((GWire.Inv.reach h).good n p hp).sent _ hd

/-- **C140 (limits).** In a network of whole nodes, too: data of fewer than 65500 bytes is reported to the application of a node at most as often as the node has workers, and a node does not send to itself. (`C63`, `C64`.) -/
theorem C140_limits (c : GWire.Cfg ε) (N : Nat) (s : GWire.State ε) (h : GWire.Reachable c N s) (n : Nat) (p : GWire.Part ε) (hp : s.parts[n]? = some p) (d : Bytes) (hd : d.length < 65500) :
    times p.g.delivered d ≤ (c.node n).numWorkers ∧ timesTo p.g.sent (c.key n) d = 0 :=
  ⟨C63_at_most_workers_partial (c.gossip n) d hd p.g ((GWire.Inv2.reach h).gossip n p hp), C64_not_to_itself_partial (c.gossip n) d hd p.g ((GWire.Inv2.reach h).gossip n p hp)⟩

/-- **C140 (no replies).** The handler of gossip itself sends nothing in reply to a message, on any node: the replies in `Began` are those of other handlers. -/
theorem C140_no_replies (c : GWire.Cfg ε) (N : Nat) (s : GWire.State ε) (h : GWire.Reachable c N s) (n : Nat) (x : Node.State ε) (hx : s.net.nodes[n]? = some x) (q : Wk.State ε) (hq : x.wk = some q) (k : Nat) (nonce : UInt64) (data : Bytes) :
    .sendOk k c.handler nonce data ∉ q.log :=
  GWire.Mute.reach h n x q k nonce data hx hq

theorem GWire.decode_bytes (op : UInt16) (data : Bytes) : GWire.decode op ⟨0, gossipBytes op data⟩ = some data := by
  simp [GWire.decode, Message.isRequest, gossipBytes, put16]

/-- **C141 (not dropped).** In every execution of such a network: when the handler of gossip on a node has returned for a gossip message, its data was reported to the application, or is being reported by another worker, or the application has pushed it itself, or it came from a peer
with the node's own key. So no gossip message that arrives is dropped, of whatever size, unless the application has it. The handler returns an error (and the node then ends the connection, C27) only if `OnGossipReceived` has returned this error. -/
theorem C141_not_dropped (c : GWire.Cfg ε) (N : Nat) (s : GWire.State ε) (h : GWire.Reachable c N s) (n : Nat) (x : Node.State ε) (p : GWire.Part ε) (hx : s.net.nodes[n]? = some x) (hp : s.parts[n]? = some p)
    (q : Wk.State ε) (hq : x.wk = some q) (k : Nat) (r : Option ε) (hf : .finished k c.handler r ∈ q.log) (j : Nat) (data : Bytes) (hk : q.items[k]? = some ⟨j, ⟨0, gossipBytes c.op data⟩⟩) :
    ((∃ sender, (sender, data) ∈ p.g.delivered) ∨ (∃ y ∈ p.g.handlers, y.data = data ∧ y.pc = .callback) ∨ data ∈ p.pushed ∨ ∃ sender, sender.id = c.key n ∧ CameFrom c.op s n sender data) ∧
    ∀ e, r = some e → ∃ i y, p.g.handlers[i]? = some y ∧ y.data = data ∧ (i, e) ∈ p.errors := by
  have i2 := GWire.Inv2.reach h
  have w := i2.work n x p hx hp
  obtain ⟨it, h1, h2⟩ := w.fin q k r hq hf
  rw [hk] at h1; cases h1
  rcases h2 with ⟨h2, -⟩ | ⟨i, y, h2, h3, h4, h5⟩
  · rw [GWire.decode_bytes] at h2; cases h2
  obtain ⟨q', it', y', e1, e2, e3, e4⟩ := w.item k i h2
  rw [hq] at e1; cases e1
  rw [hk] at e2; cases e2
  rw [h3] at e3; cases e3
  rw [GWire.decode_bytes] at e4
  have hyd : y.data = data := (Option.some.inj e4).symm
  refine ⟨?_, fun e he => ⟨i, y, h3, hyd, h5 e he⟩⟩
  have hm := List.mem_of_getElem? h3
  have := (i2.heard n p hp).past y hm (by rw [h4]; simp) (by rw [h4]; simp) (by rw [h4]; simp)
  rw [hyd] at this
  rcases this with ⟨⟨sender, d⟩, g1, rfl⟩ | g | ⟨z, g1, g2, g3 | g3⟩
  · exact .inl ⟨sender, g1⟩
  · exact .inr (.inr (.inl g))
  · exact .inr (.inl ⟨z, g1, g2, g3⟩)
  · refine .inr (.inr (.inr ⟨z.sender, g3, ?_⟩))
    have := (((GWire.Inv.reach h).good n p hp).handlers z g1).1
    rw [g2] at this
    exact this

/-- **C141 (nothing else is in the way).** Whenever a worker of a node that has not crashed is in the handler of gossip for a gossip message that the handler has not looked at yet, the handler goes on: there are never more calls of it than workers. -/
theorem C141_accepted (c : GWire.Cfg ε) (N : Nat) (s : GWire.State ε) (h : GWire.Reachable c N s) (n : Nat) (x : Node.State ε) (p : GWire.Part ε) (hx : s.net.nodes[n]? = some x) (hp : s.parts[n]? = some p) (hc : x.crashed = false)
    (q : Wk.State ε) (hq : x.wk = some q) (w k j : Nat) (data : Bytes) (hw : q.workers[w]? = some (.inside k c.handler)) (hk : q.items[k]? = some ⟨j, ⟨0, gossipBytes c.op data⟩⟩) (hno : ∀ i, (k, i) ∉ p.runs) :
    ∃ s', GWire.step c s (.enter n w) = some s' := by
  have i1 := GWire.Inv.reach h
  have v := Net.Inv.reach i1.net
  have i2 := GWire.Inv2.reach h
  have hno' : k ∉ p.runs.map Prod.fst := fun hm => by
    obtain ⟨⟨k', i⟩, h1, rfl⟩ := List.mem_map.1 hm
    exact hno i h1
  have hi : GWire.invocation c x w = some (k, ⟨j, ⟨0, gossipBytes c.op data⟩⟩) := by simp [GWire.invocation, hq, hw, hk]
  have hroom := (i2.work n x p hx hp).room hq hi hno'
  rw [(Wk.Inv.reach ((Node.Stage.reach (v.nodes n x hx)).workers q hq)).len] at hroom
  have hlt : j < x.conns.length := by
    by_contra hge
    have := (C131_attribution (v.nodes n x hx)).2 j (by omega)
    unfold handledFrom at this
    rw [hq] at this
    have hmem : (⟨0, gossipBytes c.op data⟩ : Message) ∈ (q.items.filter fun it => it.client = j).map Wk.Item.msg := List.mem_map.2 ⟨_, List.mem_filter.2 ⟨List.mem_of_getElem? hk, by simp⟩, rfl⟩
    exact absurd hmem (by rw [show (q.items.filter fun it => it.client = j).map Wk.Item.msg = [] from this]; simp)
  have hany : (p.runs.any fun r => decide (r.1 = k)) = false := by
    rw [List.any_eq_false]
    intro r hr
    simp only [decide_eq_true_eq]
    rintro rfl
    exact hno r.2 hr
  have hg : Gossip.running p.g.handlers < (c.gossip n).workers := hroom
  simp [GWire.step, GWire.State.with, hx, hp, hc, hi, GWire.decode_bytes, List.getElem?_eq_getElem hlt, hany, Gossip.step, hg]

/-! ### Non-vacuity -/

/-- Two nodes that gossip, with one worker and one handler each. -/
def gossipers : GWire.Cfg Unit := ⟨fun _ => ⟨2, 3, 1, 1, fun _ => false⟩, fun n => gk n.toUInt8, 5, 0, fun _ => 2⟩

/-- Steps of the nodes. -/
def onNet (l : List (Net.Action ε)) : List (GWire.Action ε) := l.map .net

/-- Node 0 pushes `[7]` and knows node 1; node 1 is told. -/
def gossipRun : List (GWire.Action Unit) :=
  onNet (atNode 0 [.listen, .acceptStep] ++ atNode 1 [.listen, .acceptStep]) ++ [.push 0 [7], .own 0 (.pushing 0 []), .own 0 (.pushing 0 [gid 1]), .own 0 (.gor 0 0), .send 0 0 0]
    ++ onNet (atNode 0 ([.callStep 0] ++ connDo 0 (connectOut (gid 1))) ++ atNode 1 ([.acceptConn ['x'], .acceptStep] ++ connDo 0 (connectIn (gid 0))) ++ [.connect ⟨0, 0⟩ ⟨1, 0⟩]
      ++ atNode 0 ([.select 0 .ready, .callStep 0] ++ connDo 0 [.writer, .writer, .writer, .writer, .writer, .writer]))
    ++ [.sent 0 0 0, .own 0 (.gor 0 0), .own 0 (.pushing 0 [])]
    ++ onNet (atNode 1 (connDo 0 [.writer, .arrive, .readMsg ⟨0, gossipBytes 5 [7]⟩, .main, .deliver, .main] ++ [.work 0, .work 0]))
    ++ [.enter 1 0, .own 1 (.handler 0), .own 1 (.handler 0), .own 1 (.handler 0), .callback 1 0 none, .own 1 (.handler 0), .own 1 (.pushing 0 []), .own 1 (.pushing 0 [gid 0]), .own 1 (.gor 0 0), .own 1 (.pushing 0 []), .own 1 (.handler 0), .leave 1 0]

/-- What came to the work queue of a node, and whether handler 0 has returned nil for the first of it. -/
def seenBy (x : Node.State Unit) : Option (List (Nat × Message) × Bool) := x.wk.map fun q => (q.items.map (fun it => (it.client, it.msg)), q.log.any fun | .finished 0 0 none => true | _ => false)

/-- In it the hypotheses of C140 and C141 are met. -/
example : ∃ s : GWire.State Unit, GWire.Reachable gossipers 2 s ∧ s.net.foreign = [] ∧ s.parts.map (fun p => p.g.sent) = [[(gid 1, [7])], []] ∧ s.parts.map (fun p => p.g.delivered) = [[], [(gid 0, [7])]] ∧
    s.parts.map (fun p => p.pushed) = [[[7]], []] ∧ s.net.nodes.map seenBy = [some ([], false), some ([(0, ⟨0, gossipBytes 5 [7]⟩)], true)] := by
  have h : (runs (GWire.step gossipers) (GWire.State.new 2) gossipRun).map (fun s => s.net.foreign) = some [] := by decide +kernel
  have ha : (runs (GWire.step gossipers) (GWire.State.new 2) gossipRun).map (fun s => s.parts.map (fun p => p.g.sent)) = some [[(gid 1, [7])], []] := by decide +kernel
  have hb : (runs (GWire.step gossipers) (GWire.State.new 2) gossipRun).map (fun s => s.parts.map (fun p => p.g.delivered)) = some [[], [(gid 0, [7])]] := by decide +kernel
  have hc : (runs (GWire.step gossipers) (GWire.State.new 2) gossipRun).map (fun s => s.parts.map (fun p => p.pushed)) = some [[[7]], []] := by decide +kernel
  have hd : (runs (GWire.step gossipers) (GWire.State.new 2) gossipRun).map (fun s => s.net.nodes.map seenBy) = some [some ([], false), some ([(0, ⟨0, gossipBytes 5 [7]⟩)], true)] := by decide +kernel
  obtain ⟨s, h1, h2⟩ := Option.map_eq_some_iff.1 h
  rw [h1] at ha hb hc hd
  exact ⟨s, ⟨_, h1⟩, h2, Option.some.inj ha, Option.some.inj hb, Option.some.inj hc, Option.some.inj hd⟩

/-- And those of `C141_accepted`, before the handler has looked at the message. -/
example : ∃ s : GWire.State Unit, GWire.Reachable gossipers 2 s ∧ (GWire.step gossipers s (.enter 1 0)).isSome = true ∧ s.parts.map (fun p => p.runs) = [[], []] := by
  have h : (runs (GWire.step gossipers) (GWire.State.new 2) (gossipRun.take (gossipRun.length - 12))).map (fun s => ((GWire.step gossipers s (.enter 1 0)).isSome, s.parts.map (fun p => p.runs))) = some (true, [[], []]) := by decide +kernel
  obtain ⟨s, h1, h2⟩ := Option.map_eq_some_iff.1 h
  simp only [Prod.mk.injEq] at h2
  exact ⟨s, ⟨_, h1⟩, h2⟩

end Noise
