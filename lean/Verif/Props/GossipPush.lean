import Verif.Proofs.GossipStuck
import Verif.Props.GossipWire
import Verif.Props.Node
/-! # C142: when `Push` returns; C114: calls of a whole node return -/
namespace Noise
open Spec
variable {ε : Type}

/-! ## C114 -/

/-- **C114, what holds (calls return).** As long as all calls on a node are made to at most `maxInboundConnections` addresses, a call of `Ping`, `Send` or `Request` whose context has ended returns, and a call of `Ping` or `Send` returns even if its context never ends provided that
attempts to connect succeed or fail in the end: in every execution in which goroutines of calls that can go on do go on, connections that the node closes come to an end, and the process does not crash. -/
theorem C114_calls_return_partial (cfg : Node.Cfg ε) (σ : Nat → Node.State ε) (α : Nat → Option (Node.Action ε)) (hrun : CallsRun cfg σ α) (L : List Text) (hL : L.length ≤ cfg.max) (hin : ∀ (t k : Nat) (d : Node.Call ε), (σ t).calls[k]? = some d → d.addr ∈ L)
    (t k : Nat) (d : Node.Call ε) (hk : (σ t).calls[k]? = some d) (he : d.ended = true ∨ Settles σ ∧ ∀ data, d.kind ≠ .request data) :
    ∃ (t' : Nat) (d' : Node.Call ε) (r : Node.Result), t ≤ t' ∧ (σ t').calls[k]? = some d' ∧ d'.pc = .returned r :=
  NodeR.few_returns hrun hL hin hk he

/-! ## C142 -/

/-- **C142, refuted.** "`Push` returns." A `Push` that has returned has sent to no more different addresses than the pool of outbound connections may hold (`maxInboundConnections`, 128 unless configured otherwise), plus the number of outbound connections of the node that have
come to an end by then. So as long as peers stay connected, a `Push` of data that is new to peers at more addresses than that never returns, whatever its context and the schedule. -/
theorem C142_many_peers_refuted (c : GWire.Cfg ε) (N : Nat) (s : GWire.State ε) (h : GWire.Reachable c N s) (n : Nat) (hat : 0 < (c.node n).attempts) (x : Node.State ε) (p : GWire.Part ε) (hx : s.net.nodes[n]? = some x) (hp : s.parts[n]? = some p) (hc : x.crashed = false)
    (k : Nat) (q : Gossip.Pushing) (hq : p.g.pushes[k]? = some q) (hd : q.pc = .done) :
    (pushAddrs p x k).dedup.length ≤ (c.node n).max + x.conns.countP (fun y => y.c.side = .outbound ∧ (y.c.main = .done ∨ y.c.main = .finished)) := by
  have hr := (Net.Inv.reach (GWire.Inv.reach h).net).nodes n x hx
  have hpl := Node.Placed.reach hat hr hc
  refine Node.few_addresses hr (List.nodup_dedup _) ?_
  intro a ha
  obtain ⟨e, he, rfl⟩ := List.mem_map.1 (List.mem_dedup.1 ha)
  obtain ⟨he1, he2⟩ := List.mem_filter.1 he
  obtain ⟨d, r, h1, h2⟩ := GWire.returned_asks h hp hq hd he1 (by simpa using he2) hx
  rcases hpl _ d h1 with hw | ⟨v, b, hw⟩ | hw
  · rw [hw.1] at h2; cases h2
  · rw [hw] at h2; cases h2
  · simpa [h1] using hw

/-- A node in a later state. -/
theorem GWire.node_later {c : GWire.Cfg ε} {n : Nat} {s s' : GWire.State ε} {as : List (GWire.Action ε)} (h : runs (GWire.step c) s as = some s') {x x' : Node.State ε} (hx : s.net.nodes[n]? = some x) (hx' : s'.net.nodes[n]? = some x') :
    ReachFrom (Node.step (c.node n)) x x' := by
  have key := runs_inv (P := fun s' => ∃ x', s'.net.nodes[n]? = some x' ∧ ReachFrom (Node.step (c.node n)) x x') ?_ h ⟨x, hx, .refl _⟩
  · obtain ⟨y, h1, h2⟩ := key
    rw [hx'] at h1; cases h1; exact h2
  rintro s1 a s2 ⟨y, h1, h2⟩ hs
  have hlen : s2.net.nodes.length = s1.net.nodes.length := by
    cases GWire.step_eff hs with
    | net b h _ => exact GWire.nodes_len h
    | gossip n x p p' a _ _ h => rw [h]
    | send n x p k j q g _ _ _ _ _ _ h _ => exact GWire.nodes_len h
  have hlt : n < s2.net.nodes.length := by rw [hlen]; exact (List.getElem?_eq_some_iff.1 h1).1
  obtain ⟨o, ⟨-, h3⟩ | ⟨b, -, h3⟩, -⟩ := GWire.node_moves hs h1 (List.getElem?_eq_getElem hlt)
  · exact ⟨_, List.getElem?_eq_getElem hlt, by rw [h3]; exact h2⟩
  · exact ⟨_, List.getElem?_eq_getElem hlt, h2.snoc h3⟩

/-- What is left of a goroutine, a call of `Push` and a call of `Handle` in a later state. -/
theorem GWire.part_later {c : GWire.Cfg ε} {n : Nat} {s s' : GWire.State ε} {as : List (GWire.Action ε)} (h : runs (GWire.step c) s as = some s') {p : GWire.Part ε} (hp : s.parts[n]? = some p) {k : Nat} {q : Gossip.Pushing} (hq : p.g.pushes[k]? = some q) :
    ∃ (p' : GWire.Part ε) (q' : Gossip.Pushing), s'.parts[n]? = some p' ∧ p.asks <+: p'.asks ∧ p'.g.pushes[k]? = some q' := by
  refine runs_inv (P := fun s' => ∃ (p' : GWire.Part ε) (q' : Gossip.Pushing), s'.parts[n]? = some p' ∧ p.asks <+: p'.asks ∧ p'.g.pushes[k]? = some q') ?_ h ⟨p, q, hp, List.prefix_refl _, hq⟩
  rintro s1 a s2 ⟨p1, q1, h1, h2, h3⟩ hs
  obtain ⟨p2, g1, g2, ⟨g3, -⟩ | ⟨b, g3, -⟩⟩ := GWire.part_step hs h1
  · exact ⟨p2, q1, g1, h2.trans g2, by rw [g3]; exact h3⟩
  · obtain ⟨q2, g4, -⟩ := Gossip.step_push g3 h3
    exact ⟨p2, q2, g1, h2.trans g2, g4⟩

/-- **C142, refuted: for ever.** Once the call of one of its goroutines has begun to evict a client from the pool, or waits for the pool while some other call evicts, a `Push` does not return in any continuation. Calls of `Handle` push what they get on, with a context that never
ends (`C142_worker_refuted`). -/
theorem C142_stuck_refuted (c : GWire.Cfg ε) (N : Nat) (s : GWire.State ε) (h : GWire.Reachable c N s) (n : Nat) (hat : 0 < (c.node n).attempts) (x : Node.State ε) (p : GWire.Part ε) (hx : s.net.nodes[n]? = some x) (hp : s.parts[n]? = some p)
    (a : GWire.Ask) (ha : a ∈ p.asks) (i : Nat) (d : Node.Call ε) (hd : x.calls[i]? = some d) (v : Nat) (b : Bool) (hv : d.pc = .evict v b) (hw : i = a.call ∨ ∃ d' : Node.Call ε, x.calls[a.call]? = some d' ∧ d'.pc = .get ∧ 0 < d'.left)
    (as : List (GWire.Action ε)) (s' : GWire.State ε) (h' : runs (GWire.step c) s as = some s') (p' : GWire.Part ε) (q' : Gossip.Pushing) (hp' : s'.parts[n]? = some p') (hq' : p'.g.pushes[a.push]? = some q') : q'.pc ≠ .done := by
  intro hdone
  have hr' : GWire.Reachable c N s' := h.trans ⟨as, h'⟩
  have hlt : n < s'.net.nodes.length := by rw [GWire.nodes_N hr', ← GWire.nodes_N h]; exact (List.getElem?_eq_some_iff.1 hx).1
  have hx' := List.getElem?_eq_getElem hlt
  obtain ⟨q, g, -, -, h1, -⟩ := ((GWire.Inv.reach h).good n p hp).asks a ha
  obtain ⟨p1, q1, g1, g2, g3⟩ := GWire.part_later h' hp h1
  rw [hp'] at g1; cases g1
  obtain ⟨d', r, h2, h3⟩ := GWire.returned_asks hr' hp' hq' hdone (g2.subset ha) rfl hx'
  obtain ⟨bs, hbs⟩ := GWire.node_later h' hx hx'
  obtain ⟨f1, f2, -⟩ := C114_full_pool_ends_calls_refuted (c.node n) hat x ((Net.Inv.reach (GWire.Inv.reach h).net).nodes n x hx) i d hd v _ hv bs _ hbs
  have hnr : ∃ c' : Node.Call ε, s'.net.nodes[n].calls[a.call]? = some c' ∧ ∀ r, c'.pc ≠ .returned r := by
    rcases hw with rfl | ⟨d', hd', hg⟩
    · exact f1
    · exact f2 a.call d' hd' hg
  obtain ⟨c', hc', hno⟩ := hnr
  rw [h2] at hc'; cases hc'
  exact hno r h3

/-- **C142, refuted: workers.** `Handle` pushes on what it gets, with a context that never ends. If such a push is stuck in this way, then the call of `Handle` does not return in any continuation; the worker of the node that is in it never handles another message. -/
theorem C142_worker_refuted (c : GWire.Cfg ε) (N : Nat) (s : GWire.State ε) (h : GWire.Reachable c N s) (n : Nat) (hat : 0 < (c.node n).attempts) (x : Node.State ε) (p : GWire.Part ε) (hx : s.net.nodes[n]? = some x) (hp : s.parts[n]? = some p)
    (a : GWire.Ask) (ha : a ∈ p.asks) (i : Nat) (d : Node.Call ε) (hd : x.calls[i]? = some d) (v : Nat) (b : Bool) (hv : d.pc = .evict v b) (hw : i = a.call ∨ ∃ d' : Node.Call ε, x.calls[a.call]? = some d' ∧ d'.pc = .get ∧ 0 < d'.left)
    (m j : Nat) (y : Gossip.Handler) (hm : (m, j) ∈ p.runs) (hj : p.g.handlers[j]? = some y) (hy : y.pc = .pushing a.push)
    (as : List (GWire.Action ε)) (s' : GWire.State ε) (h' : runs (GWire.step c) s as = some s') (x' : Node.State ε) (hx' : s'.net.nodes[n]? = some x') (q : Wk.State ε) (hq : x'.wk = some q) :
    (∃ w : Nat, q.workers[w]? = some (.inside m c.handler)) ∧ ∀ r, .finished m c.handler r ∉ q.log := by
  have key := runs_inv (P := fun s' => (∃ as, runs (GWire.step c) s as = some s') ∧ ∃ (p' : GWire.Part ε) (y' : Gossip.Handler), s'.parts[n]? = some p' ∧ (m, j) ∈ p'.runs ∧ p'.g.handlers[j]? = some y' ∧ y'.pc = .pushing a.push) ?_ h'
    ⟨⟨[], rfl⟩, p, y, hp, hm, hj, hy⟩
  · obtain ⟨-, p', y', h1, h2, h3, h4⟩ := key
    have wk := (GWire.Inv2.reach (h.trans ⟨as, h'⟩)).work n x' p' hx' h1
    refine ⟨?_, fun r hf => ?_⟩
    · obtain ⟨q', w, h5, h6⟩ := wk.busy m j y' h2 h3 (by rw [h4]; simp)
      rw [hq] at h5; cases h5
      exact ⟨w, h6⟩
    · obtain ⟨it, h5, ⟨h6, -⟩ | ⟨j', y2, h6, h7, h8, -⟩⟩ := wk.fin q m r hq hf
      · obtain ⟨q', it', y2, h7, h8, -, h9⟩ := wk.item m j h2
        rw [hq] at h7; cases h7
        rw [h5] at h8; cases h8
        rw [h6] at h9; cases h9
      · have : j' = j := by
          have := List.inj_on_of_nodup_map wk.once h6 h2 rfl
          exact (Prod.mk.injEq _ _ _ _ ▸ this).2
        subst this
        rw [h3] at h7; cases h7
        rw [h4] at h8; cases h8
  rintro s1 act s2 ⟨⟨bs, hbs⟩, p1, y1, h1, h2, h3, h4⟩ hs
  refine ⟨⟨bs ++ [act], by rw [runs_append, hbs]; simp [runs, hs]⟩, ?_⟩
  obtain ⟨p2, g1, -, g2⟩ := GWire.part_step hs h1
  obtain ⟨p3, g3, g4⟩ := GWire.runs_step hs h1
  rw [g1] at g3; cases g3
  rcases g2 with ⟨g2, -⟩ | ⟨b', g2, -⟩
  · exact ⟨p2, y1, g1, g4.subset h2, by rw [g2]; exact h3, h4⟩
  · obtain ⟨y2, g5, g6 | ⟨q1, g6, g7⟩⟩ := Gossip.step_pushing g2 h3 h4
    · exact ⟨p2, y2, g1, g4.subset h2, g5, g6⟩
    · exact (C142_stuck_refuted c N s h n hat x p hx hp a ha i d hd v b hv hw bs s1 hbs p1 q1 h1 g6 g7).elim

/-- **C142, what holds.** As long as all calls on the node are made to at most `maxInboundConnections` addresses, a `Push` returns, provided that attempts to connect succeed or fail in the end, or that the contexts of its calls end: in every execution in which goroutines that can
go on do go on, the connections that the node closes come to an end, and the process does not crash - whatever the other nodes do. -/
theorem C142_returns_partial (c : GWire.Cfg ε) (N n : Nat) (σ : Nat → GWire.State ε) (α : Nat → Option (GWire.Action ε)) (hrun : GossipRuns c N n σ α) (L : List Text) (hL : L.length ≤ (c.node n).max)
    (hin : ∀ (t k : Nat) (d : Node.Call ε), (nodeAt σ n t).calls[k]? = some d → d.addr ∈ L) (k : Nat)
    (hend : Settles (nodeAt σ n) ∨ ∀ (t : Nat) (p : GWire.Part ε) (a : GWire.Ask), (σ t).parts[n]? = some p → a ∈ p.asks → a.push = k → ∃ (t' : Nat) (d : Node.Call ε), t ≤ t' ∧ (nodeAt σ n t').calls[a.call]? = some d ∧ d.ended = true)
    (t : Nat) (p : GWire.Part ε) (q : Gossip.Pushing) (hp : (σ t).parts[n]? = some p) (hq : p.g.pushes[k]? = some q) :
    ∃ (t' : Nat) (p' : GWire.Part ε) (q' : Gossip.Pushing), t ≤ t' ∧ (σ t').parts[n]? = some p' ∧ p'.g.pushes[k]? = some q' ∧ q'.pc = .done := by
  have hr := GWire.run_reach hrun
  have hn : n < N := by
    rw [← GWire.nodes_N (hr t), ← (GWire.Inv.reach (hr t)).same]
    exact (List.getElem?_eq_some_iff.1 hp).1
  obtain ⟨β, hβ⟩ := GWire.node_runs hrun hn
  have hcalls : ∀ t (p : GWire.Part ε) (a : GWire.Ask), (σ t).parts[n]? = some p → a ∈ p.asks → a.push = k → ∃ t' d r, t ≤ t' ∧ (nodeAt σ n t').calls[a.call]? = some d ∧ d.pc = .returned r := by
    intro t p a hp ha hk
    rcases hend with hset | hend
    · obtain ⟨q, g, y, d, -, -, h3, h4, h5, -⟩ := ((GWire.Inv.reach (hr t)).good n p hp).asks a ha
      rw [GWire.node_some hrun hn t] at h3; cases h3
      exact NodeR.few_returns hβ hL hin h4 (.inr ⟨hset, by rw [h5]; simp⟩)
    · obtain ⟨t1, d, h1, h2, h3⟩ := hend t p a hp ha hk
      obtain ⟨t2, d2, r, h4, h5⟩ := NodeR.few_returns hβ hL hin h2 (.inl h3)
      exact ⟨t2, d2, r, by omega, h5⟩
  have fin : ∀ {t q}, GWire.PushIs σ n k t q → q.pc = .running → ∃ (t' : Nat) (p' : GWire.Part ε) (q' : Gossip.Pushing), t ≤ t' ∧ (σ t').parts[n]? = some p' ∧ p'.g.pushes[k]? = some q' ∧ q'.pc = .done := by
    intro t q h1 h2
    obtain ⟨t', q', h3, ⟨p', h4, h5⟩, h6⟩ := GWire.push_returns hrun hn hcalls _ h1 h2 (Nat.le_refl _)
    exact ⟨t', p', q', h3, h4, h5, h6⟩
  have start : q.pc = .mark ∨ q.pc = .entries → ∃ (t' : Nat) (p' : GWire.Part ε) (q' : Gossip.Pushing), t ≤ t' ∧ (σ t').parts[n]? = some p' ∧ p'.g.pushes[k]? = some q' ∧ q'.pc = .done := by
    intro hpc
    obtain ⟨t1, q1, h1, h2, h3⟩ := GWire.push_starts hrun hn ⟨p, hp, hq⟩ hpc (fun t q ⟨p, h1, h2⟩ h3 => (((GWire.Inv.reach (hr t)).good n p h1).wf q (List.mem_of_getElem? h2)).2.1 h3)
    obtain ⟨t2, p2, q2, h4, h5⟩ := fin h2 h3
    exact ⟨t2, p2, q2, by omega, h5⟩
  cases hpc : q.pc with
  | mark => exact start (.inl hpc)
  | entries => exact start (.inr hpc)
  | running => exact fin ⟨p, hp, hq⟩ hpc
  | done => exact ⟨t, p, q, Nat.le_refl _, hp, hq, hpc⟩

/-! ### Non-vacuity -/

/-- When all pushes and calls of a node have returned, none of them goes on. -/
theorem GWire.push_over {c : GWire.Cfg ε} {n : Nat} {s : GWire.State ε} {x : Node.State ε} {p : GWire.Part ε} (hx : s.net.nodes[n]? = some x) (hp : s.parts[n]? = some p) (hd : ∀ q ∈ p.g.pushes, q.pc = .done ∧ ∀ g ∈ q.gors, g.pc = .done)
    (hc : ∀ d ∈ x.calls, ∃ r, d.pc = .returned r) :
    (∀ k l, GWire.step c s (.own n (.pushing k l)) = none) ∧ (∀ k j a, Spreads n k j a → GWire.step c s a = none) ∧ ∀ q a, Goes q a → GWire.step c s (.net (.node n a)) = none := by
  have gor : ∀ k j, (GWire.step c s (.own n (.gor k j)) = none ∧ GWire.sending p.g k j = none) ∧ ∀ ok, Gossip.step (c.gossip n) p.g (.sent k j ok) = none := by
    intro k j
    simp only [GWire.step, GWire.State.with, hx, hp, GWire.sending, Gossip.step]
    cases hk : p.g.pushes[k]? with
    | none => simp
    | some q =>
      cases hj : q.gors[j]? with
      | none => simp [hj]
      | some g =>
        have := (hd q (List.mem_of_getElem? hk)).2 g (List.mem_of_getElem? hj)
        simp [hj, this]
  refine ⟨fun k l => ?_, fun k j a ha => ?_, fun q a ha => ?_⟩
  · simp only [GWire.step, GWire.State.with, hx, hp, Gossip.step]
    cases hk : p.g.pushes[k]? with
    | none => simp
    | some q => simp [(hd q (List.mem_of_getElem? hk)).1]
  · rcases ha with rfl | rfl | rfl
    · exact (gor k j).1.1
    · simp [GWire.step, hx, hp, (gor k j).1.2]
    · simp only [GWire.step, GWire.State.with, hx, hp]
      split
      · rfl
      · split
        · split
          · split
            · rw [(gor k j).2]; rfl
            · rfl
          · rfl
        · rfl
  · have none : Node.step (c.node n) x a = none := by
      unfold Node.step
      split
      · rfl
      cases hq : x.calls[q]? with
      | none => rcases ha with rfl | ⟨b, rfl⟩ | rfl | rfl <;> simp [hq]
      | some d =>
        obtain ⟨r, hr⟩ := hc d (List.mem_of_getElem? hq)
        rcases ha with rfl | ⟨b, rfl⟩ | rfl | rfl <;> simp [hq, hr, Node.State.callStep]
    rcases ha with rfl | ⟨b, rfl⟩ | rfl | rfl <;> simp [GWire.step, GWire.bars, Net.step, hx, none]

/-- The execution of two nodes in which node 0 pushes `[7]`, node 1 is told, and then nothing happens. -/
abbrev gossipPlay : Nat → GWire.State Unit := Fair.play (GWire.step gossipers) (GWire.State.new 2) gossipRun

/-- Node 0 in it: it has not crashed, has closed no connection, and all it has called is `Send` for the address of node 1. -/
def playOk (s : GWire.State Unit) : Bool := match s.net.nodes[0]? with
  | some x => !x.crashed && x.conns.length ≤ 1 && x.conns.all (fun y => y.c.once = .fresh) && x.calls.all fun d => d.addr = (gid 1).address
  | none => false

/-- Node 0 in the end: its push and its call have returned, its connection is ready. -/
def playEnd (s : GWire.State Unit) : Bool := match s.net.nodes[0]?, s.parts[0]? with
  | some x, some p => p.g.pushes.all (fun q => q.pc = .done ∧ q.gors.all fun g => g.pc = .done) && x.calls.all (fun d => match d.pc with | .returned _ => true | _ => false) && x.conns.length = 1 && x.conns.all fun y => y.c.ready
  | _, _ => false

/-- The execution that does these actions, and then nothing, is fair to node 0. -/
theorem gplay_runs {as : List (GWire.Action Unit)} (hend : (runs (GWire.step gossipers) (GWire.State.new 2) as).map playEnd = some true)
    (hlow : ((List.range (as.length + 1)).all fun t => playOk (Fair.play (GWire.step gossipers) (GWire.State.new 2) as t)) = true) :
    GossipRuns gossipers 2 0 (Fair.play (GWire.step gossipers) (GWire.State.new 2) as) (fun t => as[t]?) ∧ Settles (nodeAt (Fair.play (GWire.step gossipers) (GWire.State.new 2) as) 0) ∧
      (∀ (t k : Nat) (d : Node.Call Unit), (nodeAt (Fair.play (GWire.step gossipers) (GWire.State.new 2) as) 0 t).calls[k]? = some d → d.addr ∈ [(gid 1).address]) := by
  obtain ⟨s, h1, h2⟩ := Option.map_eq_some_iff.1 hend
  obtain ⟨hx, hfin⟩ := Fair.play_exec h1
  have low : ∀ t, t ≤ as.length → playOk ((Fair.play (GWire.step gossipers) (GWire.State.new 2) as) t) = true := by
    exact fun t ht => List.all_eq_true.1 hlow t (List.mem_range.2 (by omega))
  have always : ∀ t, playOk ((Fair.play (GWire.step gossipers) (GWire.State.new 2) as) t) = true := by
    intro t
    by_cases ht : t ≤ as.length
    · exact low t ht
    · rw [hfin t (by omega), ← hfin as.length (Nat.le_refl _)]
      exact low _ (Nat.le_refl _)
  have ok : ∀ t, ∃ x : Node.State Unit, ((Fair.play (GWire.step gossipers) (GWire.State.new 2) as) t).net.nodes[0]? = some x ∧ nodeAt (Fair.play (GWire.step gossipers) (GWire.State.new 2) as) 0 t = x ∧ x.crashed = false ∧ x.conns.length ≤ 1 ∧ (∀ y ∈ x.conns, y.c.once = .fresh) ∧ ∀ d ∈ x.calls, d.addr = (gid 1).address := by
    intro t
    have := always t
    unfold playOk at this
    split at this
    · rename_i x hx
      refine ⟨x, hx, by rw [nodeAt, hx]; rfl, ?_⟩
      simpa [and_assoc] using this
    · cases this
  unfold playEnd at h2
  split at h2
  swap
  · cases h2
  rename_i x p hxs hps
  simp only [Bool.and_eq_true, List.all_eq_true, decide_eq_true_eq] at h2
  obtain ⟨⟨⟨e1, e2⟩, e3⟩, e4⟩ := h2
  obtain ⟨o1, o2, o3⟩ := GWire.push_over (c := gossipers) hxs hps e1 (fun d hd => by
    have := e2 d hd
    split at this
    · rename_i r hr; exact ⟨r, hr⟩
    · cases this)
  have fair : ∀ C : GWire.Action Unit → Prop, (∀ a, C a → GWire.step gossipers s a = none) → WeaklyFair (Fair.play (GWire.step gossipers) (GWire.State.new 2) as) (fun t => as[t]?) (Able (GWire.step gossipers) C) C := by
    intro C hC t
    refine ⟨t + as.length, by omega, .inr ?_⟩
    rw [hfin _ (by omega)]
    rintro ⟨a, ha, hs⟩
    rw [hC a ha] at hs; cases hs
  have last : ∀ t, as.length ≤ t → nodeAt (Fair.play (GWire.step gossipers) (GWire.State.new 2) as) 0 t = x := fun t ht => by rw [nodeAt, hfin t ht, hxs]; rfl
  refine ⟨⟨.refl _, hx, fun k => fair _ (by rintro _ ⟨l, rfl⟩; exact o1 k l), fun k j => fair _ (o2 k j), fun q => fair _ (by rintro _ ⟨b, rfl, hb⟩; exact o3 q b hb), fun t j y hy hne => ?_, fun t => ?_⟩, fun t j y hy => ?_, fun t k d hk => ?_⟩
  · obtain ⟨z, -, g1, -, -, g2, -⟩ := ok t
    rw [g1] at hy
    exact (hne (g2 y (List.mem_of_getElem? hy))).elim
  · obtain ⟨z, -, g1, g2, -⟩ := ok t
    rw [g1]; exact g2
  · obtain ⟨z, -, g1, -, g2, -⟩ := ok t
    rw [g1] at hy
    have hj : j < x.conns.length := by
      have := (List.getElem?_eq_some_iff.1 hy).1
      omega
    refine ⟨t + as.length, x.conns[j], by omega, by rw [last _ (by omega)]; exact List.getElem?_eq_getElem hj, .inl ?_⟩
    exact e4 _ (List.getElem_mem hj)
  · obtain ⟨z, -, g1, -, -, -, g2⟩ := ok t
    rw [g1] at hk
    rw [g2 d (List.mem_of_getElem? hk)]
    exact List.mem_singleton_self _

/-- The hypotheses of `C142_returns_partial` and `C114_calls_return_partial` are met by the execution that does all this, and then nothing. -/
theorem gossipPlay_runs : GossipRuns gossipers 2 0 gossipPlay (fun t => gossipRun[t]?) ∧ Settles (nodeAt gossipPlay 0) ∧ (∀ (t k : Nat) (d : Node.Call Unit), (nodeAt gossipPlay 0 t).calls[k]? = some d → d.addr ∈ [(gid 1).address]) :=
  gplay_runs (by decide +kernel) (by decide +kernel)

/-- So both apply: the push returns. -/
example : (∃ β, CallsRun (gossipers.node 0) (nodeAt gossipPlay 0) β) ∧ ∃ (t : Nat) (p : GWire.Part Unit) (q : Gossip.Pushing), (gossipPlay t).parts[0]? = some p ∧ p.g.pushes[0]? = some q ∧ q.pc = .done := by
  obtain ⟨h1, h2, h3⟩ := gossipPlay_runs
  refine ⟨GWire.node_runs h1 (by decide), ?_⟩
  have h : ((gossipPlay 5).parts[0]?).map (fun p => (p.g.pushes[0]?).map fun q => q.pc) = some (some .mark) := by decide +kernel
  obtain ⟨p, hp, h⟩ := Option.map_eq_some_iff.1 h
  obtain ⟨q, hq, h⟩ := Option.map_eq_some_iff.1 h
  obtain ⟨t, p', q', -, h4⟩ := C142_returns_partial gossipers 2 0 _ _ h1 [(gid 1).address] (by decide) h3 0 (.inl h2) 5 p q hp hq
  exact ⟨t, p', q', h4⟩

/-- Node 1 pushes on what it got to three peers at a time; its pools may hold two clients. -/
def stuckRun : List (GWire.Action Unit) := gossipRun.take (gossipRun.length - 5) ++ [.own 1 (.pushing 0 [gid 2, gid 3, gid 4]), .own 1 (.gor 0 0), .own 1 (.gor 0 1), .own 1 (.gor 0 2), .send 1 0 0, .send 1 0 1, .send 1 0 2] ++ onNet (atNode 1 [.callStep 0, .callStep 1, .callStep 2])

/-- **C142, witness.** A push of `Handle` that is stuck: the hypotheses of `C142_stuck_refuted` and `C142_worker_refuted` are met. -/
theorem C142_witness : ∃ (s : GWire.State Unit) (x : Node.State Unit) (p : GWire.Part Unit) (d : Node.Call Unit) (v : Nat) (b : Bool) (y : Gossip.Handler), GWire.Reachable gossipers 2 s ∧ s.net.nodes[1]? = some x ∧ s.parts[1]? = some p ∧ (⟨0, 2, 2⟩ : GWire.Ask) ∈ p.asks ∧
    x.calls[2]? = some d ∧ d.pc = .evict v b ∧ (0, 0) ∈ p.runs ∧ p.g.handlers[0]? = some y ∧ y.pc = .pushing 0 := by
  have h : (runs (GWire.step gossipers) (GWire.State.new 2) stuckRun).map (fun s => match s.net.nodes[1]?, s.parts[1]? with
    | some x, some p => decide ((⟨0, 2, 2⟩ : GWire.Ask) ∈ p.asks) && (match (x.calls[2]?).map Node.Call.pc with | some (.evict _ _) => true | _ => false) && decide ((0, 0) ∈ p.runs) && decide ((p.g.handlers[0]?).map Gossip.Handler.pc = some (.pushing 0))
    | _, _ => false) = some true := by decide +kernel
  obtain ⟨s, h1, h2⟩ := Option.map_eq_some_iff.1 h
  split at h2
  swap
  · cases h2
  rename_i x p hx hp
  simp only [Bool.and_eq_true, decide_eq_true_eq] at h2
  obtain ⟨⟨⟨e1, e2⟩, e3⟩, e4⟩ := h2
  split at e2
  · rename_i v b hv
    obtain ⟨d, hd, hv⟩ := Option.map_eq_some_iff.1 hv
    obtain ⟨y, hy, hpc⟩ := Option.map_eq_some_iff.1 e4
    exact ⟨s, x, p, d, v, b, y, ⟨_, h1⟩, hx, hp, e1, hd, hv, e3, hy, hpc⟩
  · cases e2

/-- And those of `C142_many_peers_refuted`, at the end of `gossipRun`. -/
example : ∃ (s : GWire.State Unit) (x : Node.State Unit) (p : GWire.Part Unit) (q : Gossip.Pushing), GWire.Reachable gossipers 2 s ∧ s.net.nodes[0]? = some x ∧ s.parts[0]? = some p ∧ x.crashed = false ∧ p.g.pushes[0]? = some q ∧ q.pc = .done ∧
    pushAddrs p x 0 = [(gid 1).address] := by
  have h : (runs (GWire.step gossipers) (GWire.State.new 2) gossipRun).map (fun s => match s.net.nodes[0]?, s.parts[0]? with
    | some x, some p => !x.crashed && decide ((p.g.pushes[0]?).map Gossip.Pushing.pc = some .done) && decide (pushAddrs p x 0 = [(gid 1).address])
    | _, _ => false) = some true := by decide +kernel
  obtain ⟨s, h1, h2⟩ := Option.map_eq_some_iff.1 h
  split at h2
  swap
  · cases h2
  rename_i x p hx hp
  simp only [Bool.and_eq_true, decide_eq_true_eq, Bool.not_eq_true'] at h2
  obtain ⟨⟨e1, e2⟩, e3⟩ := h2
  obtain ⟨q, hq, hpc⟩ := Option.map_eq_some_iff.1 e2
  exact ⟨s, x, p, q, ⟨_, h1⟩, hx, hp, e1, hq, hpc, e3⟩

end Noise
