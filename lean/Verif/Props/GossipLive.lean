import Verif.Proofs.GossipReach
import Verif.Props.GossipPush
import Verif.Props.NetLive
/-! # C133, C144: gossip over connections on which nothing fails is reported -/
namespace Noise
open Spec Net
variable {ε : Type}

/-- C133, from the call on: while the applications of the dialling node call no more addresses than the pool may hold, a call of `Send` for the address of a connection on which nothing fails gets this connection, returns without an error, and its message is given to every handler of
the accepting node. -/
theorem C133_send_arrives (cfg : Nat → Node.Cfg ε) (n : Nat) (σ : Nat → Net.State ε) (α : Nat → Option (Net.Action ε)) (r : Net.FairRun cfg n σ α) (o i : End) (u : Unbroken σ α o i)
    (hNo : 0 < (cfg o.node).numWorkers) (hNi : 0 < (cfg i.node).numWorkers) (L : List Text) (hL : L.length ≤ (cfg o.node).max) (hin : ∀ t k c, CallAt σ o.node k t c → c.addr ∈ L)
    (t k : Nat) (c : Node.Call ε) (hc : CallAt σ o.node k t c) (hpc : c.pc = .get) (hleft : 0 < c.left) (x : Node.Conn ε) (hx : (σ t).conn o = some x) (ha : x.addr = c.addr) (data : Bytes) (hkind : c.kind = .send data) (hend : Endless σ o.node k) :
    (∃ t' c', t ≤ t' ∧ CallAt σ o.node k t' c' ∧ c'.pc = .returned .sent) ∧
    ∃ (t' : Nat) (I : Node.State ε) (q : Wk.State ε) (v w : Nat), (σ t').nodes[i.node]? = some I ∧ I.wk = some q ∧ q.items[v]? = some ⟨i.conn, ⟨0, data⟩⟩ ∧
      handlingOf v q.log = handledUpTo w v (cfg i.node).numHandlers := by
  obtain ⟨t1, c1, h1, h2, h3, h4⟩ := u.finds r hL hin hc hpc hleft hx ha hend
  obtain ⟨⟨t2, c2, h5, h6⟩, h7⟩ := C133_send_is_handled cfg n σ α r o i u hNo hNi t1 k c1 h2 (.inl h3) data (h4.trans hkind) hend
  exact ⟨⟨t2, c2, by omega, h6⟩, h7⟩

/-- C133, from the call on, for `Request`, if the accepting node answers requests with this data. -/
theorem C133_answered_request_arrives (cfg : Nat → Node.Cfg ε) (n : Nat) (σ : Nat → Net.State ε) (α : Nat → Option (Net.Action ε)) (r : Net.FairRun cfg n σ α) (o i : End) (u : Unbroken σ α o i)
    (hNo : 0 < (cfg o.node).numWorkers) (hNi : 0 < (cfg i.node).numWorkers) (h : Nat) (hh : h < (cfg i.node).numHandlers) (data : Bytes) (hans : Net.AnswersTo σ α i h data)
    (hb : ∀ t x, (σ t).conn o = some x → x.c.calls.length < 2 ^ 64 - 1) (L : List Text) (hL : L.length ≤ (cfg o.node).max) (hin : ∀ t k c, CallAt σ o.node k t c → c.addr ∈ L)
    (t k : Nat) (c : Node.Call ε) (hc : CallAt σ o.node k t c) (hpc : c.pc = .get) (hleft : 0 < c.left) (x : Node.Conn ε) (hx : (σ t).conn o = some x) (ha : x.addr = c.addr) (hkind : c.kind = .request data) (hend : Endless σ o.node k) :
    ∃ t' m c', t ≤ t' ∧ CallAt σ o.node k t' c' ∧ c'.pc = .returned (.response m) ∧ Answered σ i t t' data m := by
  obtain ⟨t1, c1, h1, h2, h3, h4⟩ := u.finds r hL hin hc hpc hleft hx ha hend
  obtain ⟨t2, m, c2, h5, h6, h7, I, w, v, f, e1, e2, e3, e4, e5⟩ := C133_answered_request_returns cfg n σ α r o i u hNo hNi h hh data hans hb t1 k c1 h2 (.inl h3) (h4.trans hkind) hend
  refine ⟨t2, m, c2, by omega, h6, h7, I, w, v, f, e1, e2, e3, e4, fun J w' hJ hw' => ?_⟩
  obtain ⟨K, hK⟩ := r.has (by rw [← r.len t]; exact (List.getElem?_eq_some_iff.1 hJ).1) t1
  obtain ⟨w1, g1, g2⟩ := r.queue_grows h1 hJ hK hw'
  exact Nat.le_trans g2.length_le (e5 K w1 hK g1)

/-- C133, from the call on, for `Request`. -/
theorem C133_request_arrives (cfg : Nat → Node.Cfg ε) (n : Nat) (σ : Nat → Net.State ε) (α : Nat → Option (Net.Action ε)) (r : Net.FairRun cfg n σ α) (o i : End) (u : Unbroken σ α o i)
    (hNo : 0 < (cfg o.node).numWorkers) (hNi : 0 < (cfg i.node).numWorkers) (h : Nat) (hh : h < (cfg i.node).numHandlers) (hans : Net.Answers σ α i h)
    (hb : ∀ t x, (σ t).conn o = some x → x.c.calls.length < 2 ^ 64 - 1) (L : List Text) (hL : L.length ≤ (cfg o.node).max) (hin : ∀ t k c, CallAt σ o.node k t c → c.addr ∈ L)
    (t k : Nat) (c : Node.Call ε) (hc : CallAt σ o.node k t c) (hpc : c.pc = .get) (hleft : 0 < c.left) (x : Node.Conn ε) (hx : (σ t).conn o = some x) (ha : x.addr = c.addr) (data : Bytes) (hkind : c.kind = .request data) (hend : Endless σ o.node k) :
    ∃ t' m c', t ≤ t' ∧ CallAt σ o.node k t' c' ∧ c'.pc = .returned (.response m) := by
  obtain ⟨t', m, c', h1, h2, h3, -⟩ := C133_answered_request_arrives cfg n σ α r o i u hNo hNi h hh data (fun t w k it X q h1 h2 h3 h4 h5 h6 h7 _ => hans t w k it X q h1 h2 h3 h4 h5 h6 h7) hb L hL hin t k c hc hpc hleft x hx ha hkind hend
  exact ⟨t', m, c', h1, h2, h3⟩

/-- **C144 (a gossip message that is sent is reported).** In every fair execution of a network of nodes that gossip, on a connection on which nothing fails: when a call of `Send` with a gossip message has got this connection, the application of the accepting node
comes to have the data. Everything else in the network is arbitrary. -/
theorem C144_sent_is_reported (c : GWire.Cfg ε) (N : Nat) (σ : Nat → GWire.State ε) (α : Nat → Option (GWire.Action ε)) (β : Nat → Option (Net.Action ε)) (h0 : GWire.Reachable c N (σ 0)) (hx : Execution (GWire.step c) σ α)
    (r : Net.FairRun c.node N (fun t => (σ t).net) β) (o i : End) (u : Unbroken (fun t => (σ t).net) β o i) (hNo : 0 < (c.node o.node).numWorkers) (hNi : 0 < (c.node i.node).numWorkers)
    (hh : c.handler < (c.node i.node).numHandlers)
    (t k : Nat) (d : Node.Call ε) (hc : CallAt (fun t => (σ t).net) o.node k t d) (hpc : d.pc = .select o.conn ∨ d.pc = .got o.conn) (data : Bytes) (hkind : d.kind = .send (gossipBytes c.op data))
    (hend : Endless (fun t => (σ t).net) o.node k) : ∃ t', Told c (σ t') i.node data := by
  obtain ⟨-, t1, I, q, v, w, hI, hq, hv, hlog⟩ := C133_send_is_handled c.node N _ β r o i u hNo hNi t k d hc hpc _ hkind hend
  have hr : ∀ t, GWire.Reachable c N (σ t) := fun t => h0.trans (Fair.reach hx t)
  have hf : .finished v c.handler none ∈ q.log := by
    have : .finished v c.handler none ∈ handlingOf v q.log := by
      rw [hlog]
      exact List.mem_cons_of_mem _ (List.mem_flatMap.2 ⟨c.handler, List.mem_range.2 hh, by simp⟩)
    exact (List.mem_filter.1 this).1
  obtain ⟨p, hp⟩ : ∃ p, (σ t1).parts[i.node]? = some p := ⟨_, List.getElem?_eq_getElem (by
    rw [(GWire.Inv.reach (hr t1)).same]; exact (List.getElem?_eq_some_iff.1 hI).1)⟩
  rcases (C141_not_dropped c N _ (hr t1) i.node I p hI hp q hq v none hf i.conn data hv).1 with h | ⟨y, h1, rfl, h2⟩ | h | h
  · exact ⟨t1, p, hp, .inl h⟩
  · obtain ⟨t2, p2, -, hp2, h3⟩ := GWire.callback_returns hx h0 r u hNi hh hp h1 h2
    exact ⟨t2, p2, hp2, .inl ⟨_, h3⟩⟩
  · exact ⟨t1, p, hp, .inr (.inl h)⟩
  · exact ⟨t1, p, hp, .inr (.inr h)⟩

theorem crossing {P : Nat → Prop} {t t' : Nat} (hle : t ≤ t') (h : ¬ P t) (h' : P t') : ∃ u, t ≤ u ∧ ¬ P u ∧ P (u + 1) := by
  induction hle with
  | refl => exact (h h').elim
  | @step m hm ih =>
    by_cases hp : P m
    · exact ih hp
    · exact ⟨m, hm, hp, h'⟩

/-- What a goroutine of `Push` has called `Send` with is reported. -/
theorem GWire.ask_reported (c : GWire.Cfg ε) (N : Nat) (σ : Nat → GWire.State ε) (α : Nat → Option (GWire.Action ε)) (β : Nat → Option (Net.Action ε)) (o i : End) (hrun : GossipRuns c N o.node σ α)
    (r : Net.FairRun c.node N (fun t => (σ t).net) β) (u : Unbroken (fun t => (σ t).net) β o i) (hNo : 0 < (c.node o.node).numWorkers) (hNi : 0 < (c.node i.node).numWorkers) (hh : c.handler < (c.node i.node).numHandlers)
    (L : List Text) (hL : L.length ≤ (c.node o.node).max) (hin : ∀ t k d, CallAt (fun t => (σ t).net) o.node k t d → d.addr ∈ L) (hatt : 0 < (c.node o.node).attempts)
    (t k j : Nat) (hno0 : ¬ ∃ p : GWire.Part ε, (σ t).parts[o.node]? = some p ∧ ∃ a ∈ p.asks, a.push = k ∧ a.gor = j)
    (x : Node.Conn ε) (hx : (σ t).net.conn o = some x)
    (hend : ∀ t p (a : GWire.Ask), (σ t).parts[o.node]? = some p → a ∈ p.asks → a.push = k → Endless (fun t => (σ t).net) o.node a.call)
    (t1 : Nat) (p1 : GWire.Part ε) (q1 : Gossip.Pushing) (g : Gossip.Gor) (hp1 : (σ t1).parts[o.node]? = some p1) (hq1 : p1.g.pushes[k]? = some q1) (hj : q1.gors[j]? = some g) (haddr : g.peer.address = x.addr)
    (t3 : Nat) (p3 : GWire.Part ε) (hle3 : t ≤ t3) (hp3 : (σ t3).parts[o.node]? = some p3) (hask : ∃ a ∈ p3.asks, a.push = k ∧ a.gor = j) :
    ∃ t', Told c (σ t') i.node q1.data := by
  have hr := GWire.run_reach hrun
  -- the moment of the call
  obtain ⟨t2, hle2, hno, p2, hp2, a, ha, hak, haj⟩ := crossing (P := fun t => ∃ p : GWire.Part ε, (σ t).parts[o.node]? = some p ∧ ∃ a ∈ p.asks, a.push = k ∧ a.gor = j) (t := t) (t' := t3) hle3 hno0 ⟨p3, hp3, hask⟩
  have hcall : ∃ d, CallAt (fun t => (σ t).net) o.node a.call (t2 + 1) d ∧ d.pc = .get ∧ d.left = (c.node o.node).attempts := by
    rcases hrun.exec t2 with ⟨-, e⟩ | ⟨b, -, hs⟩
    · exact (hno ⟨p2, by rw [← e]; exact hp2, a, ha, hak, haj⟩).elim
    cases GWire.step_eff hs with
    | net b h1 h2 => exact (hno ⟨p2, by rw [← h2]; exact hp2, a, ha, hak, haj⟩).elim
    | gossip m x0 r0 r1 b hx0 hr0 hnn hps hgg has =>
      rw [hps] at hp2
      rcases (GWire.parts_set hr0).1 hp2 with ⟨rfl, rfl⟩ | ⟨-, h⟩
      · exact (hno ⟨r0, hr0, a, by rw [← has]; exact ha, hak, haj⟩).elim
      · exact (hno ⟨p2, h, a, ha, hak, haj⟩).elim
    | send m x0 r0 k0 j0 q0 g0 hx0 hr0 hq0 hg0 hpc0 hno0 hnn hps =>
      rw [hps] at hp2
      rcases (GWire.parts_set hr0).1 hp2 with ⟨rfl, rfl⟩ | ⟨-, h⟩
      swap
      · exact (hno ⟨p2, h, a, ha, hak, haj⟩).elim
      rcases List.mem_append.1 ha with ha | ha
      · exact (hno ⟨r0, hr0, a, ha, hak, haj⟩).elim
      rw [List.mem_singleton.1 ha]
      simp only [Net.step, hx0] at hnn
      obtain ⟨y, e1, e2⟩ := Option.map_eq_some_iff.1 hnn
      unfold Node.step at e1
      split at e1
      · cases e1
      simp only [Option.some.injEq] at e1
      refine ⟨⟨.send (gossipBytes c.op q0.data), g0.peer.address, (c.node o.node).attempts, .get, false⟩, ⟨y, ?_, ?_⟩, rfl, rfl⟩
      · simp only [← e2]
        exact List.getElem?_set_self (List.getElem?_eq_some_iff.1 hx0).1
      · rw [← e1]; simp
  obtain ⟨d, hd, hdpc, hdl⟩ := hcall
  have hle2' : t ≤ t2 + 1 := by omega
  obtain ⟨x', hx', hxa⟩ := r.addr hle2' hx
  -- what this call is for
  obtain ⟨q2, g2, X, d', hq2, hg2, hX, hd', hk', ha'⟩ := ((GWire.Inv.reach (hr (t2 + 1))).good _ _ hp2).asks a ha
  obtain ⟨X', hX', hdX⟩ := hd
  have hX'' : (σ (t2 + 1)).net.nodes[o.node]? = some X' := hX'
  rw [hX] at hX''; cases hX''
  rw [hdX] at hd'; cases hd'
  rw [hak] at hq2
  rw [haj] at hg2
  have hsame : q2.data = q1.data ∧ g2.peer = g.peer := by
    have keep : ∀ {s s' : Nat}, s ≤ s' → ∀ {peer data}, GWire.GorIs σ o.node k j peer data s → GWire.GorIs σ o.node k j peer data s' := by
      intro s s' hle peer data h
      refine Fair.stays (P := GWire.GorIs σ o.node k j peer data) ?_ hle h
      rintro y ⟨p, q, g, hp, hq, hg, h1, h2⟩
      rcases hrun.exec y with ⟨-, e⟩ | ⟨b, -, hs⟩
      · exact ⟨p, q, g, by rw [e]; exact hp, hq, hg, h1, h2⟩
      obtain ⟨p', hp', -, ⟨hpg, -⟩ | ⟨b, hb, -⟩⟩ := GWire.part_step hs hp
      · exact ⟨p', q, g, hp', by rw [hpg]; exact hq, hg, h1, h2⟩
      · obtain ⟨q', g', e1, e2, e3, e4, -⟩ := Gossip.step_gor hb hq (((GWire.Inv.reach (hr y)).good _ _ hp).wf q (List.mem_of_getElem? hq)) hg
        exact ⟨p', q', g', hp', e1, e2, e4.trans h1, e3.trans h2⟩
    obtain ⟨p4, q4, g4, f1, f2, f3, f4, f5⟩ := keep (Nat.le_max_left t1 (t2 + 1)) ⟨p1, q1, g, hp1, hq1, hj, rfl, rfl⟩
    obtain ⟨p5, q5, g5, f6, f7, f8, f9, f10⟩ := keep (Nat.le_max_right t1 (t2 + 1)) ⟨p2, q2, g2, hp2, hq2, hg2, rfl, rfl⟩
    rw [f1] at f6; cases f6
    rw [f2] at f7; cases f7
    rw [f3] at f8; cases f8
    exact ⟨f10.symm.trans f5, f9.symm.trans f4⟩
  have he := hend (t2 + 1) p2 a hp2 ha hak
  obtain ⟨t4, d4, -, hd4, hpc4, hk4⟩ := u.finds r hL hin ⟨X, hX, hdX⟩ hdpc (by omega) hx' (by rw [hxa, ha', hsame.2, haddr]) he
  obtain ⟨t5, h5⟩ := C144_sent_is_reported c N σ α β (hr 0) hrun.exec r o i u hNo hNi hh t4 a.call d4 hd4 (.inl hpc4) q2.data (hk4.trans hk') he
  rw [hsame.1] at h5
  exact ⟨t5, h5⟩

/-- What a goroutine of `Push` is to send is reported. -/
theorem GWire.gor_reported (c : GWire.Cfg ε) (N : Nat) (σ : Nat → GWire.State ε) (α : Nat → Option (GWire.Action ε)) (β : Nat → Option (Net.Action ε)) (o i : End) (hrun : GossipRuns c N o.node σ α)
    (r : Net.FairRun c.node N (fun t => (σ t).net) β) (u : Unbroken (fun t => (σ t).net) β o i) (hNo : 0 < (c.node o.node).numWorkers) (hNi : 0 < (c.node i.node).numWorkers) (hh : c.handler < (c.node i.node).numHandlers)
    (L : List Text) (hL : L.length ≤ (c.node o.node).max) (hin : ∀ t k d, CallAt (fun t => (σ t).net) o.node k t d → d.addr ∈ L) (hatt : 0 < (c.node o.node).attempts)
    (t k : Nat) (p : GWire.Part ε) (q : Gossip.Pushing) (hp : (σ t).parts[o.node]? = some p) (hq : p.g.pushes[k]? = some q) (hpc : q.pc = .mark ∨ q.pc = .entries)
    (x : Node.Conn ε) (hx : (σ t).net.conn o = some x)
    (hend : ∀ t p (a : GWire.Ask), (σ t).parts[o.node]? = some p → a ∈ p.asks → a.push = k → Endless (fun t => (σ t).net) o.node a.call)
    (t1 j : Nat) (p1 : GWire.Part ε) (q1 : Gossip.Pushing) (g : Gossip.Gor) (hle : t ≤ t1) (hp1 : (σ t1).parts[o.node]? = some p1) (hq1 : p1.g.pushes[k]? = some q1) (hj : q1.gors[j]? = some g) (haddr : g.peer.address = x.addr) :
    ∃ t', Told c (σ t') i.node q1.data ∨ (Presumed c (σ t') o.node g.peer.id q1.data ∧ ∃ p', (σ t').parts[o.node]? = some p' ∧ ¬ ∃ a ∈ p'.asks, a.push = k ∧ a.gor = j) := by
  have hr := GWire.run_reach hrun
  obtain ⟨t0, hl⟩ := u.linked
  have hn : o.node < N := (u.out r hl).exist
  obtain ⟨t3, p3, hle3, hp3, hm⟩ := GWire.gor_asks hrun hn (t := t1) ⟨p1, q1, g, hp1, hq1, hj, rfl, rfl⟩
  by_cases hask : ∃ a ∈ p3.asks, a.push = k ∧ a.gor = j
  swap
  · refine ⟨t3, .inr ⟨?_, p3, hp3, hask⟩⟩
    have hm := hm.resolve_right hask
    have good := (GWire.Inv.reach (hr t3)).good _ _ hp3
    rcases (Gossip.Marks.reach ((GWire.Inv2.reach (hr t3)).gossip _ _ hp3)).why hm with ⟨h, h1, h2, h3⟩ | h | ⟨e, h1, h2, h3⟩
    · exact .inr (.inl ⟨h.sender, h2, by rw [← h3]; exact (good.handlers h h1).1⟩)
    · exact .inl h
    · exact .inr (.inr ⟨e.1, h2, by rw [← h3]; exact good.sent e h1⟩)
  have hno : ¬ ∃ p : GWire.Part ε, (σ t).parts[o.node]? = some p ∧ ∃ a ∈ p.asks, a.push = k ∧ a.gor = j := by
    rintro ⟨p', e1, a, e2, e3, -⟩
    rw [hp] at e1; cases e1
    have good := (GWire.Inv.reach (hr t)).good _ _ hp
    obtain ⟨q', g', -, -, f1, f2, -⟩ := good.asks a e2
    rw [e3, hq] at f1; cases f1
    rw [(good.wf q (List.mem_of_getElem? hq)).2.1 hpc] at f2; cases f2
  obtain ⟨t5, h5⟩ := GWire.ask_reported c N σ α β o i hrun r u hNo hNi hh L hL hin hatt t k j hno x hx hend t1 p1 q1 g hp1 hq1 hj haddr t3 p3 (by omega) hp3 hask
  exact ⟨t5, .inl h5⟩

/-- **C144 (what is pushed is reported).** In every such execution that is fair also to the goroutines of `Push`: let a `Push` read the routing table while the node has a connection, on which nothing fails, to the address of one of the peers in it. Then the application of the node at the other end
comes to have the data; unless, before the goroutine for this peer has called `Send`, the pushing node takes the owner of the peer's key for somebody who has the data: because it is its own key, or because the data came to it from a peer with this key, or because it has sent the data to the
address of a peer with this key. (The applications of the pushing node call no more addresses than the pool may hold; the contexts of this push do not end.) -/
theorem C144_push_is_reported (c : GWire.Cfg ε) (N : Nat) (σ : Nat → GWire.State ε) (α : Nat → Option (GWire.Action ε)) (β : Nat → Option (Net.Action ε)) (o i : End) (hrun : GossipRuns c N o.node σ α)
    (r : Net.FairRun c.node N (fun t => (σ t).net) β) (u : Unbroken (fun t => (σ t).net) β o i) (hNo : 0 < (c.node o.node).numWorkers) (hNi : 0 < (c.node i.node).numWorkers) (hh : c.handler < (c.node i.node).numHandlers)
    (L : List Text) (hL : L.length ≤ (c.node o.node).max) (hin : ∀ t k d, CallAt (fun t => (σ t).net) o.node k t d → d.addr ∈ L) (hatt : 0 < (c.node o.node).attempts)
    (t k : Nat) (p : GWire.Part ε) (q : Gossip.Pushing) (hp : (σ t).parts[o.node]? = some p) (hq : p.g.pushes[k]? = some q) (hpc : q.pc = .entries) (table : List ID) (hα : α t = some (.own o.node (.pushing k table)))
    (hend : ∀ t p (a : GWire.Ask), (σ t).parts[o.node]? = some p → a ∈ p.asks → a.push = k → Endless (fun t => (σ t).net) o.node a.call)
    (j : Nat) (peer : ID) (hj : table[j]? = some peer) (x : Node.Conn ε) (hx : (σ t).net.conn o = some x) (haddr : x.addr = peer.address) :
    ∃ t', Told c (σ t') i.node q.data ∨ (Presumed c (σ t') o.node peer.id q.data ∧ ∃ p', (σ t').parts[o.node]? = some p' ∧ ¬ ∃ a ∈ p'.asks, a.push = k ∧ a.gor = j) := by
  have hnext : ∃ (p1 : GWire.Part ε) (q1 : Gossip.Pushing) (g : Gossip.Gor), (σ (t + 1)).parts[o.node]? = some p1 ∧ p1.g.pushes[k]? = some q1 ∧ q1.data = q.data ∧ q1.gors[j]? = some g ∧ g.peer = peer := by
    rcases hrun.exec t with ⟨e, -⟩ | ⟨b, hb, hs⟩
    · rw [hα] at e; cases e
    rw [hα] at hb; cases hb
    simp only [GWire.step, GWire.State.with, hp] at hs
    split at hs <;> try cases hs
    rename_i X p0 hX hp0
    cases hp0
    split at hs <;> try cases hs
    obtain ⟨p', hp', hs⟩ := Option.map_eq_some_iff.1 hs
    obtain ⟨g', hg', rfl⟩ := Option.map_eq_some_iff.1 hp'
    simp only [Gossip.step, hq, hpc] at hg'
    split at hg'
    swap
    · cases hg'
    simp only [Option.some.injEq] at hg'
    refine ⟨_, { q with pc := .running, gors := table.map fun e => ⟨e, .check⟩ }, ⟨peer, .check⟩, by rw [← hs]; exact List.getElem?_set_self (List.getElem?_eq_some_iff.1 hp).1, by rw [← hg']; exact List.getElem?_set_self (List.getElem?_eq_some_iff.1 hq).1, rfl, ?_, rfl⟩
    simp only [List.getElem?_map, hj, Option.map_some]
  obtain ⟨p1, q1, g, hp1, hq1, hd, hg, rfl⟩ := hnext
  have := GWire.gor_reported c N σ α β o i hrun r u hNo hNi hh L hL hin hatt t k p q hp hq (.inr hpc) x hx hend (t + 1) j p1 q1 g (by omega) hp1 hq1 hg haddr.symm
  rw [hd] at this
  exact this

/-! ### Non-vacuity: node 0 pings node 1 and pushes `[7]` over this connection -/

/-- What a step does in the network of nodes. -/
def netOf (c : GWire.Cfg ε) (s : GWire.State ε) : GWire.Action ε → Option (Net.Action ε)
  | .net a => some a
  | .leave n w => match s.net.nodes[n]?, s.parts[n]? with
    | some x, some p => match GWire.invocation c x w with
      | some (k, _) => match p.runs.find? (fun r => r.1 = k) with
        | some (_, i) => some (.node n (.handlerReturn w ((p.errors.find? (fun e => e.1 = i)).map Prod.snd)))
        | none => none
      | none => none
    | _, _ => none
  | .send n k j => match s.parts[n]? with
    | some p => match GWire.sending p.g k j with
      | some (data, peer) => some (.node n (.call (.send (GWire.encode c.op data)) peer.address))
      | none => none
    | none => none
  | _ => none

theorem netOf_step {c : GWire.Cfg ε} {s s' : GWire.State ε} {a : GWire.Action ε} (h : GWire.step c s a = some s') : (netOf c s a = none ∧ s'.net = s.net) ∨ ∃ b, netOf c s a = some b ∧ Net.step c.node s.net b = some s'.net := by
  have own : ∀ {n f}, s.with n f = some s' → s'.net = s.net := by
    intro n f h
    unfold GWire.State.with at h
    split at h
    · split at h
      · cases h
      · obtain ⟨p', -, rfl⟩ := Option.map_eq_some_iff.1 h; rfl
    · cases h
  cases a with
  | net a =>
    simp only [GWire.step] at h
    split at h
    · cases h
    obtain ⟨y, hy, rfl⟩ := Option.map_eq_some_iff.1 h
    exact .inr ⟨a, rfl, hy⟩
  | push n d => exact .inl ⟨rfl, own h⟩
  | own n a => exact .inl ⟨rfl, own h⟩
  | callback n i r => exact .inl ⟨rfl, own h⟩
  | enter n w => exact .inl ⟨rfl, own h⟩
  | sent n k j => exact .inl ⟨rfl, own h⟩
  | leave n w =>
    simp only [GWire.step] at h
    split at h <;> try cases h
    rename_i x p hx hp
    split at h <;> try cases h
    rename_i k it hi
    split at h <;> try cases h
    rename_i k' i hf
    split at h <;> try cases h
    obtain ⟨y, hy, rfl⟩ := Option.map_eq_some_iff.1 h
    exact .inr ⟨_, by simp only [netOf, hx, hp, hi, hf], hy⟩
  | send n k j =>
    simp only [GWire.step] at h
    split at h <;> try cases h
    rename_i x p hx hp
    split at h <;> try cases h
    rename_i data peer hd
    split at h <;> try cases h
    obtain ⟨y, hy, rfl⟩ := Option.map_eq_some_iff.1 h
    exact .inr ⟨_, by simp only [netOf, hp, hd], hy⟩

/-- Node 0 pings node 1, pushes `[7]`, and node 1 is told. -/
def liveRun : List (GWire.Action Unit) :=
  onNet (atNode 0 ([.listen, .acceptStep, .call .ping (gid 1).address, .callStep 0] ++ connDo 0 (connectOut (gid 1))) ++ atNode 1 ([.listen, .acceptStep, .acceptConn ['x'], .acceptStep] ++ connDo 0 (connectIn (gid 0)))
      ++ [.connect ⟨0, 0⟩ ⟨1, 0⟩] ++ atNode 0 [.select 0 .ready, .callStep 0])
    ++ [.push 0 [7], .own 0 (.pushing 0 []), .own 0 (.pushing 0 [gid 1]), .own 0 (.gor 0 0), .send 0 0 0]
    ++ onNet (atNode 0 ([.callStep 1, .select 1 .ready, .callStep 1] ++ connDo 0 [.writer, .writer, .writer, .writer, .writer, .writer]))
    ++ [.sent 0 0 0, .own 0 (.gor 0 0), .own 0 (.pushing 0 [])]
    ++ onNet (atNode 1 (connDo 0 [.writer, .arrive, .readMsg ⟨0, gossipBytes 5 [7]⟩, .main, .deliver, .main] ++ [.work 0, .work 0]))
    ++ [.enter 1 0, .own 1 (.handler 0), .own 1 (.handler 0), .own 1 (.handler 0), .callback 1 0 none, .own 1 (.handler 0), .own 1 (.pushing 0 []), .own 1 (.pushing 0 [gid 0]), .own 1 (.gor 0 0), .own 1 (.pushing 0 []), .own 1 (.handler 0), .leave 1 0]
    ++ onNet (atNode 1 [.work 0])

/-- The execution that does this, and then nothing. -/
abbrev livePlay : Nat → GWire.State Unit := Fair.play (GWire.step gossipers) (GWire.State.new 2) liveRun

/-- What happens in it in the network. -/
def liveNet (t : Nat) : Option (Net.Action Unit) := (liveRun[t]?).bind (netOf gossipers (livePlay t))

/-- No handler returns an error. -/
def noError : Option (Net.Action Unit) → Bool
  | some (.node _ (.handlerReturn _ (some _))) => false
  | _ => true

theorem livePlay_fair : Net.FairRun gossipers.node 2 (fun t => (livePlay t).net) liveNet ∧ Unbroken (fun t => (livePlay t).net) liveNet ⟨0, 0⟩ ⟨1, 0⟩ ∧ ∀ m k, Endless (fun t => (livePlay t).net) m k := by
  have hend : (runs (GWire.step gossipers) (GWire.State.new 2) liveRun).map (fun s => s.net.nodes.all quietNode && quietWires s.net) = some true := by decide +kernel
  have hwire : (runs (GWire.step gossipers) (GWire.State.new 2) liveRun).map (fun s => s.net.wires.any fun w => decide (w.out = ⟨0, 0⟩) && decide (w.inn = ⟨1, 0⟩)) = some true := by decide +kernel
  have hok : ((List.range (liveRun.length + 1)).all fun t => (livePlay t).net.nodes.all okNode) = true := by decide +kernel
  have herr : ((List.range (liveRun.length + 1)).all fun t => noError (liveNet t)) = true := by decide +kernel
  obtain ⟨s, h1, h2⟩ := Option.map_eq_some_iff.1 hend
  obtain ⟨hx, hfin⟩ : Execution (GWire.step gossipers) livePlay (fun t => liveRun[t]?) ∧ ∀ t, liveRun.length ≤ t → livePlay t = s := Fair.play_exec h1
  rw [h1] at hwire
  have exec : Execution (Net.step gossipers.node) (fun t => (livePlay t).net) liveNet := by
    intro t
    rcases hx t with ⟨e1, e2⟩ | ⟨a, e1, e2⟩
    · exact .inl ⟨by have e1 : liveRun[t]? = none := e1; simp only [liveNet, e1, Option.bind_none], by simp only [e2]⟩
    · rcases netOf_step e2 with ⟨e3, e4⟩ | ⟨b, e3, e4⟩
      · exact .inl ⟨by have e1 : liveRun[t]? = some a := e1; simp only [liveNet, e1, Option.bind_some]; exact e3, e4⟩
      · exact .inr ⟨b, by have e1 : liveRun[t]? = some a := e1; simp only [liveNet, e1, Option.bind_some]; exact e3, e4⟩
  refine ⟨net_fair_of_rest exec rfl (T := liveRun.length) (fun t ht => by rw [hfin t ht]) (quietNet_of h2), unbroken_of_ok ⟨liveRun.length, ?_⟩ ?_ ?_⟩
  · have := Option.some.inj hwire
    simp only [List.any_eq_true, Bool.and_eq_true, decide_eq_true_eq] at this
    obtain ⟨w, hw, e⟩ := this
    exact ⟨w, by rw [hfin _ (Nat.le_refl _)]; exact hw, e.1, e.2⟩
  · intro t X hX
    by_cases ht : t ≤ liveRun.length
    · exact List.all_eq_true.1 (List.all_eq_true.1 hok t (List.mem_range.2 (by omega))) X hX
    · have := List.all_eq_true.1 hok liveRun.length (List.mem_range.2 (by omega))
      rw [hfin _ (Nat.le_refl _)] at this
      rw [hfin t (by omega)] at hX
      exact List.all_eq_true.1 this X hX
  · intro t m w e ha
    by_cases ht : t ≤ liveRun.length
    · have := List.all_eq_true.1 herr t (List.mem_range.2 (by omega))
      rw [ha] at this; cases this
    · rw [liveNet, List.getElem?_eq_none (by omega)] at ha; cases ha

/-- The hypotheses of C144 are met: node 1 is told. -/
example : ∃ t', Told gossipers (livePlay t') 1 [7] ∨ (Presumed gossipers (livePlay t') 0 (gid 1).id [7] ∧ ∃ p', (livePlay t').parts[0]? = some p' ∧ ¬ ∃ a ∈ p'.asks, a.push = 0 ∧ a.gor = 0) := by
  obtain ⟨r, u, hend⟩ := livePlay_fair
  obtain ⟨hrun, -, hin⟩ := gplay_runs (as := liveRun) (by decide +kernel) (by decide +kernel)
  have h : ((livePlay 30).parts[0]?).map (fun p => (p.g.pushes[0]?).map fun q => (q.data, q.pc)) = some (some ([7], .entries)) := by decide +kernel
  obtain ⟨p, hp, h⟩ := Option.map_eq_some_iff.1 h
  obtain ⟨q, hq, h⟩ := Option.map_eq_some_iff.1 h
  simp only [Prod.mk.injEq] at h
  obtain ⟨hd, hpc⟩ := h
  have h : ((livePlay 30).net.conn ⟨0, 0⟩).map (fun x => x.addr) = some (gid 1).address := by decide +kernel
  obtain ⟨x, hx, ha⟩ := Option.map_eq_some_iff.1 h
  have := C144_push_is_reported gossipers 2 livePlay _ liveNet ⟨0, 0⟩ ⟨1, 0⟩ hrun r u (by decide) (by decide) (by decide) [(gid 1).address] (by decide)
    (fun t k d ⟨X, hX, hk⟩ => hin t k d (by rw [nodeAt]; have hX' : (livePlay t).net.nodes[0]? = some X := hX; rw [hX']; exact hk)) (by decide)
    30 0 p q hp hq hpc [gid 1] rfl (fun t p a _ _ _ => hend 0 a.call) 0 (gid 1) rfl x hx ha
  rw [hd] at this
  exact this

end Noise
