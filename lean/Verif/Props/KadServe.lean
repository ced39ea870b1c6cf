import Verif.Proofs.KadServe
import Verif.Proofs.KadFair
import Verif.Props.GossipLive
/-! # Property C147: nodes that are connected answer each other's pings and queries -/
namespace Noise
open Spec
variable {ε : Type}

namespace KWire

theorem table_step {S : Sorter} {c : Cfg ε} {s s' : State ε} {a : Action ε} (hs : KWire.step S c s a = some s') {n : Nat} {p' : Part} (hp' : s'.parts[n]? = some p') :
    ∃ p, s.parts[n]? = some p ∧ (p'.kad.table = p.kad.table ∨ ∃ op, p'.kad.table = p.kad.table.apply op) := by
  have set : ∀ {p' : Part} {m : Nat} {p1 p2 : Part}, s.parts[m]? = some p1 → (s.parts.set m p2)[n]? = some p' → (p2.kad.table = p1.kad.table ∨ ∃ op, p2.kad.table = p1.kad.table.apply op) →
      ∃ p, s.parts[n]? = some p ∧ (p'.kad.table = p.kad.table ∨ ∃ op, p'.kad.table = p.kad.table.apply op) := by
    intro p' m p1 p2 h1 h2 h3
    by_cases hm : m = n
    · subst hm
      rw [List.getElem?_set_self (List.getElem?_eq_some_iff.1 h1).1] at h2
      cases h2
      exact ⟨p1, h1, h3⟩
    · rw [List.getElem?_set_ne hm] at h2
      exact ⟨p', h2, .inl rfl⟩
  have go : ∀ {s1 : State ε} {b : Net.Action ε}, s1.go c b = some s' → ∃ p, s1.parts[n]? = some p ∧ p'.kad.table = p.kad.table := by
    intro s1 b h1
    rw [(go_some h1).2, List.getElem?_mapIdx] at hp'
    obtain ⟨p, hp, rfl⟩ := Option.map_eq_some_iff.1 hp'
    refine ⟨p, hp, ?_⟩
    unfold called
    split <;> rfl
  cases a with
  | net b =>
    simp only [KWire.step] at hs
    split at hs
    · cases hs
    obtain ⟨p, h1, h2⟩ := go hs
    exact ⟨p, h1, .inl h2⟩
  | kad m b =>
    obtain ⟨x, p, p1, hx, hp, hf, rfl⟩ := with_some hs
    obtain ⟨k, hk, rfl⟩ := Option.map_eq_some_iff.1 hf
    exact set hp hp' (kad_table hk)
  | handle m w =>
    obtain ⟨x, p, p1, hx, hp, hf, rfl⟩ := with_some hs
    (repeat' split at hf) <;> first | (cases hf; done) | (obtain ⟨pc, h1, rfl⟩ := Option.map_eq_some_iff.1 hf; exact set hp hp' (.inl rfl))
  | find m target lookups requests max =>
    obtain ⟨x, p, p1, hx, hp, hf, rfl⟩ := with_some hs
    (repeat' split at hf) <;> first | (cases hf; done) | (cases hf; exact set hp hp' (.inl rfl))
  | it m f b =>
    obtain ⟨x, p, p1, hx, hp, hf, rfl⟩ := with_some hs
    (repeat' split at hf) <;> first | (cases hf; done) | (obtain ⟨pc, h1, rfl⟩ := Option.map_eq_some_iff.1 hf; exact set hp hp' (.inl rfl))
  | answer m f i j who =>
    obtain ⟨x, p, p1, hx, hp, hf, rfl⟩ := with_some hs
    (repeat' split at hf) <;> first | (cases hf; done) | (obtain ⟨pc, h1, rfl⟩ := Option.map_eq_some_iff.1 hf; exact set hp hp' (.inl rfl))
  | leave m w r =>
    simp only [KWire.step] at hs
    (repeat' split at hs) <;> first | (cases hs; done) | (obtain ⟨p, h1, h2⟩ := go hs; exact ⟨p, h1, .inl h2⟩)
  | reply m w =>
    simp only [KWire.step] at hs
    split at hs
    swap
    · cases hs
    rename_i x p hx hp
    (repeat' split at hs) <;> first | (cases hs; done) | skip
    obtain ⟨p2, h1, h2⟩ := go hs
    obtain ⟨p3, h3, h4⟩ := set (p' := p2) hp h1 (.inl rfl)
    rw [← h2] at h4
    exact ⟨p3, h3, h4⟩
  | ask m f i j =>
    simp only [KWire.step] at hs
    split at hs
    swap
    · cases hs
    rename_i x p hx hp
    (repeat' split at hs) <;> first | (cases hs; done) | skip
    obtain ⟨p2, h1, h2⟩ := go hs
    obtain ⟨p3, h3, h4⟩ := set (p' := p2) hp h1 (.inl rfl)
    rw [← h2] at h4
    exact ⟨p3, h3, h4⟩

theorem table_reach {S : Sorter} {c : Cfg ε} {N : Nat} {s : State ε} (h : Reachable S c N s) : ∀ {n : Nat} {p : Part}, s.parts[n]? = some p → Table.Reachable (c.id n) p.kad.table := by
  obtain ⟨s0, ⟨ts, h1, h2, rfl⟩, h⟩ := h
  refine h.ind (P := fun s => ∀ {n : Nat} {p : Part}, s.parts[n]? = some p → Table.Reachable (c.id n) p.kad.table) ?_ ?_
  · intro n p hp
    rw [List.getElem?_map] at hp
    obtain ⟨tb, h4, rfl⟩ := Option.map_eq_some_iff.1 hp
    exact ⟨tb, [], h2 n tb h4, rfl⟩
  · intro s a s' _ ih hs n p' hp'
    obtain ⟨p, hp, e | ⟨op, e⟩⟩ := table_step hs hp'
    · rw [e]; exact ih hp
    · rw [e]; exact (ih hp).apply op

/-- The tables that node `n` has had since item `k` was put on its queue. -/
def HadTable (σ : Nat → State ε) (t n k : Nat) (tb : Table) : Prop :=
  ∃ u x p q, u ≤ t ∧ (σ u).net.nodes[n]? = some x ∧ (σ u).parts[n]? = some p ∧ x.wk = some q ∧ k < q.items.length ∧ p.kad.table = tb

theorem all_serve {S : Sorter} {c : Cfg ε} {N : Nat} {σ : Nat → State ε} {α : Nat → Option (Action ε)} (hx : Execution (step S c) σ α) (h0 : Start c N (σ 0)) (t : Nat) :
    Reachable S c N (σ t) ∧ AllServe S c (HadTable σ t) (σ t) := by
  induction t with
  | zero =>
    refine ⟨⟨σ 0, h0, .refl _⟩, fun n x p hn hp => ?_⟩
    obtain ⟨ts, h1, h2, h3⟩ := h0
    have hn : x = Node.State.new := by
      rw [h3] at hn
      exact List.eq_of_mem_replicate (List.mem_of_getElem? hn)
    have hpr : p.runs = [] := by
      rw [h3, List.getElem?_map] at hp
      obtain ⟨tb, -, rfl⟩ := Option.map_eq_some_iff.1 hp
      rfl
    subst hn
    rw [hpr]
    exact ⟨(fun r h => by cases h), (fun q k v d h => by cases h), (fun q k h => by cases h)⟩
  | succ t ih =>
    have mono : AllServe S c (HadTable σ (t + 1)) (σ t) := fun n x p hn hp => (ih.2 n x p hn hp).mono fun k tb => by
      rintro ⟨u, x, p, q, h1, h2⟩
      exact ⟨u, x, p, q, by omega, h2⟩
    rcases hx t with ⟨-, e⟩ | ⟨a, -, e⟩
    · rw [e]; exact ⟨ih.1, mono⟩
    · obtain ⟨s0, g1, g2⟩ := ih.1
      refine ⟨⟨s0, g1, g2.snoc e⟩, mono.step (.reach (net_reach ih.1).1) e fun n x p q k h1 h2 h3 h4 => ⟨t, x, p, q, by omega, h1, h2, h3, h4, rfl⟩⟩

/-- What `Handle` does for pings and queries that are requests. -/
theorem start_query {S : Sorter} {o : Kad.Opcodes} {self : ID} {t : Table} (ht : Table.Reachable self t) (Q : Query) {v : UInt64} (hv : v ≠ 0) : ∃ d, start S o t ⟨v, Q.bytes o⟩ = some (.reply d) ∧ ReplyTo S o t Q d := by
  obtain ⟨h1, h2, -⟩ := C57_replies S o self t ht v
  cases Q with
  | ping =>
    have := h1 []
    rw [List.append_nil, if_neg hv] at this
    exact ⟨_, by simp only [start, Query.bytes, this], rfl⟩
  | find k =>
    obtain ⟨l, body, g1, -, -, g2, g3⟩ := h2 k
    rw [if_neg hv] at g3
    refine ⟨put16 o.response ++ body, by simp only [start, Query.bytes, g3], l, g1, List.take_left' rfl, fun hw => ?_⟩
    rw [show (put16 o.response ++ body).drop 2 = body from List.drop_left' rfl]
    exact g2 hw

/-- Kademlia's handler answers them before it returns. -/
theorem answers_query {S : Sorter} {c : Cfg ε} {N : Nat} {σ : Nat → State ε} {α : Nat → Option (Action ε)} {β : Nat → Option (Net.Action ε)} (h0 : Start c N (σ 0)) (hx : Execution (step S c) σ α)
    (r : Net.FairRun c.node N (fun t => (σ t).net) β) (i : Net.End) (Q : Query) : Net.AnswersTo (fun t => (σ t).net) β i c.handler (Q.bytes c.ops) := by
  intro t w k it X q hb hX hq hw hit _ hreq hdata
  obtain ⟨X', hX', ⟨-, hno⟩ | ⟨act, ha, hs⟩⟩ := r.at hX
  · exact absurd hb (hno _)
  rw [hb] at ha; cases ha
  have hs' : X'.wk = some (q.setWorker w (.next k (c.handler + 1)) [.finished k c.handler none]) := by
    rcases Node.step_wkBy hs with h1 | ⟨h1, -⟩ | ⟨w1, w2, act, h1, h2, h3, h4⟩
    · exfalso
      unfold Node.step at hs
      split at hs
      · cases hs
      simp only [hq, Wk.step, hw] at hs
      cases hs
      rw [hq] at h1
      injection h1 with h1
      have := congrArg (fun z : Wk.State ε => z.log.length) h1
      simp [Wk.State.setWorker] at this
    · exfalso
      rw [(Node.Stage.reach ((r.inv t).nodes _ _ hX)).init.1 h1] at hq; cases hq
    · unfold Node.step at hs
      split at hs
      · cases hs
      simp only [hq, Wk.step, hw] at hs
      cases hs
      rfl
  have hp : ∃ p, (σ (t + 1)).parts[i.node]? = some p := ⟨_, List.getElem?_eq_getElem (by
    rw [(net_reach (all_serve hx h0 (t + 1)).1).2, ← r.len (t + 1)]; exact (List.getElem?_eq_some_iff.1 hX').1)⟩
  obtain ⟨p, hp⟩ := hp
  have g := (all_serve hx h0 (t + 1)).2 i.node X' p hX' hp
  obtain ⟨run, h1, h2, h3⟩ := g.done _ k hs' (List.mem_append.2 (.inr (List.mem_singleton.2 rfl)))
  obtain ⟨q2, it2, tb, pc, e1, e2, e3, e4, e5⟩ := g.each run h1
  rw [hs'] at e1; cases e1
  rw [h2] at e2 e3 e5
  have e2 : q.items[k]? = some it2 := e2
  rw [hit] at e2; cases e2
  obtain ⟨u, x1, p1, q1, -, -, f3, -, -, rfl⟩ := e3
  have hv : it.msg.nonce ≠ 0 := by
    unfold Message.isRequest at hreq
    intro h; rw [h] at hreq; simp at hreq
  obtain ⟨d, k1, -⟩ := start_query (S := S) (table_reach (all_serve hx h0 u).1 f3) Q hv
  have hmsg : it.msg = ⟨it.msg.nonce, Q.bytes c.ops⟩ := by rw [← hdata]
  rw [hmsg, k1] at e4
  cases e4
  rcases e5 with e5 | ⟨-, e5⟩
  · rw [e5] at h3; simp at h3
  · obtain ⟨v, d', e6⟩ := Wk.mem_respondersOf.1 e5
    rcases List.mem_append.1 e6 with e6 | e6
    · exact Wk.mem_respondersOf.2 ⟨v, d', e6⟩
    · rw [List.mem_singleton] at e6; cases e6

end KWire

open Net in
/-- What is answered to a ping or a query is out of a table that the node has between the request and the answer. -/
theorem KWire.answered_reply {S : Sorter} {c : KWire.Cfg ε} {N : Nat} {σ : Nat → KWire.State ε} {α : Nat → Option (KWire.Action ε)} {β : Nat → Option (Net.Action ε)} (h0 : KWire.Start c N (σ 0)) (hx : Execution (KWire.step S c) σ α)
    (r : Net.FairRun c.node N (fun t => (σ t).net) β) {i : End} {Q : Query} (hother : OnlyKademlia c σ i.node (Q.bytes c.ops)) {t t' : Nat} {m : Message} (ha : Answered (fun t => (σ t).net) i t t' (Q.bytes c.ops) m) :
    ∃ u p, t < u ∧ u ≤ t' ∧ (σ u).parts[i.node]? = some p ∧ ReplyTo S c.ops p.kad.table Q m.data := by
  obtain ⟨I, q, v, f, h4, h5, h6, h7, h8⟩ := ha
  have hf := hother t' I q v f _ _ _ h4 h5 h7 h6 rfl
  subst hf
  have hr := KWire.all_serve hx h0
  obtain ⟨p, hp⟩ : ∃ p, (σ t').parts[i.node]? = some p := ⟨_, List.getElem?_eq_getElem (by
    rw [(KWire.net_reach (hr t').1).2, ← r.len t']; exact (List.getElem?_eq_some_iff.1 h4).1)⟩
  obtain ⟨it, tb, g1, ⟨w, x1, p1, q1, k1, k2, k3, k4, k5, rfl⟩, g3⟩ := ((hr t').2 i.node I p h4 hp).sent q v _ _ h5 h7
  rw [h6] at g1; cases g1
  have hnz : m.nonce ≠ 0 := by
    intro hz
    obtain ⟨z1, z2, -⟩ := C57_replies S c.ops _ _ (KWire.table_reach (hr w).1 k3) m.nonce
    cases Q with
    | ping =>
      have := z1 []
      rw [List.append_nil, if_pos hz] at this
      simp [KWire.start, Query.bytes, this] at g3
    | find key =>
      obtain ⟨l, body, -, -, -, -, z3⟩ := z2 key
      rw [if_pos hz] at z3
      simp [KWire.start, Query.bytes, z3] at g3
  obtain ⟨d2, e1, e2⟩ := KWire.start_query (S := S) (KWire.table_reach (hr w).1 k3) Q hnz
  rw [e1] at g3; cases g3
  refine ⟨w, p1, ?_, k1, k3, e2⟩
  by_contra hle
  obtain ⟨J, hJ⟩ := r.has (by rw [← r.len w]; exact (List.getElem?_eq_some_iff.1 k2).1) t
  obtain ⟨q2, f1, f2⟩ := r.queue_grows (t := w) (t' := t) (by omega) k2 hJ k4
  have := h8 J q2 hJ f1
  have := f2.length_le
  omega

open Net in
/-- C147 for executions of which it is only known that they are fair for the nodes, which includes that the handlers return. -/
theorem KWire.queries_answered (S : Sorter) (c : KWire.Cfg ε) (N : Nat) (σ : Nat → KWire.State ε) (α : Nat → Option (KWire.Action ε)) (β : Nat → Option (Net.Action ε)) (h0 : KWire.Start c N (σ 0)) (hx : Execution (KWire.step S c) σ α)
    (r : Net.FairRun c.node N (fun t => (σ t).net) β) (o i : End) (u : Unbroken (fun t => (σ t).net) β o i) (hNo : 0 < (c.node o.node).numWorkers) (hNi : 0 < (c.node i.node).numWorkers) (hh : c.handler < (c.node i.node).numHandlers)
    (hb : ∀ t x, (σ t).net.conn o = some x → x.c.calls.length < 2 ^ 64 - 1) (L : List Text) (hL : L.length ≤ (c.node o.node).max) (hin : ∀ t k d, CallAt (fun t => (σ t).net) o.node k t d → d.addr ∈ L) (Q : Query)
    (hother : OnlyKademlia c σ i.node (Q.bytes c.ops))
    (t k : Nat) (d : Node.Call ε) (hc : CallAt (fun t => (σ t).net) o.node k t d) (hpc : d.pc = .get) (hleft : 0 < d.left) (x : Node.Conn ε) (hconn : (σ t).net.conn o = some x) (ha : x.addr = d.addr)
    (hkind : d.kind = .request (Q.bytes c.ops)) (hend : Endless (fun t => (σ t).net) o.node k) :
    ∃ t' m d', t ≤ t' ∧ CallAt (fun t => (σ t).net) o.node k t' d' ∧ d'.pc = .returned (.response m) ∧
      ∃ u p, t < u ∧ u ≤ t' ∧ (σ u).parts[i.node]? = some p ∧ ReplyTo S c.ops p.kad.table Q m.data := by
  obtain ⟨t', m, d', h1, h2, h3, h4⟩ := C133_answered_request_arrives c.node N _ β r o i u hNo hNi c.handler hh (Q.bytes c.ops) (KWire.answers_query h0 hx r i Q) hb L hL hin t k d hc hpc hleft x hconn ha hkind hend
  exact ⟨t', m, d', h1, h2, h3, KWire.answered_reply h0 hx r hother h4⟩

open Net in
/-- **C147 (pings and queries are answered).** In every fair execution of a network of nodes with kademlia, on a connection on which nothing fails: a call of `Request` with a ping or a query for the address of this connection, whose context does not end, returns a response; and this is a pong, or
the peers closest to the target in the routing table that the accepting node has at some time during the call. (While the applications of the dialling node call no more addresses than its pool may hold, fewer than 2^64 - 1 requests are made over the connection, and nobody but kademlia
answers such requests.) Everything else in the network is arbitrary. -/
theorem C147_queries_answered [Nonempty ε] (S : Sorter) (c : KWire.Cfg ε) (N : Nat) (σ : Nat → KWire.State ε) (α : Nat → Option (KWire.Action ε))
    (r : KWire.FairRun S c N σ α) (o i : End) (u : Unbroken (fun t => (σ t).net) (KWire.netActs c σ α) o i) (hNo : 0 < (c.node o.node).numWorkers) (hNi : 0 < (c.node i.node).numWorkers) (hh : c.handler < (c.node i.node).numHandlers)
    (hb : ∀ t x, (σ t).net.conn o = some x → x.c.calls.length < 2 ^ 64 - 1) (L : List Text) (hL : L.length ≤ (c.node o.node).max) (hin : ∀ t k d, CallAt (fun t => (σ t).net) o.node k t d → d.addr ∈ L) (Q : Query)
    (hother : OnlyKademlia c σ i.node (Q.bytes c.ops))
    (t k : Nat) (d : Node.Call ε) (hc : CallAt (fun t => (σ t).net) o.node k t d) (hpc : d.pc = .get) (hleft : 0 < d.left) (x : Node.Conn ε) (hconn : (σ t).net.conn o = some x) (ha : x.addr = d.addr)
    (hkind : d.kind = .request (Q.bytes c.ops)) (hend : Endless (fun t => (σ t).net) o.node k) :
    ∃ t' m d', t ≤ t' ∧ CallAt (fun t => (σ t).net) o.node k t' d' ∧ d'.pc = .returned (.response m) ∧
      ∃ u p, t < u ∧ u ≤ t' ∧ (σ u).parts[i.node]? = some p ∧ ReplyTo S c.ops p.kad.table Q m.data :=
  KWire.queries_answered S c N σ α _ r.init r.exec r.toNet o i u hNo hNi hh hb L hL hin Q hother t k d hc hpc hleft x hconn ha hkind hend

/-- **C147 (the handler goes on).** While a worker runs kademlia's handler, and unless the process has crashed, the handler can always go on: it can decode the message and read the table, send the reply if it has one, and otherwise return; nothing that other goroutines do can block it. -/
theorem C147_handler_goes_on (S : Sorter) (c : KWire.Cfg ε) (N : Nat) (s : KWire.State ε) (hr : KWire.Reachable S c N s) (hl : ∀ p ∈ s.parts, p.kad.crashed = false) (n w : Nat) (x : Node.State ε) (p : KWire.Part) (hx : s.net.nodes[n]? = some x)
    (hp : s.parts[n]? = some p) (hcr : x.crashed = false) (q : Wk.State ε) (k : Nat) (hq : x.wk = some q) (hw : q.workers[w]? = some (.inside k c.handler)) :
    (∃ s', KWire.step S c s (.handle n w) = some s') ∨ (∃ s', KWire.step S c s (.reply n w) = some s') ∨ (∃ s', KWire.step S c s (.leave n w none) = some s') ∨ ∀ e, ∃ s', KWire.step S c s (.leave n w (some e)) = some s' := by
  obtain ⟨it, hit⟩ := GWire.inside_item ((Net.Inv.reach (KWire.net_reach hr).1).nodes n x hx) hq hw
  obtain ⟨g1, g2, g3⟩ := KWire.handler_goes hr hl hx hp hcr (KWire.invocation_of hq hw hit)
  cases hf : p.runs.find? (fun r => r.item = k) with
  | none => exact .inl (Option.isSome_iff_exists.1 (g1 hf))
  | some run =>
    obtain ⟨j, pc⟩ := run
    cases pc with
    | reply d => exact .inr (.inl (Option.isSome_iff_exists.1 (g2 j d hf)))
    | ignored => exact .inr (.inr (.inl (Option.isSome_iff_exists.1 (g3 _ none hf rfl))))
    | failed => exact .inr (.inr (.inr fun e => Option.isSome_iff_exists.1 (g3 _ (some e) hf rfl)))
    | replied => exact .inr (.inr (.inl (Option.isSome_iff_exists.1 (g3 _ none hf rfl))))

end Noise
