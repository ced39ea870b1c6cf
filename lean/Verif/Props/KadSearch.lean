import Verif.Proofs.KadSearch
import Verif.Props.Discovery
/-! # Property C148: searches in a network of nodes with kademlia -/
namespace Noise
open Spec
variable {ε : Type}

namespace KWire

open Net in
/-- A request that a search makes at a reliable address is answered, out of a table that the node there has during the call. -/
theorem born_answered [Nonempty ε] {S : Sorter} {c : Cfg ε} {N : Nat} {σ : Nat → State ε} {α : Nat → Option (Action ε)} (r : FairRun S c N σ α) {n f : Nat} (hcr : ∀ t x, (σ t).net.nodes[n]? = some x → x.crashed = false)
    (hat : 0 < (c.node n).attempts) (hNo : 0 < (c.node n).numWorkers) {L : List Text} (hL : L.length ≤ (c.node n).max) (hin : ∀ t k d, CallAt (fun t => (σ t).net) n k t d → d.addr ∈ L)
    {t0 t k : Nat} (hb : Born σ c n f t0 t k) {d : Node.Call ε} (hd : CallAt (fun t => (σ t).net) n k t d) {key : PublicKey} (hkind : d.kind = .request (Search.encode c.ops.request key)) (hrel : Reliable c σ α n d.addr)
    (hend : Endless (fun t => (σ t).net) n k) :
    ∃ t' d' msg i u p, CallAt (fun t => (σ t).net) n k t' d' ∧ d'.pc = .returned (.response msg) ∧ (c.id i).address = d.addr ∧ t0 < u ∧ u ≤ t' ∧ (σ u).parts[i]? = some p ∧ ReplyTo S c.ops p.kad.table (.find key) msg.data ∧
      ∀ t1 d1 res, CallAt (fun t => (σ t).net) n k t1 d1 → d1.pc = .returned res → t' ≤ t1 := by
  obtain ⟨-, tk, d0, h1, h2, h3, h4, h5⟩ := hb
  obtain ⟨d1, g1, g2, g3, -⟩ := r.toNet.call_next h2 h3
  rw [callAt_eq g1 hd] at g2 g3
  obtain ⟨t', msg, c', i, k1, k2, k3, ⟨k4, k5⟩, k6, k7⟩ := r.toNet.asks hcr hL hin hNo h3 h4 (by omega) (data := Query.bytes c.ops (.find key)) (g2.symm.trans hkind) hend
    (fun i => (c.id i.node).address = d.addr ∧ OnlyKademlia c σ i.node (Query.bytes c.ops (.find key))) (by
      intro t j x hj hs hadr
      obtain ⟨i, e1, e2, e3, e4, e5, e6⟩ := hrel t j x hj hs (hadr.trans g3.symm)
      exact ⟨i, c.handler, ⟨e1, e5 key⟩, e2, e3, e4, answers_query r.init r.exec r.toNet i (.find key), e6⟩)
  obtain ⟨u, p, e1, e2, e3, e4⟩ := answered_reply r.init r.exec r.toNet k5 k6
  exact ⟨t', c', msg, i.node, u, p, k2, k3, k4, by omega, e2, e3, e4, k7⟩

end KWire

open Net in
/-- **C148 (searches return, with the answers of reliable peers).** In every fair execution of a network of nodes with kademlia, in which the goroutines of a search on a node go on when they can: suppose the node makes its calls to no more addresses than
its pool may hold, and does not crash; the contexts of the requests of this search to reliable addresses do not end; and its requests to other addresses return in the end, with whatever result. Then `Find` returns. By then, everybody with a reliable address
who was asked has answered, with the peers closest to what was asked for in the routing table that the node at this address has at some time during the search. Everything else in the network is arbitrary. -/
theorem C148_search_returns [Nonempty ε] (S : Sorter) (c : KWire.Cfg ε) (N : Nat) (σ : Nat → KWire.State ε) (α : Nat → Option (KWire.Action ε)) (r : KWire.FairRun S c N σ α) (n t0 : Nat) (target : PublicKey) (lookups requests : Nat) (max : Int)
    (ha : α t0 = some (.find n target lookups requests max)) (p0 : KWire.Part) (hp0 : (σ t0).parts[n]? = some p0) (hw : Searching S c σ α n p0.finds.length)
    (hcr : ∀ t x, (σ t).net.nodes[n]? = some x → x.crashed = false) (hat : 0 < (c.node n).attempts) (hNo : 0 < (c.node n).numWorkers) (L : List Text) (hL : L.length ≤ (c.node n).max)
    (hin : ∀ t k d, CallAt (fun t => (σ t).net) n k t d → d.addr ∈ L) (A : Text → Prop) (hA : ∀ addr, A addr → Reliable c σ α n addr)
    (hend : ∀ k t d, AskedBy σ n p0.finds.length k → CallAt (fun t => (σ t).net) n k t d → A d.addr → Endless (fun t => (σ t).net) n k)
    (hother : ∀ k t d, AskedBy σ n p0.finds.length k → CallAt (fun t => (σ t).net) n k t d → ¬ A d.addr → ∃ t' d' res, CallAt (fun t => (σ t).net) n k t' d' ∧ d'.pc = .returned res) :
    ∃ t q res, t0 < t ∧ FindAt σ n p0.finds.length t q ∧ q.it.returned = some res ∧ ∀ rep ∈ q.it.shared.replies, A rep.peer.address → ∃ i u p l, (c.id i).address = rep.peer.address ∧ t0 < u ∧ u ≤ t ∧ (σ u).parts[i]? = some p ∧
      p.kad.table.findClosest S rep.peer.id 16 = .ok l ∧ ((∀ e ∈ p.kad.table.all, WellFormed e) → rep.answer = some l) := by
  obtain ⟨q0, h1, -, -, -, h2, h3⟩ := KWire.find_begins r.exec r.init ha hp0
  have hcalls : ∀ t' q a, t0 + 1 ≤ t' → FindAt σ n p0.finds.length t' q → a ∈ q.asks → ∃ t1 d res, CallAt (fun t => (σ t).net) n a.call t1 d ∧ d.pc = .returned res := by
    intro t' q a hle hq hm
    have hb := (KWire.find_births r h1 h2 h3 hle hq).1 a hm
    obtain ⟨p, hp, hf⟩ := id hq
    obtain ⟨x, hx⟩ := KWire.node_of r.exec r.init hp t'
    obtain ⟨e, -, d, e1, e2, e3⟩ := (KWire.searches_at r.exec r.init t' n x p q hx hp (List.mem_of_getElem? hf)).asks a hm
    have hd : CallAt (fun t => (σ t).net) n a.call t' d := ⟨x, hx, e1⟩
    have hby : AskedBy σ n p0.finds.length a.call := ⟨t', q, a, hq, hm, rfl⟩
    by_cases hA' : A d.addr
    · obtain ⟨t1, d', msg, i, u, p, g1, g2, -⟩ := KWire.born_answered r hcr hat hNo hL hin hb hd e2 (hA _ hA') (hend _ _ _ hby hd hA')
      exact ⟨t1, d', _, g1, g2⟩
    · exact hother _ _ _ hby hd hA'
  obtain ⟨t, q, g1, g2, g3⟩ := KWire.find_returns r hw hcr h1 hcalls
  obtain ⟨res, hres⟩ := Option.ne_none_iff_exists'.1 g3
  refine ⟨t, q, res, by omega, g2, hres, fun rep hrep hA' => ?_⟩
  obtain ⟨k, d, rs, e1, e2, e3, e4, e5, e6⟩ := (KWire.find_births r h1 h2 h3 g1 g2).2 rep hrep
  obtain ⟨t1, d', msg, i, u, p, f1, f2, f3, f4, f5, f6, ⟨l, f7, f8, f9⟩, f10⟩ := KWire.born_answered r hcr hat hNo hL hin e1 e2 e3 (hA _ (e4 ▸ hA')) (hend _ _ _ e1.1 e2 (e4 ▸ hA'))
  have hle := f10 t d rs e2 e5
  refine ⟨i, u, p, l, f3.trans e4, by omega, by omega, f6, f7, fun hwf => ?_⟩
  obtain ⟨d2, k1, -, -, k2⟩ := r.toNet.call_next hle f1
  rw [callAt_eq k1 e2] at k2
  have := k2 _ f2
  rw [e5] at this
  cases this
  rw [e6]
  simp only [Search.outcome, Search.decode, f8, f9 hwf, if_true]

open Net in
/-- **C148 (searches return, whoever does not answer).** The same, if it is known of the requests to the other addresses only that their contexts end - which they do, after a timeout - and that the connections that the node closes come to an end. -/
theorem C148_search_ends [Nonempty ε] (S : Sorter) (c : KWire.Cfg ε) (N : Nat) (σ : Nat → KWire.State ε) (α : Nat → Option (KWire.Action ε)) (r : KWire.FairRun S c N σ α) (n t0 : Nat) (target : PublicKey) (lookups requests : Nat) (max : Int)
    (ha : α t0 = some (.find n target lookups requests max)) (p0 : KWire.Part) (hp0 : (σ t0).parts[n]? = some p0) (hw : Searching S c σ α n p0.finds.length)
    (hcr : ∀ t x, (σ t).net.nodes[n]? = some x → x.crashed = false) (hat : 0 < (c.node n).attempts) (hNo : 0 < (c.node n).numWorkers) (L : List Text) (hL : L.length ≤ (c.node n).max)
    (hin : ∀ t k d, CallAt (fun t => (σ t).net) n k t d → d.addr ∈ L) (A : Text → Prop) (hA : ∀ addr, A addr → Reliable c σ α n addr)
    (hend : ∀ k t d, AskedBy σ n p0.finds.length k → CallAt (fun t => (σ t).net) n k t d → A d.addr → Endless (fun t => (σ t).net) n k)
    (hexp : ∀ k t d, AskedBy σ n p0.finds.length k → CallAt (fun t => (σ t).net) n k t d → ¬ A d.addr → ∃ t' d', CallAt (fun t => (σ t).net) n k t' d' ∧ d'.ended = true)
    (hcl : ∀ t j x, (σ t).net.conn ⟨n, j⟩ = some x → x.c.once ≠ .fresh → ∃ t' x', t ≤ t' ∧ (σ t').net.conn ⟨n, j⟩ = some x' ∧ x'.c.once = .done ∧ x'.c.clientDone = true) :
    ∃ t q res, t0 < t ∧ FindAt σ n p0.finds.length t q ∧ q.it.returned = some res ∧ ∀ rep ∈ q.it.shared.replies, A rep.peer.address → ∃ i u p l, (c.id i).address = rep.peer.address ∧ t0 < u ∧ u ≤ t ∧ (σ u).parts[i]? = some p ∧
      p.kad.table.findClosest S rep.peer.id 16 = .ok l ∧ ((∀ e ∈ p.kad.table.all, WellFormed e) → rep.answer = some l) := by
  refine C148_search_returns S c N σ α r n t0 target lookups requests max ha p0 hp0 hw hcr hat hNo L hL hin A hA hend fun k t d hk hd hnA => ?_
  obtain ⟨t', d', h1, h2⟩ := hexp k t d hk hd hnA
  obtain ⟨t'', d'', res, -, h3, h4⟩ := r.toNet.expired_returns hcr hL hin hcl h1 h2
  exact ⟨t'', d'', res, h3, h4⟩

open Net in
/-- **C148 (searches find everybody that they are led to).** In such an execution, suppose that the tables of the nodes contain nothing but the identities of the nodes, which have different keys and addresses; that all connections that the node dials are
unbroken and lead to nodes that answer; and that during the search each node has at most 16 others in its table, those in `know` among them. Then `Find` returns, and everybody that is reached from the peers of the node by following what the nodes know is
returned - if there is room, and otherwise those that are nearest to the target. -/
theorem C148_finds_everybody [Nonempty ε] (S : Sorter) (c : KWire.Cfg ε) (N : Nat) (σ : Nat → KWire.State ε) (α : Nat → Option (KWire.Action ε)) (r : KWire.FairRun S c N σ α) (n t0 : Nat) (target : PublicKey) (lookups requests : Nat) (max : Int)
    (ha : α t0 = some (.find n target lookups requests max)) (p0 : KWire.Part) (hp0 : (σ t0).parts[n]? = some p0) (hw : Searching S c σ α n p0.finds.length) (hR : 0 < requests) (hmax : 0 ≤ max)
    (hcr : ∀ t x, (σ t).net.nodes[n]? = some x → x.crashed = false) (hat : 0 < (c.node n).attempts) (hNo : 0 < (c.node n).numWorkers) (L : List Text) (hL : L.length ≤ (c.node n).max)
    (hin : ∀ t k d, CallAt (fun t => (σ t).net) n k t d → d.addr ∈ L) (hA : ∀ addr, Reliable c σ α n addr)
    (hend : ∀ k, AskedBy σ n p0.finds.length k → Endless (fun t => (σ t).net) n k)
    (hgen : ∀ (t m : Nat) (p : KWire.Part) (e : ID), (σ t).parts[m]? = some p → e ∈ p.kad.table.all → ∃ i, i < N ∧ e = c.id i) (hwf : ∀ i, i < N → WellFormed (c.id i))
    (hdiff : ∀ i j, i < N → j < N → (c.id i).id = (c.id j).id ∨ (c.id i).address = (c.id j).address → i = j) (know : ID → List ID)
    (hknow : ∀ (t m : Nat) (p : KWire.Part), t0 < t → (σ t).parts[m]? = some p → (p.kad.table.all.filter fun e => e.id ≠ (c.id m).id).length ≤ 16 ∧ ∀ e ∈ know (c.id m), e ∈ p.kad.table.all ∧ e.id ≠ (c.id m).id) :
    ∃ t q l peers, t0 < t ∧ FindAt σ n p0.finds.length t q ∧ q.it.returned = some (.ok l) ∧ p0.kad.table.peers S = .ok peers ∧
      ∀ e, Discovered (c.id n).id target peers (fun p l => l = know p) e → e ∈ l ∨ ((l.length : Int) = max ∧ ∀ x ∈ l, dist x.id.1 target.1 ≤ dist e.id.1 target.1) := by
  obtain ⟨q0, h1, h2, h3, h4, h5, h6⟩ := KWire.find_begins r.exec r.init ha hp0
  obtain ⟨t, q, res, g1, g2, g3, g4⟩ := C148_search_returns S c N σ α r n t0 target lookups requests max ha p0 hp0 hw hcr hat hNo L hL hin (fun _ => True) (fun a _ => hA a) (fun k _ _ h _ _ => hend k h) (fun _ _ _ _ _ h => (h trivial).elim)
  obtain ⟨q', g5, g6, g7, as, g8⟩ := KWire.find_later r.exec r.init (show t0 + 1 ≤ t by omega) h1
  rw [KWire.find_eq g5 g2] at g6 g7 g8
  clear g5 q'
  have hpn : ∀ {m u : Nat} {p : KWire.Part}, (σ u).parts[m]? = some p → m < N := by
    intro m u p hp
    rw [← (KWire.net_reach (KWire.exec_reach r.exec r.init u)).2]
    exact (List.getElem?_eq_some_iff.1 hp).1
  have hsub : ∀ {m u : Nat} {p : KWire.Part} {key : PublicKey} {k : Nat} {l : List ID}, (σ u).parts[m]? = some p → p.kad.table.findClosest S key k = .ok l → ∀ e ∈ l, ∃ i, i < N ∧ e = c.id i := by
    intro m u p key k l hp hl e he
    obtain ⟨l', k1, -, k2, -⟩ := C51_find_closest S _ _ (KWire.table_reach (KWire.exec_reach r.exec r.init u) hp) key k
    rw [hl] at k1; cases k1
    exact hgen u m p e hp (k2 e he).1
  -- who was asked is a node, and has answered out of its table
  have hans : ∀ rep ∈ q.it.shared.replies, ∃ i u p l, (c.id i).address = rep.peer.address ∧ t0 < u ∧ (σ u).parts[i]? = some p ∧ p.kad.table.findClosest S rep.peer.id 16 = .ok l ∧ rep.answer = some l := by
    intro rep hrep
    obtain ⟨i, u, p, l, k1, k2, -, k4, k5, k6⟩ := g4 rep hrep trivial
    refine ⟨i, u, p, l, k1, k2, k4, k5, k6 fun e he => ?_⟩
    obtain ⟨j, hj, rfl⟩ := hgen u i p e k4 he
    exact hwf j hj
  have hnamed : ∀ e, (e ∈ q0.peers ∨ ∃ rep ∈ q.it.shared.replies, ∃ l, rep.answer = some l ∧ e ∈ l) → ∃ i, i < N ∧ e = c.id i := by
    rintro e (he | ⟨rep, hrep, l, hl, he⟩)
    · exact hsub hp0 h3 e he
    · obtain ⟨i, u, p, l', k1, k2, k4, k5, k6⟩ := hans rep hrep
      rw [hl] at k6; cases k6
      exact hsub k4 k5 e he
  have hi := h4.run g8
  obtain ⟨hcl, -, -⟩ := hi.ret res g3
  obtain ⟨f1, -, -, -⟩ := hi.finished hcl
  have hpeer : ∀ rep ∈ q.it.shared.replies, ∃ i u p l, rep.peer = c.id i ∧ t0 < u ∧ (σ u).parts[i]? = some p ∧ p.kad.table.findClosest S rep.peer.id 16 = .ok l ∧ rep.answer = some l := by
    intro rep hrep
    have hpos : 0 < q.it.shared.replies.countP (fun x => decide (x.peer = rep.peer)) := List.countP_pos_iff.2 ⟨rep, hrep, by simp⟩
    have := f1 (fun x => decide (x = rep.peer))
    rw [this] at hpos
    obtain ⟨⟨e, k⟩, k1, k2⟩ := List.countP_pos_iff.1 hpos
    simp only [decide_eq_true_eq] at k2
    subst k2
    obtain ⟨i, hiN, he⟩ : ∃ i, i < N ∧ rep.peer = c.id i := by
      refine hnamed _ ?_
      cases hi.disc rep.peer (Or.inl ⟨k, k1⟩) with
      | peer hp => exact Or.inl hp
      | answer _ ha he _ _ =>
        obtain ⟨rep', k3, _, k4⟩ := ha
        exact Or.inr ⟨rep', k3, _, k4, he⟩
    obtain ⟨j, u, p, l, e1, e2, e3, e4, e5⟩ := hans rep hrep
    have hij : j = i := hdiff j i (hpn e3) hiN (.inr (by rw [e1, he]))
    subst hij
    exact ⟨j, u, p, l, he, e2, e3, e4, e5⟩
  have key := C121_small_tables_partial S q0.cfg lookups q0.peers q0.it q.it as h4 (by rw [h2]; exact hR) g8 res g3 know (by
    intro rep hrep _
    obtain ⟨i, u, p, l, e1, e2, e3, e4, e5⟩ := hpeer rep hrep
    rw [e1] at e4 ⊢
    obtain ⟨k1, k2⟩ := hknow u i p e2 e3
    exact ⟨l, p.kad.table, e5, ⟨KWire.table_reach (KWire.exec_reach r.exec r.init u) e3, e4⟩, k1, k2⟩) (by
    intro e e' he he' hid
    obtain ⟨i, k1, rfl⟩ := hnamed e he
    obtain ⟨j, k2, rfl⟩ := hnamed e' he'
    rw [hdiff i j k1 k2 (.inl hid)])
  obtain ⟨-, hres⟩ := C58_results S q0.cfg lookups q0.peers q0.it q.it as h4 g8 res g3
  obtain ⟨l, rfl, -, -, -, -, k5⟩ := hres (by rw [h2]; exact hmax)
  refine ⟨t, q, l, q0.peers, g1, g2, g3, h3, fun e he => ?_⟩
  obtain ⟨rep, k1, rfl⟩ := key e (by rw [h2]; exact he)
  obtain ⟨i, u, p, l', -, -, -, -, e5⟩ := hpeer rep k1
  have := k5 rep k1 (by rw [e5]; rfl)
  rw [h2] at this
  exact this

end Noise
