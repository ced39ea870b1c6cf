import Verif.Proofs.KadWire
/-! # Property C146: whom kademlia gets to know in a network of whole nodes -/
namespace Noise
open Spec
variable {ε : Type}

namespace KWire

theorem known_mono {c : Cfg ε} {σ : Nat → State ε} {t t' n : Nat} {e : ID} (hle : t ≤ t') (h : KnownTo c σ t n e) : KnownTo c σ t' n e := by
  rcases h with h | ⟨u, hu, h⟩
  · exact .inl h
  · exact .inr ⟨u, by omega, h⟩

/-- A response that a search got comes from the handler of kademlia of another node. -/
theorem response_from {S : Sorter} {c : Cfg ε} {N : Nat} {s : State ε} (hr : Reachable S c N s) (ha : AmongThemselves c s) {n k : Nat} {x : Node.State ε} {d : Node.Call ε} {m : Message} {l : List ID} (hx : s.net.nodes[n]? = some x)
    (hk : x.calls[k]? = some d) (hm : d.pc = .returned (.response m)) (hl : Search.decode c.ops.response m.data = some l) :
    ∃ (data : Bytes) (j b j' : Nat) (y : Node.Conn ε) (B : Node.State ε) (q : Wk.State ε) (i : Nat), d.kind = .request data ∧ x.conns[j]? = some y ∧ y.addr = d.addr ∧ Joined s.net n j b j' ∧ s.net.nodes[b]? = some B ∧ B.wk = some q ∧
      q.items[i]? = some ⟨j', ⟨m.nonce, data⟩⟩ ∧ .sendOk i c.handler m.nonce m.data ∈ q.log := by
  obtain ⟨data, j, b, j', y, B, q, i, f, h1, h2, h3, h4, h5, h6, h7, -, h9⟩ := C132_response (net_reach hr).1 hx (by rw [ha.inside]; simp) (fun y hy => ha.few n x y hx hy) hk hm
  have hf : f = c.handler := by
    by_contra hf
    refine ha.others b B q i f _ _ h5 h6 h9 hf ?_
    unfold Search.decode at hl
    split at hl
    · assumption
    · cases hl
  subst hf
  exact ⟨data, j, b, j', y, B, q, i, h1, h2, h3, h4, h5, h6, h7, h9⟩

theorem all_ok {S : Sorter} {c : Cfg ε} {N : Nat} {σ : Nat → State ε} {α : Nat → Option (Action ε)} (hx : Execution (step S c) σ α) (h0 : Start c N (σ 0)) (ha : ∀ t, AmongThemselves c (σ t))
    (hw : ∀ t e, KnownInNet c N σ t e → WellFormed e) (t : Nat) : Reachable S c N (σ t) ∧ Ok S c (KnownTo c σ t) (KnownInNet c N σ t) (σ t) ∧ Searches S c (σ t) := by
  induction t with
  | zero =>
    refine ⟨⟨σ 0, h0, .refl _⟩, ?_⟩
    obtain ⟨ts, h1, h2, h3⟩ := h0
    have hp : ∀ n p, (σ 0).parts[n]? = some p → ∃ tb, newTable (c.id n) = some tb ∧ p = Part.new tb := by
      intro n p hp
      rw [h3, List.getElem?_map] at hp
      obtain ⟨tb, h4, h5⟩ := Option.map_eq_some_iff.1 hp
      exact ⟨tb, h2 n tb h4, h5.symm⟩
    have hn : ∀ (n : Nat) (x : Node.State ε), (σ 0).net.nodes[n]? = some x → x = Node.State.new := by
      intro n x hx
      rw [h3] at hx
      exact List.eq_of_mem_replicate (List.mem_of_getElem? hx)
    refine ⟨⟨fun n p hp1 => ?_, fun n x q k v d hx hq => ?_⟩, fun n x p f hx hp1 hf => ?_⟩
    · obtain ⟨tb, h4, rfl⟩ := hp n p hp1
      refine ⟨⟨tb, [], h4, rfl⟩, ⟨fun e he => ?_, (fun th h => by cases h), (fun th h => by cases h), (fun th h => by cases h), fun e => ⟨(fun h => by cases h), (fun h => by cases h), (fun h => by cases h)⟩⟩, (fun r h => by cases h), (fun f h => by cases h)⟩
      have h5 : ((Table.mk (fun _ => []) (c.id n) 0).update (c.id n)).1 = tb := by
        unfold newTable at h4
        split at h4
        · rename_i hu; cases h4; rw [hu]
        · cases h4
      change e ∈ tb.all at he
      rw [← h5] at he
      rcases KadNode.mem_update he with he | ⟨he, -⟩
      · exfalso
        unfold Table.all at he
        obtain ⟨i, -, hi⟩ := List.mem_flatMap.1 he
        cases hi
      · exact .inl he
    · rw [hn n x hx] at hq; cases hq
    · obtain ⟨tb, -, rfl⟩ := hp n p hp1
      cases hf
  | succ t ih =>
    obtain ⟨h1, h2, h3⟩ := ih
    have mono := h2.mono (P' := KnownTo c σ (t + 1)) (V' := KnownInNet c N σ (t + 1)) (fun n e h => known_mono (Nat.le_succ t) h) (fun e ⟨m, hm, h⟩ => ⟨m, hm, known_mono (Nat.le_succ t) h⟩)
    rcases hx t with ⟨-, he⟩ | ⟨a, -, hs⟩
    · rw [he]
      exact ⟨h1, mono, h3⟩
    obtain ⟨s0, h4, h5⟩ := h1
    refine ⟨⟨s0, h4, h5.snoc hs⟩, mono.step hs ?_ ?_ ?_ ?_, h3.step (N := N) ⟨s0, h4, h5⟩ (fun n p hp => (h2.parts n p hp).tab) hs⟩
    · intro n p e hp h
      refine ⟨n, ?_, h⟩
      have := (List.getElem?_eq_some_iff.1 hp).1
      rw [(net_reach ⟨s0, h4, h5⟩).2] at this
      exact this
    · intro n x y e h6 h7 h8
      exact .inr ⟨t + 1, le_refl _, .inr ⟨x, y, h6, h7, h8⟩⟩
    · intro n p e h6 h7
      exact .inr ⟨t + 1, le_refl _, .inl ⟨p, h6, h7⟩⟩
    · intro n x k d m l h6 h7 h8 h9 e he
      obtain ⟨data, j, b, j', y, B, q, i, -, -, -, -, h10, h11, -, h12⟩ := response_from ⟨s0, h4, h5⟩ (ha t) h6 h7 h8 h9
      exact ((h2.sent b B q i _ _ h10 h11 h12).mono fun e ⟨m, hm, h⟩ => ⟨m, hm, known_mono (Nat.le_succ t) h⟩).decode (hw (t + 1)) h9 e he

end KWire

/-- **C146.** In every execution of a network of nodes with kademlia that is closed - no connection leads elsewhere, and nobody but kademlia sends `FindNodeResponse`s: every identity in the routing table of a node is one that this node got to know at first hand
(its own, one that its application has put there, or one that the handshake on one of its connections has verified), and every identity that `Find` or `Discover` returns is one that some node of the network got to know at first hand. So identities do not
arise, change or mix on their way through routing tables, messages and searches. -/
theorem C146_known_at_first_hand (S : Sorter) (c : KWire.Cfg ε) (N : Nat) (σ : Nat → KWire.State ε) (α : Nat → Option (KWire.Action ε)) (hx : Execution (KWire.step S c) σ α) (h0 : KWire.Start c N (σ 0))
    (ha : ∀ t, AmongThemselves c (σ t)) (hw : ∀ t e, KnownInNet c N σ t e → WellFormed e) (t n : Nat) (p : KWire.Part) (hp : (σ t).parts[n]? = some p) :
    (∀ e ∈ p.kad.table.all, KnownTo c σ t n e) ∧ ∀ f ∈ p.finds, ∀ l, f.it.returned = some (.ok l) → ∀ e ∈ l, KnownInNet c N σ t e := by
  obtain ⟨h1, h2, h3⟩ := KWire.all_ok hx h0 ha hw t
  have g := h2.parts n p hp
  refine ⟨g.src.table, fun f hf l hl e he => ?_⟩
  have gf := g.finds f hf
  obtain ⟨r, hr, rfl, -⟩ := KWire.result_reply gf.inv hl he
  obtain ⟨k, hk⟩ := gf.inv.asked_of_reply hr
  have hd := gf.inv.disc r.peer (.inl ⟨k, hk⟩)
  clear hk hr he
  generalize r.peer = e at hd
  induction hd with
  | peer h => exact gf.peers _ h
  | answer _ h hin =>
    obtain ⟨r, hr, -, h4⟩ := h
    exact gf.replies r hr _ h4 _ hin

/-- **C146 (results).** Moreover, whoever is at the address of an identity that `Find` returned at node `n` has answered: `n` has dialled that address, the connection leads to a node `b`, and `Handle` of `b` was called for the request for the key of this
identity and has sent the answer. -/
theorem C146_results_answer (S : Sorter) (c : KWire.Cfg ε) (N : Nat) (σ : Nat → KWire.State ε) (α : Nat → Option (KWire.Action ε)) (hx : Execution (KWire.step S c) σ α) (h0 : KWire.Start c N (σ 0))
    (ha : ∀ t, AmongThemselves c (σ t)) (hw : ∀ t e, KnownInNet c N σ t e → WellFormed e) (t n : Nat) (x : Node.State ε) (p : KWire.Part) (hn : (σ t).net.nodes[n]? = some x) (hp : (σ t).parts[n]? = some p) (f : KWire.Find) (hf : f ∈ p.finds)
    (l : List ID) (hl : f.it.returned = some (.ok l)) (e : ID) (he : e ∈ l) :
    ∃ (j b j' : Nat) (y : Node.Conn ε) (B : Node.State ε) (q : Wk.State ε) (i : Nat) (v : UInt64) (d : Bytes), x.conns[j]? = some y ∧ y.addr = e.address ∧ Joined (σ t).net n j b j' ∧ (σ t).net.nodes[b]? = some B ∧ B.wk = some q ∧
      q.items[i]? = some ⟨j', ⟨v, put16 c.ops.request ++ e.id.1⟩⟩ ∧ .sendOk i c.handler v (put16 c.ops.response ++ d) ∈ q.log := by
  obtain ⟨h1, h2, h3⟩ := KWire.all_ok hx h0 ha hw t
  have hi := h3 n x p f hn hp hf
  obtain ⟨r, hr, rfl, hs⟩ := KWire.result_reply hi.it hl he
  obtain ⟨k, d, res, h4, h5, h6, h7, h8⟩ := hi.replies r hr
  rw [h8] at hs
  obtain ⟨l', hl'⟩ := Option.isSome_iff_exists.1 hs
  unfold Search.outcome at hl'
  split at hl'
  swap
  · cases hl'
  rename_i m
  obtain ⟨data, j, b, j', y, B, q, i, e1, e2, e3, e4, e5, e6, e7, e8⟩ := KWire.response_from h1 (ha t) hn h4 h7 hl'
  rw [h5] at e1
  injection e1 with e1
  subst e1
  have ht : m.data.take 2 = put16 c.ops.response := by
    unfold Search.decode at hl'
    split at hl'
    · assumption
    · cases hl'
  refine ⟨j, b, j', y, B, q, i, m.nonce, m.data.drop 2, e2, e3.trans h6, e4, e5, e6, e7, ?_⟩
  rw [← ht, List.take_append_drop]
  exact e8

/-- **C146 (no phantoms).** Suppose that, besides, the nodes are honest about themselves: the identities known at first hand are those of nodes of the network, and whoever is connected when the address of a node of the network is dialled is this node.
Then every identity that `Find` or `Discover` returns at a node `n` is that of a node `m` of the network, and `m` has answered a request of this search: it got it over a connection from `n`, and `Handle` has sent the answer. -/
theorem C146_no_phantoms (S : Sorter) (c : KWire.Cfg ε) (N : Nat) (σ : Nat → KWire.State ε) (α : Nat → Option (KWire.Action ε)) (hx : Execution (KWire.step S c) σ α) (h0 : KWire.Start c N (σ 0))
    (ha : ∀ t, AmongThemselves c (σ t)) (hw : ∀ t e, KnownInNet c N σ t e → WellFormed e) (hk : ∀ t e, KnownInNet c N σ t e → ∃ m, m < N ∧ e = c.id m)
    (hd : ∀ (t n j b j' m : Nat) (x : Node.State ε) (y : Node.Conn ε), (σ t).net.nodes[n]? = some x → x.conns[j]? = some y → Joined (σ t).net n j b j' → m < N → y.addr = (c.id m).address → b = m)
    (t n : Nat) (x : Node.State ε) (p : KWire.Part) (hn : (σ t).net.nodes[n]? = some x) (hp : (σ t).parts[n]? = some p) (f : KWire.Find) (hf : f ∈ p.finds) (l : List ID) (hl : f.it.returned = some (.ok l)) (e : ID) (he : e ∈ l) :
    ∃ m, m < N ∧ e = c.id m ∧ ∃ (j j' : Nat) (M : Node.State ε) (q : Wk.State ε) (i : Nat) (v : UInt64) (d : Bytes), Joined (σ t).net n j m j' ∧ (σ t).net.nodes[m]? = some M ∧ M.wk = some q ∧
      q.items[i]? = some ⟨j', ⟨v, put16 c.ops.request ++ (c.id m).id.1⟩⟩ ∧ .sendOk i c.handler v (put16 c.ops.response ++ d) ∈ q.log := by
  obtain ⟨m, hm, rfl⟩ := hk t e ((C146_known_at_first_hand S c N σ α hx h0 ha hw t n p hp).2 f hf l hl e he)
  obtain ⟨j, b, j', y, B, q, i, v, d, h1, h2, h3, h4, h5, h6, h7⟩ := C146_results_answer S c N σ α hx h0 ha hw t n x p hn hp f hf l hl _ he
  obtain rfl := hd t n j b j' m x y hn h1 h3 hm h2
  exact ⟨b, hm, rfl, j, j', B, q, i, v, d, h3, h4, h5, h6, h7⟩

end Noise
