import Verif.Proofs.SearchLive
import Verif.Props.NodeReq
import Verif.Props.Iterator
import Verif.Props.Node
import Mathlib.Data.List.Dedup
/-! # Properties C135 and C136: searches on a whole node -/
namespace Noise
open Search Spec
variable {ε : Type}

/-- `Find` is called on a node, in whatever state the node is: the initial peers are those of its routing table, dealt out to `n` lookups, and no request has been made. -/
def Begins (S : Sorter) (c : Search.Cfg ε) (n : Nat) (peers : List ID) (s : Search.State ε) : Prop := Node.Reachable c.node s.node ∧ Starts S c.it n peers s.it ∧ s.asks = []

theorem Begins.inv {S : Sorter} {c : Search.Cfg ε} {n : Nat} {peers : List ID} {s : Search.State ε} (h : Begins S c n peers s) : Search.Inv S c peers s := by
  obtain ⟨h1, h2, h3⟩ := h
  have hw : ∀ i j id, wk s.it i j ≠ some (.request id) := by
    obtain ⟨self, t, -, -, -, hi⟩ := h2
    unfold Iter.init at hi
    split at hi
    · cases hi
    injection hi with hi
    rw [← hi]
    intro i j id
    simp only [wk, List.getElem?_map]
    cases (Iter.deal n 0 peers (List.replicate n []))[i]? with
    | none => simp
    | some b => simp [Iter.Lookup.new, List.getElem?_replicate]
  have hr : s.it.shared.replies = [] := by
    obtain ⟨self, t, -, -, -, hi⟩ := h2
    unfold Iter.init at hi
    split at hi
    · cases hi
    injection hi with hi
    rw [← hi]
  exact ⟨h2.inv, h1, by rw [h3]; simp, fun i j id hj => (hw i j id hj).elim, by rw [h3]; simp, by rw [hr]; simp⟩

/-- **C135, refuted.** "A search returns." A search that has returned has asked at no more different addresses than the pool of outbound connections may hold (`maxInboundConnections`, 128 unless configured otherwise), plus the number of
outbound connections of the node that have come to an end by then. So as long as peers stay connected, a search that gets to know peers at more addresses than that never returns, whatever the schedule, the answers and the timeouts. -/
theorem C135_many_peers_refuted (S : Sorter) (c : Search.Cfg ε) (hat : 0 < c.node.attempts) (n : Nat) (peers : List ID) (s0 s : Search.State ε) (h0 : Begins S c n peers s0) (as : List (Search.Action ε))
    (h : runs (Search.step S c) s0 as = some s) (hc : s.node.crashed = false) (hr : s.it.returned ≠ none) :
    (s.it.shared.asked.map fun x => x.1.address).dedup.length ≤ c.node.max + s.node.conns.countP (fun x => x.c.side = .outbound ∧ (x.c.main = .done ∨ x.c.main = .finished)) := by
  have hi := h0.inv.run h
  obtain ⟨res, hres⟩ := Option.ne_none_iff_exists'.1 hr
  obtain ⟨hcl, -⟩ := hi.it.ret res hres
  have hp := Node.Placed.reach hat hi.node hc
  have key := Node.few_addresses hi.node (List.nodup_dedup (s.it.shared.asked.map fun x => x.1.address)) ?_
  · exact key
  · intro a ha
    obtain ⟨x, hx, rfl⟩ := List.mem_map.1 (List.mem_dedup.1 ha)
    have hcount := (hi.it.finished hcl).1 (fun e => decide (e = x.1))
    have hpos : 0 < s.it.shared.asked.countP (fun y => decide (y.1 = x.1)) := List.countP_pos_iff.2 ⟨x, hx, by simp⟩
    obtain ⟨r, hr1, hr2⟩ := List.countP_pos_iff.1 (show 0 < s.it.shared.replies.countP (fun r => decide (r.peer = x.1)) by omega)
    simp only [decide_eq_true_eq] at hr2
    obtain ⟨q, k, r', hk, -, hka, hkp, -⟩ := hi.replies r hr1
    rcases hp q k hk with hw | ⟨v, b, hw⟩ | hw
    · rw [hw.1] at hkp; cases hkp
    · rw [hw] at hkp; cases hkp
    · rw [hka, hr2] at hw; exact hw

/-- **C135, refuted: for ever.** Once the call of one of its workers has begun to evict a client from the pool, or waits for the pool while some other call evicts, the search does not return in any continuation. -/
theorem C135_stuck_refuted (S : Sorter) (c : Search.Cfg ε) (hat : 0 < c.node.attempts) (n : Nat) (peers : List ID) (s0 s : Search.State ε) (h0 : Begins S c n peers s0) (as : List (Search.Action ε))
    (h : runs (Search.step S c) s0 as = some s) (a : Ask) (ha : a ∈ s.asks) (k : Nat) (d : Node.Call ε) (hd : s.node.calls[k]? = some d) (v : Nat) (b : Bool) (hv : d.pc = .evict v b)
    (hw : k = a.call ∨ ∃ d' : Node.Call ε, s.node.calls[a.call]? = some d' ∧ d'.pc = .get ∧ 0 < d'.left)
    (as' : List (Search.Action ε)) (s' : Search.State ε) (h' : runs (Search.step S c) s as' = some s') : s'.it.returned = none := by
  have hi := h0.inv.run h
  have key : Search.Inv S c peers s' ∧ ReachFrom (Node.step c.node) s.node s'.node ∧ a ∈ s'.asks := by
    refine runs_inv (P := fun s' => Search.Inv S c peers s' ∧ ReachFrom (Node.step c.node) s.node s'.node ∧ a ∈ s'.asks) ?_ h' ⟨hi, .refl _, ha⟩
    rintro s1 act s2 ⟨g1, g2, g3⟩ hs
    refine ⟨g1.step hs, step_reach hs g2, ?_⟩
    rcases step_cases hs with ⟨b, -, -, -, e2⟩ | ⟨b, -, -, -, e2, -⟩ | ⟨i, j, id, -, -, -, -, e2⟩ | ⟨i, j, who, b, k1, r, -, hf, hk, hp, -, -, e2⟩
    · rw [e2]; exact g3
    · rw [e2]; exact g3
    · rw [e2]; exact List.mem_append_left _ g3
    · rw [e2]
      refine List.mem_filter.2 ⟨g3, ?_⟩
      simp only [decide_eq_true_eq]
      rintro ⟨e3, e4⟩
      have hbp := List.find?_some hf
      simp only [decide_eq_true_eq] at hbp
      have : a = b := g1.uniq a g3 b (List.mem_of_find?_eq_some hf) (e3.trans hbp.1.symm) (e4.trans hbp.2.symm)
      subst this
      obtain ⟨bs, hbs⟩ := g2
      obtain ⟨f1, f2, -⟩ := C114_full_pool_ends_calls_refuted c.node hat s.node hi.node k d hd v _ hv bs s1.node hbs
      have hnr : ∃ c' : Node.Call ε, s1.node.calls[a.call]? = some c' ∧ ∀ r, c'.pc ≠ .returned r := by
        rcases hw with rfl | ⟨d', hd', hg⟩
        · exact f1
        · exact f2 a.call d' hd' hg
      obtain ⟨c', hc', hno⟩ := hnr
      rw [hk] at hc'; cases hc'
      exact hno r hp
  exact key.1.waiting key.2.2

/-- **C135, what holds.** As long as all calls on the node are made to at most `maxInboundConnections` addresses, a search returns: in every execution in which goroutines that can go on do go on, the timeouts of the requests pass, the
connections that the node closes come to an end, and the process does not crash - whatever the peers answer, and also if they do not. -/
theorem C135_returns_partial (S : Sorter) (c : Search.Cfg ε) (n : Nat) (peers : List ID) (σ : Nat → Search.State ε) (α : Nat → Option (Search.Action ε)) (h0 : Begins S c n peers (σ 0)) (hrun : Spec.Runs S c σ α)
    (L : List Text) (hL : L.length ≤ c.node.max) (hin : ∀ (t k : Nat) (d : Node.Call ε), (σ t).node.calls[k]? = some d → d.addr ∈ L) : ∃ t, (σ t).it.returned ≠ none :=
  returns hrun h0.inv hL hin

/-! ## C136 -/

/-- The steps of the search, out of those of the search and its node. -/
theorem runs_it {S : Sorter} {c : Search.Cfg ε} {s s' : Search.State ε} {as : List (Search.Action ε)} (h : runs (Search.step S c) s as = some s') : ∃ bs, runs (Iter.step S c.it) s.it bs = some s'.it := by
  refine runs_inv (P := fun s' => ∃ bs, runs (Iter.step S c.it) s.it bs = some s'.it) ?_ h ⟨[], rfl⟩
  rintro s1 a s2 ⟨bs, hb⟩ hs
  rcases step_cases hs with ⟨b, -, -, e1, -⟩ | ⟨b, -, h1, -⟩ | ⟨i, j, id, -, -, h1, -⟩ | ⟨i, j, who, b, k, r, -, -, -, -, h1, -⟩
  · exact ⟨bs, by rw [e1]; exact hb⟩
  all_goals exact ⟨bs ++ [_], runs_trans hb (runs_one h1)⟩

/-- **C136.** Whoever is among the results of a search has answered it: the node had, during the search or before, an outbound connection to the address of that result, with a peer that has passed the handshake; the request - for the key
of that result - was submitted on this connection, and on this connection came a message with the nonce of that request, which is a list of peers. This under every schedule, whatever else the node does at the same time. -/
theorem C136_results_answered (S : Sorter) (c : Search.Cfg ε) (n : Nat) (peers : List ID) (s0 s : Search.State ε) (h0 : Begins S c n peers s0) (as : List (Search.Action ε)) (h : runs (Search.step S c) s0 as = some s)
    (l : List ID) (hr : s.it.returned = some (.ok l)) (e : ID) (he : e ∈ l) :
    ∃ j x m answer, Reached s.node j e.address x ∧ ⟨m.nonce, put16 c.reqOp ++ e.id.1⟩ ∈ submittedOf x.c.log ∧ .processed m true ∈ x.c.log ∧ m.data.take 2 = put16 c.resOp ∧ unmarshalFindNodeResponse (m.data.drop 2) = .ok answer := by
  have hi := h0.inv.run h
  obtain ⟨bs, hb⟩ := runs_it h
  obtain ⟨c1, c2⟩ := C58_results S c.it n peers s0.it s.it bs h0.2.1 hb _ hr
  by_cases hm : c.it.max < 0
  · cases c1 hm
  obtain ⟨l', e1, -, -, -, c3, -⟩ := c2 (by omega)
  cases e1
  obtain ⟨-, rep, hrep, rfl, hans⟩ := c3 e he
  obtain ⟨q, k, res, hk, hkind, haddr, hpc, hout⟩ := hi.replies rep hrep
  rw [hout] at hans
  cases res with
  | response m =>
    obtain ⟨j, x, data, g1, g2, g3, g4⟩ := (C117_calls_reach_authenticated_peers c.node s.node hi.node q k hk).2.2 m hpc
    rw [hkind] at g1; cases g1
    rw [haddr] at g2
    simp only [outcome, decode] at hans
    split at hans
    · next ht =>
      split at hans
      · next l hl => exact ⟨j, x, m, l, g2, g3, g4, ht, hl⟩
      · cases hans
    · cases hans
  | _ => cases hans

/-! ### A node whose routing table knows two peers -/

/-- Pools of this size, three attempts. -/
def seekCfg (max : Nat) : Search.Cfg Unit := ⟨⟨max, 3, 1, 1, fun _ => false⟩, lkCfg, 0, 1⟩
def seekStart : Search.State Unit := ⟨.new, lkStart, []⟩

theorem seek_begins (max : Nat) : Begins insertionSorter (seekCfg max) 2 lkPeers seekStart := ⟨.refl _, lk_starts, rfl⟩

def searchDo (l : List Iter.Action) : List (Search.Action Unit) := l.map .it
def nodeDo (l : List (Node.Action Unit)) : List (Search.Action Unit) := l.map .node

/-- Both lookups ask their peer; the calls need two clients. -/
def seekBoth : List (Search.Action Unit) := searchDo [.lookup 0 .main, .lookup 1 .main] ++ [.ask 0 0, .ask 1 0] ++ nodeDo [.callStep 0, .callStep 1]

/-- The hypotheses of C135's second refutation are met by a pool of size 1: the second call evicts. -/
theorem C135_witness : ∃ (s : Search.State Unit) (a : Ask) (d : Node.Call Unit), runs (Search.step insertionSorter (seekCfg 1)) seekStart seekBoth = some s ∧ a ∈ s.asks ∧ s.node.calls[a.call]? = some d ∧ d.pc = .evict 0 false := by
  have h : (runs (Search.step insertionSorter (seekCfg 1)) seekStart seekBoth).map (fun s => (s.asks, s.node.calls.map (fun d => (d.pc == .evict 0 false)))) = some ([⟨0, 0, 0⟩, ⟨1, 0, 1⟩], [false, true]) := by decide +kernel
  obtain ⟨s, h1, h2⟩ := Option.map_eq_some_iff.1 h
  simp only [Prod.mk.injEq] at h2
  have h3 : (s.node.calls.map (fun d => (d.pc == .evict 0 false)))[1]? = some true := by rw [h2.2]; rfl
  rw [List.getElem?_map, Option.map_eq_some_iff] at h3
  obtain ⟨d, h4, h5⟩ := h3
  exact ⟨s, ⟨1, 0, 1⟩, d, h1, by rw [h2.1]; simp, h4, by simpa using h5⟩

/-- Both peers are connected and asked, and do not answer until the timeout. -/
def seekAll : List (Search.Action Unit) := seekBoth ++ nodeDo (connDo 0 (connectOut ID.zero) ++ connDo 1 (connectOut ID.zero) ++ [.select 0 .ready, .callStep 0, .callStep 0, .select 1 .ready, .callStep 1, .callStep 1, .expire 0, .expire 1, .cancel 0, .cancel 1]) ++
  [.reply 0 0 zeroPublicKey, .reply 1 0 zeroPublicKey] ++
  searchDo [.lookup 0 .main, .lookup 1 .main, .lookup 0 (.worker 0), .lookup 1 (.worker 0), .lookup 0 .main, .lookup 1 .main, .lookup 0 .main, .lookup 1 .main, .lookup 0 .main, .lookup 1 .main, .lookup 0 .main, .lookup 1 .main,
    .lookup 0 (.worker 0), .lookup 1 (.worker 0), .lookup 0 .main, .lookup 1 .main, .close, .finish]

/-- The hypotheses of C135's first refutation are met: a search with a pool of size 2 has returned, and has asked at two addresses. -/
theorem seek_returns : ∃ s : Search.State Unit, runs (Search.step insertionSorter (seekCfg 2)) seekStart seekAll = some s ∧ s.it.returned.isSome = true ∧ s.node.crashed = false ∧ (s.it.shared.asked.map fun x => x.1.address).dedup.length = 2 ∧
    ∀ d ∈ s.node.calls, d.pc = .returned .cancelled ∧ d.ended = true ∧ d.addr ∈ [(lkPeer 3).address, (lkPeer 2).address] := by
  have h : (runs (Search.step insertionSorter (seekCfg 2)) seekStart seekAll).map (fun s => (s.it.returned.isSome, s.node.crashed, (s.it.shared.asked.map (fun x => x.1.address)).dedup.length,
    s.node.calls.all fun d => d.pc == .returned .cancelled && (d.ended && [(lkPeer 3).address, (lkPeer 2).address].contains d.addr))) = some (true, false, 2, true) := by decide +kernel
  obtain ⟨s, h1, h2⟩ := Option.map_eq_some_iff.1 h
  simp only [Prod.mk.injEq] at h2
  obtain ⟨g1, g2, g3, g4⟩ := h2
  refine ⟨s, h1, g1, g2, g3, fun d hd => ?_⟩
  have := List.all_eq_true.1 g4 d hd
  rw [Bool.and_eq_true, Bool.and_eq_true, beq_iff_eq, List.contains_iff_mem] at this
  exact this

/-- After `Find` has returned, the search does nothing. -/
theorem returned_still {S : Sorter} {c : Iter.Cfg} {peers : List ID} {s : Iter.State} (h : Iter.Inv S c peers s) {r : Res (List ID)} (hr : s.returned = some r) (a : Iter.Action) : Iter.step S c s a = none := by
  obtain ⟨h1, h2, -⟩ := h.ret r hr
  cases a with
  | lookup i a =>
    simp only [Iter.step]
    split
    · next l hl =>
      split
      · next hst =>
        have hm := List.mem_of_getElem? hl
        exact (Iter.done_stuck (h.loc l hm) (h.closed h1 l hm) hst).elim
      · rfl
    · rfl
  | close => simp [Iter.step, h1]
  | collect => simp [Iter.step, h2]
  | finish => simp [Iter.step, hr]

/-- Then nothing is possible in the search, nor in calls that have all returned. -/
theorem search_over {S : Sorter} {c : Search.Cfg ε} {peers : List ID} {s : Search.State ε} (h : Search.Inv S c peers s) {r : Res (List ID)} (hr : s.it.returned = some r) (hc : ∀ (q : Nat) (d : Node.Call ε), s.node.calls[q]? = some d → ∃ r, d.pc = .returned r) :
    (∀ a, Search.step S c s (.it a) = none) ∧ (∀ i j, Search.step S c s (.ask i j) = none) ∧ (∀ i j who, Search.step S c s (.reply i j who) = none) ∧ ∀ q b, Spec.Goes q b → Search.step S c s (.node b) = none := by
  have hst := returned_still h.it hr
  refine ⟨fun a => ?_, fun i j => ?_, fun i j who => ?_, fun q b hb => ?_⟩
  · simp only [Search.step]
    split
    · rfl
    split
    · rfl
    · simp [hst]
    · simp [hst]
  · simp only [Search.step]
    split
    · rfl
    split
    · simp [hst]
    · rfl
  · simp only [Search.step]
    split
    · rfl
    split
    · split
      · split
        · simp [hst]
        · rfl
      · rfl
    · rfl
  · have hn : Node.step c.node s.node b = none := by
      unfold Node.step
      split
      · rfl
      cases hq : s.node.calls[q]? with
      | none => rcases hb with rfl | ⟨b, rfl⟩ | rfl | rfl <;> simp only [hq]
      | some d =>
        obtain ⟨r', hp⟩ := hc q d hq
        rcases hb with rfl | ⟨b, rfl⟩ | rfl | rfl <;> simp only [hq, Node.State.callStep, hp]
    simp only [Search.step, hn, Option.map_none, ite_self]

/-- The hypotheses of C135's positive part are met by the execution that does all this, and then nothing. -/
example : ∃ (σ : Nat → Search.State Unit) (α : Nat → Option (Search.Action Unit)), Begins insertionSorter (seekCfg 2) 2 lkPeers (σ 0) ∧ Spec.Runs insertionSorter (seekCfg 2) σ α ∧
    ∀ (t k : Nat) (d : Node.Call Unit), (σ t).node.calls[k]? = some d → d.addr ∈ [(lkPeer 3).address, (lkPeer 2).address] := by
  obtain ⟨s, h1, h2, h3, -, h4⟩ := seek_returns
  obtain ⟨hx, hend⟩ := Fair.play_exec h1
  have h0 : Begins insertionSorter (seekCfg 2) 2 lkPeers (Fair.play (Search.step insertionSorter (seekCfg 2)) seekStart seekAll 0) := seek_begins 2
  have hi := h0.inv.run h1
  have hcalls : ∀ (q : Nat) (d : Node.Call Unit), s.node.calls[q]? = some d → d.pc = .returned .cancelled ∧ d.ended = true ∧ d.addr ∈ [(lkPeer 3).address, (lkPeer 2).address] := by
    exact fun q d hq => h4 d (List.mem_of_getElem? hq)
  obtain ⟨res, h2⟩ := Option.isSome_iff_exists.1 h2
  obtain ⟨o1, o2, o3, o4⟩ := search_over hi h2 (fun q d hq => ⟨_, (hcalls q d hq).1⟩)
  have fair : ∀ C : Search.Action Unit → Prop, (∀ a, C a → Search.step insertionSorter (seekCfg 2) s a = none) →
      Spec.WeaklyFair (Fair.play (Search.step insertionSorter (seekCfg 2)) seekStart seekAll) (fun t => seekAll[t]?) (Spec.Able (Search.step insertionSorter (seekCfg 2)) C) C := by
    intro C hC t
    refine ⟨t + seekAll.length, by omega, .inr ?_⟩
    rw [hend _ (by omega)]
    rintro ⟨a, ha, hs⟩
    rw [hC a ha] at hs; cases hs
  -- all calls are there in the end
  have later : ∀ (t k : Nat) (d : Node.Call Unit), (Fair.play (Search.step insertionSorter (seekCfg 2)) seekStart seekAll t).node.calls[k]? = some d → ∃ d' : Node.Call Unit, s.node.calls[k]? = some d' ∧ d'.addr = d.addr := by
    intro t k d hk
    have := Fair.stays (P := fun t' => ∃ d', (Fair.play (Search.step insertionSorter (seekCfg 2)) seekStart seekAll t').node.calls[k]? = some d' ∧ d'.addr = d.addr) (fun t' ⟨d', g1, g2⟩ => by
      rcases hx t' with ⟨-, e⟩ | ⟨a, -, hs⟩
      · rw [e]; exact ⟨d', g1, g2⟩
      · rcases step_node hs with e | ⟨b, hb⟩
        · rw [e]; exact ⟨d', g1, g2⟩
        · obtain ⟨d2, f1, -, f2, -⟩ := Node.call_keeps (inv_at hx h0.inv t').node hb g1
          exact ⟨d2, f1, f2.trans g2⟩) (show t ≤ t + seekAll.length by omega) ⟨d, hk, rfl⟩
    rwa [hend _ (by omega)] at this
  have low : ∀ t, t ≤ seekAll.length → (Fair.play (Search.step insertionSorter (seekCfg 2)) seekStart seekAll t).node.crashed = false ∧ ∀ x ∈ (Fair.play (Search.step insertionSorter (seekCfg 2)) seekStart seekAll t).node.conns, x.c.once = .fresh := by
    have : ((List.range (seekAll.length + 1)).all fun t => !(Fair.play (Search.step insertionSorter (seekCfg 2)) seekStart seekAll t).node.crashed && (Fair.play (Search.step insertionSorter (seekCfg 2)) seekStart seekAll t).node.conns.all fun x => x.c.once == .fresh) = true := by
      decide +kernel
    intro t ht
    have := List.all_eq_true.1 this t (List.mem_range.2 (by omega))
    simpa using this
  have always : ∀ t, (Fair.play (Search.step insertionSorter (seekCfg 2)) seekStart seekAll t).node.crashed = false ∧ ∀ x ∈ (Fair.play (Search.step insertionSorter (seekCfg 2)) seekStart seekAll t).node.conns, x.c.once = .fresh := by
    intro t
    by_cases ht : t ≤ seekAll.length
    · exact low t ht
    · rw [hend t (by omega), ← hend seekAll.length (Nat.le_refl _)]
      exact low _ (Nat.le_refl _)
  refine ⟨_, _, h0, ⟨hx, fun a _ => fair _ (by rintro _ rfl; exact o1 a), fun i j => fair _ ?_, fun q => fair _ ?_, fun t a ha => ?_, fun t j x hjx hne => (hne ((always t).2 x (List.mem_of_getElem? hjx))).elim, fun t => (always t).1⟩, fun t k d hk => ?_⟩
  · rintro _ (rfl | rfl | ⟨who, rfl⟩)
    · exact o1 _
    · exact o2 i j
    · exact o3 i j who
  · rintro _ ⟨b, rfl, hb⟩
    exact o4 q b hb
  · obtain ⟨id, -, d, hd, -⟩ := (inv_at hx h0.inv t).asks a ha
    obtain ⟨d', g1, -⟩ := later t _ d hd
    exact ⟨t + seekAll.length, d', by omega, by rw [hend _ (by omega)]; exact g1, (hcalls _ d' g1).2.1⟩
  · obtain ⟨d', g1, g2⟩ := later t k d hk
    rw [← g2]
    exact (hcalls k d' g1).2.2

/-- Both peers are connected and asked; the first one answers that it knows nobody, the second one does not answer. -/
def seekOne : List (Search.Action Unit) := seekBoth ++ nodeDo (connDo 0 (connectOut ID.zero) ++ connDo 1 (connectOut ID.zero) ++ [.select 0 .ready, .callStep 0, .callStep 0, .select 1 .ready, .callStep 1, .callStep 1] ++
    connDo 0 [.writer, .writer, .writer, .writer, .arrive, .readMsg ⟨1, [0, 1, 0]⟩, .main] ++ [.take 0, .expire 1, .cancel 1]) ++
  [.reply 0 0 zeroPublicKey, .reply 1 0 zeroPublicKey] ++
  searchDo [.lookup 0 (.worker 0), .collect, .lookup 0 .main, .lookup 1 .main, .lookup 0 (.worker 0), .lookup 1 (.worker 0), .lookup 0 .main, .lookup 1 .main, .lookup 0 .main, .lookup 1 .main, .lookup 0 .main, .lookup 1 .main, .lookup 0 .main, .lookup 1 .main,
    .lookup 0 (.worker 0), .lookup 1 (.worker 0), .lookup 0 .main, .lookup 1 .main, .close, .finish]

/-- It meets the hypotheses of C136: the search returns the one that answered. -/
example : ∃ s : Search.State Unit, runs (Search.step insertionSorter (seekCfg 2)) seekStart seekOne = some s ∧ s.it.returned = some (.ok [lkPeer 3]) := by
  have h : (runs (Search.step insertionSorter (seekCfg 2)) seekStart seekOne).map (fun s => s.it.returned) = some (some (.ok [lkPeer 3])) := by decide +kernel
  obtain ⟨s, h1, h2⟩ := Option.map_eq_some_iff.1 h
  exact ⟨s, h1, h2⟩

end Noise
