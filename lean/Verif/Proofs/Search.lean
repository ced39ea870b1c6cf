import Verif.Proofs.SearchNode
import Verif.Proofs.Iterator
import Verif.Model.Search
/-! # Facts about a search on a node (Model/Search.lean) -/
namespace Noise.Search
open Iter (Worker lookupStep mainStep workerStep)
variable {ε : Type}

/-- Where worker `j` of lookup `i` is. -/
def wk (s : Iter.State) (i j : Nat) : Option Worker := match s.lookups[i]? with
  | some l => l.workers[j]?
  | none => none

theorem wk_set {s : Iter.State} {i j : Nat} {l : Iter.Lookup} {sh : Iter.Shared} (hl : s.lookups[i]? = some l) (l' : Iter.Lookup) (i' j' : Nat) :
    wk { s with shared := sh, lookups := s.lookups.set i l' } i' j' = if i' = i then l'.workers[j']? else wk s i' j' := by
  have hlt := (List.getElem?_eq_some_iff.1 hl).1
  unfold wk
  by_cases h : i' = i
  · subst h; simp [hlt]
  · simp [List.getElem?_set_ne (Ne.symm h), h]

theorem lookup_workers {c : Iter.Cfg} {sh sh' : Iter.Shared} {l l' : Iter.Lookup} {a : Iter.LAction} (h : Iter.lookupStep c sh l a = some (sh', l')) :
    (∀ (j : Nat) (id : ID), l.workers[j]? = some (.request id) → l'.workers[j]? = some (.request id) ∨
      ∃ who r, a = .answer j who r ∧ sh'.replies = sh.replies ++ [⟨id, who, r⟩] ∧ ∀ id', l'.workers[j]? ≠ some (.request id')) ∧
    (∀ (j : Nat) (id : ID), l'.workers[j]? = some (.request id) → l.workers[j]? = some (.request id) ∨ a = .worker j ∧ l.workers[j]? = some .idle ∧ ∃ q, l.queue = id :: q) ∧
    (sh'.replies = sh.replies ∨ ∃ (j : Nat) (id : ID) (who : PublicKey) (r : Option (List ID)), a = .answer j who r ∧ l.workers[j]? = some (.request id) ∧ sh'.replies = sh.replies ++ [⟨id, who, r⟩]) ∧
    ((∀ j who r, a ≠ .answer j who r) → sh'.replies = sh.replies) := by
  by_cases hans : ∃ j who r, a = .answer j who r
  · obtain ⟨j0, who, r, rfl⟩ := hans
    simp only [lookupStep] at h
    split at h
    · next id hw =>
      simp only [Option.some.injEq, Prod.mk.injEq] at h
      obtain ⟨rfl, rfl⟩ := h
      have hlt := (List.getElem?_eq_some_iff.1 hw).1
      have hne : ∀ id', (match r with | some res => Worker.result id res | none => Worker.out []) ≠ Worker.request id' := by intro id'; cases r <;> simp
      refine ⟨fun j id' hj => ?_, fun j id' hj => ?_, .inr ⟨j0, id, who, r, rfl, hw, rfl⟩, fun hn => (hn _ _ _ rfl).elim⟩
      · by_cases hjj : j = j0
        · subst hjj
          rw [hw] at hj; cases hj
          refine .inr ⟨who, r, rfl, rfl, fun id' => ?_⟩
          rw [List.getElem?_set_self hlt]
          exact fun he => hne id' (Option.some.inj he)
        · exact .inl (by rw [List.getElem?_set_ne (Ne.symm hjj)]; exact hj)
      · by_cases hjj : j = j0
        · subst hjj
          rw [List.getElem?_set_self hlt] at hj
          exact (hne id' (Option.some.inj hj)).elim
        · exact .inl (by rwa [List.getElem?_set_ne (Ne.symm hjj)] at hj)
    · cases h
  · have hans' : ∀ j who r, a ≠ .answer j who r := fun j who r he => hans ⟨j, who, r, he⟩
    clear hans
    lookup_cases a h
    all_goals refine ⟨?_, ?_, ?_, ?_⟩
    all_goals (try grind)

theorem iter_workers {S : Sorter} {c : Iter.Cfg} {s s' : Iter.State} {a : Iter.Action} (h : Iter.step S c s a = some s') :
    (∀ (i j : Nat) (id : ID), wk s i j = some (.request id) → wk s' i j = some (.request id) ∨
      ∃ who r, a = .lookup i (.answer j who r) ∧ s'.shared.replies = s.shared.replies ++ [⟨id, who, r⟩] ∧ ∀ id', wk s' i j ≠ some (.request id')) ∧
    (∀ (i j : Nat) (id : ID), wk s' i j = some (.request id) → wk s i j = some (.request id) ∨ a = .lookup i (.worker j) ∧ next s i j = some id) ∧
    ((∀ i j who r, a ≠ .lookup i (.answer j who r)) → s'.shared.replies = s.shared.replies) := by
  cases a with
  | lookup i0 a =>
    simp only [Iter.step] at h
    split at h
    · next l hl =>
      split at h
      · next sh l' hst =>
        cases h
        obtain ⟨h1, h2, h3, h4⟩ := lookup_workers hst
        refine ⟨fun i j id hw => ?_, fun i j id hw => ?_, fun hn => ?_⟩
        · simp only [wk_set hl (j := j)]
          split
          · next hi =>
            subst hi
            simp only [wk, hl] at hw
            rcases h1 j id hw with h | ⟨who, r, rfl, h, h'⟩
            · exact .inl h
            · exact .inr ⟨who, r, rfl, h, h'⟩
          · exact .inl hw
        · rw [wk_set hl (j := j)] at hw
          split at hw
          · next hi =>
            subst hi
            rcases h2 j id hw with h | ⟨rfl, h, q, hq⟩
            · exact .inl (by simp only [wk, hl]; exact h)
            · exact .inr ⟨rfl, by simp only [next, hl, h, hq]⟩
          · exact .inl hw
        · exact h4 (fun j who r he => hn i0 j who r (by rw [he]))
      · cases h
    · cases h
  | close =>
    simp only [Iter.step] at h
    split at h <;> cases h
    exact ⟨fun i j id hw => .inl hw, fun i j id hw => .inl hw, fun _ => rfl⟩
  | collect =>
    simp only [Iter.step] at h
    split at h <;> cases h
    exact ⟨fun i j id hw => .inl hw, fun i j id hw => .inl hw, fun _ => rfl⟩
  | finish =>
    simp only [Iter.step] at h
    split at h <;> cases h
    exact ⟨fun i j id hw => .inl hw, fun i j id hw => .inl hw, fun _ => rfl⟩

/-- The worker's call. -/
def IsCall (c : Cfg ε) (s : State ε) (q : Nat) (id : ID) : Prop := ∃ k, s.node.calls[q]? = some k ∧ k.kind = .request (encode c.reqOp id.id) ∧ k.addr = id.address

structure Inv (S : Sorter) (c : Cfg ε) (peers : List ID) (s : State ε) : Prop where
  it : Iter.Inv S c.it peers s.it
  node : Node.Reachable c.node s.node
  asks : ∀ a ∈ s.asks, ∃ id, wk s.it a.lookup a.worker = some (.request id) ∧ IsCall c s a.call id
  cover : ∀ i j id, wk s.it i j = some (.request id) → ∃ a ∈ s.asks, a.lookup = i ∧ a.worker = j
  uniq : ∀ a ∈ s.asks, ∀ b ∈ s.asks, a.lookup = b.lookup → a.worker = b.worker → a = b
  replies : ∀ r ∈ s.it.shared.replies, ∃ (q : Nat) (k : Node.Call ε) (res : Node.Result), s.node.calls[q]? = some k ∧ k.kind = .request (encode c.reqOp r.peer.id) ∧ k.addr = r.peer.address ∧
    k.pc = .returned res ∧ r.answer = outcome c.resOp res

/-- The four kinds of steps. -/
theorem step_cases {S : Sorter} {c : Cfg ε} {s s' : State ε} {a : Action ε} (h : step S c s a = some s') :
    (∃ b, a = .node b ∧ Node.step c.node s.node b = some s'.node ∧ s'.it = s.it ∧ s'.asks = s.asks) ∨
    (∃ b, a = .it b ∧ Iter.step S c.it s.it b = some s'.it ∧ s'.node = s.node ∧ s'.asks = s.asks ∧ (∀ i j who r, b ≠ .lookup i (.answer j who r)) ∧ ∀ i j, b = .lookup i (.worker j) → next s.it i j = none) ∨
    (∃ i j id, a = .ask i j ∧ next s.it i j = some id ∧ Iter.step S c.it s.it (.lookup i (.worker j)) = some s'.it ∧
      Node.step c.node s.node (.call (.request (encode c.reqOp id.id)) id.address) = some s'.node ∧ s'.asks = s.asks ++ [⟨i, j, s.node.calls.length⟩]) ∨
    (∃ i j who b k r, a = .reply i j who ∧ s.asks.find? (fun a => a.lookup = i ∧ a.worker = j) = some b ∧ s.node.calls[b.call]? = some k ∧ k.pc = .returned r ∧
      Iter.step S c.it s.it (.lookup i (.answer j who (outcome c.resOp r))) = some s'.it ∧ s'.node = s.node ∧ s'.asks = s.asks.filter (fun b => ¬ (b.lookup = i ∧ b.worker = j))) := by
  unfold step at h
  split at h
  · cases h
  cases a with
  | node b =>
    simp only [Option.map_eq_some_iff] at h
    obtain ⟨x, hx, rfl⟩ := h
    exact .inl ⟨b, rfl, hx, rfl, rfl⟩
  | it b =>
    refine .inr (.inl ⟨b, rfl, ?_⟩)
    simp only at h
    split at h
    · cases h
    · next i j =>
      split at h
      · cases h
      · next hn =>
        simp only [Option.map_eq_some_iff] at h
        obtain ⟨x, hx, rfl⟩ := h
        exact ⟨hx, rfl, rfl, fun i j who r => by simp, fun i' j' he => by cases he; simpa using hn⟩
    · next hn1 hn2 =>
      simp only [Option.map_eq_some_iff] at h
      obtain ⟨x, hx, rfl⟩ := h
      exact ⟨hx, rfl, rfl, fun i j who r he => hn1 i j who r he, fun i j he => (hn2 i j he).elim⟩
  | ask i j =>
    simp only at h
    split at h
    · next id hn =>
      split at h
      · next x y hx hy => cases h; exact .inr (.inr (.inl ⟨i, j, id, rfl, hn, hx, hy, rfl⟩))
      · cases h
    · cases h
  | reply i j who =>
    simp only at h
    split at h
    · next b hb =>
      split at h
      · next k hk =>
        split at h
        · next r hr =>
          simp only [Option.map_eq_some_iff] at h
          obtain ⟨x, hx, rfl⟩ := h
          exact .inr (.inr (.inr ⟨i, j, who, b, k, r, rfl, hb, hk, hr, hx, rfl, rfl⟩))
        · cases h
      · cases h
    · cases h

theorem Inv.step {S : Sorter} {c : Cfg ε} {peers : List ID} {s s' : State ε} {a : Action ε} (hi : Inv S c peers s) (h : step S c s a = some s') : Inv S c peers s' := by
  obtain ⟨h1, h2, h3, h4, hu, h5⟩ := hi
  have calls : ∀ {b : Node.Action ε} {n : Node.State ε}, Node.step c.node s.node b = some n → ∀ (q : Nat) (id : ID), IsCall c s q id → ∃ k, n.calls[q]? = some k ∧ k.kind = .request (encode c.reqOp id.id) ∧ k.addr = id.address := by
    rintro b n hb q id ⟨k, g1, g2, g3⟩
    obtain ⟨k', g4, g5, g6, -⟩ := Node.call_keeps h2 hb g1
    exact ⟨k', g4, g5.trans g2, g6.trans g3⟩
  have reps : ∀ {b : Node.Action ε} {n : Node.State ε}, Node.step c.node s.node b = some n → ∀ r : Iter.Reply, (∃ (q : Nat) (k : Node.Call ε) (res : Node.Result), s.node.calls[q]? = some k ∧ k.kind = .request (encode c.reqOp r.peer.id) ∧
      k.addr = r.peer.address ∧ k.pc = .returned res ∧ r.answer = outcome c.resOp res) →
      ∃ (q : Nat) (k : Node.Call ε) (res : Node.Result), n.calls[q]? = some k ∧ k.kind = .request (encode c.reqOp r.peer.id) ∧ k.addr = r.peer.address ∧ k.pc = .returned res ∧ r.answer = outcome c.resOp res := by
    rintro b n hb r ⟨q, k, res, g1, g2, g3, g4, g5⟩
    obtain ⟨k', g6, g7, g8, g9⟩ := Node.call_keeps h2 hb g1
    exact ⟨q, k', res, g6, g7.trans g2, g8.trans g3, g9.returned _ g4, g5⟩
  rcases step_cases h with ⟨b, -, hb, e1, e2⟩ | ⟨b, -, hb, e1, e2, e3, e4⟩ | ⟨i, j, id, -, hn, hit, hnd, ha⟩ | ⟨i, j, who, b, k, r, -, hf, hk, hp, hit, e1, e2⟩
  · refine ⟨by rw [e1]; exact h1, h2.snoc hb, ?_, by rw [e1, e2]; exact h4, by rw [e2]; exact hu, fun r hr => ?_⟩
    · rw [e1, e2]
      intro a ha
      obtain ⟨id, g1, g2⟩ := h3 a ha
      exact ⟨id, g1, calls hb _ _ g2⟩
    · rw [e1] at hr
      exact reps hb r (h5 r hr)
  · obtain ⟨w1, w2, w3⟩ := iter_workers hb
    refine ⟨h1.step hb, by rw [e1]; exact h2, ?_, ?_, by rw [e2]; exact hu, ?_⟩
    · rw [e2]
      intro a ha
      obtain ⟨id, g1, g2⟩ := h3 a ha
      rcases w1 _ _ _ g1 with g | ⟨who, r, g, -⟩
      · exact ⟨id, g, by unfold IsCall; rw [e1]; exact g2⟩
      · exact (e3 _ _ _ _ g).elim
    · rw [e2]
      intro i j id hw
      rcases w2 i j id hw with g | ⟨g, g'⟩
      · exact h4 i j id g
      · rw [e4 i j g] at g'; cases g'
    · rw [w3 e3, e1]; exact h5
  · obtain ⟨w1, w2, w3⟩ := iter_workers hit
    have hidle : wk s.it i j = some .idle := by
      unfold next at hn
      unfold wk
      split at hn
      · next l hl =>
        simp only [hl]
        split at hn
        · next hw _ => exact hw
        · cases hn
      · cases hn
    have hreq : wk s'.it i j = some (.request id) := by
      unfold next at hn
      split at hn
      · next l hl =>
        split at hn
        · next id' q hw hq =>
          cases hn
          simp only [Iter.step, hl, Iter.lookupStep, hw, Iter.workerStep, hq, Option.some.injEq] at hit
          rw [← hit, wk_set hl (j := j), if_pos rfl]
          simp [(List.getElem?_eq_some_iff.1 hw).1]
        · cases hn
      · cases hn
    have hcall : s'.node.calls = s.node.calls ++ [⟨.request (encode c.reqOp id.id), id.address, c.node.attempts, .get, false⟩] := by
      unfold Node.step at hnd
      split at hnd
      · cases hnd
      · simp only [Option.some.injEq] at hnd
        rw [← hnd]
    have hfresh : ∀ a ∈ s.asks, ¬ (a.lookup = i ∧ a.worker = j) := by
      rintro a hm ⟨e1, e2⟩
      obtain ⟨id', g1, -⟩ := h3 a hm
      rw [e1, e2, hidle] at g1; cases g1
    refine ⟨h1.step hit, h2.snoc hnd, ?_, ?_, ?_, ?_⟩
    · rw [ha]
      intro a hm
      rcases List.mem_append.1 hm with hm | hm
      · obtain ⟨id', g1, g2⟩ := h3 a hm
        rcases w1 _ _ _ g1 with g | ⟨who, r, g, -⟩
        · exact ⟨id', g, calls hnd _ _ g2⟩
        · cases g
      · rw [List.mem_singleton] at hm
        subst hm
        exact ⟨id, hreq, ⟨_, by rw [hcall, List.getElem?_concat_length], rfl, rfl⟩⟩
    · rw [ha]
      intro i' j' id' hw
      rcases w2 i' j' id' hw with g | ⟨g, -⟩
      · obtain ⟨a, g1, g2⟩ := h4 i' j' id' g
        exact ⟨a, List.mem_append_left _ g1, g2⟩
      · cases g
        exact ⟨_, List.mem_append_right _ (List.mem_singleton.2 rfl), rfl, rfl⟩
    · rw [ha]
      intro a hma b hmb e1 e2
      rcases List.mem_append.1 hma with hma | hma <;> rcases List.mem_append.1 hmb with hmb | hmb
      · exact hu a hma b hmb e1 e2
      · rw [List.mem_singleton] at hmb; subst hmb; exact (hfresh a hma ⟨e1, e2⟩).elim
      · rw [List.mem_singleton] at hma; subst hma; exact (hfresh b hmb ⟨e1.symm, e2.symm⟩).elim
      · rw [List.mem_singleton] at hma hmb; rw [hma, hmb]
    · rw [w3 (fun i j who r => by simp)]
      exact fun r hr => reps hnd r (h5 r hr)
  · obtain ⟨w1, w2, w3⟩ := iter_workers hit
    have hbm := List.mem_of_find?_eq_some hf
    have hbp := List.find?_some hf
    simp only [decide_eq_true_eq] at hbp
    obtain ⟨id, g1, k0, g2, g3, g4⟩ := h3 b hbm
    rw [hbp.1, hbp.2] at g1
    rw [hk] at g2; cases g2
    obtain ⟨who', r', he, hrep, hno⟩ : ∃ who' r', Iter.Action.lookup i (.answer j who (outcome c.resOp r)) = .lookup i (.answer j who' r') ∧ s'.it.shared.replies = s.it.shared.replies ++ [⟨id, who', r'⟩] ∧ ∀ id', wk s'.it i j ≠ some (.request id') := by
      rcases w1 i j id g1 with g | g
      · exfalso
        unfold wk at g1 g
        simp only [Iter.step] at hit
        split at hit
        · next l hl =>
          simp only [hl] at g1
          simp only [Iter.lookupStep, g1, Option.some.injEq] at hit
          rw [← hit] at g
          simp only [List.getElem?_set_self (List.getElem?_eq_some_iff.1 hl).1, List.getElem?_set_self (List.getElem?_eq_some_iff.1 g1).1] at g
          split at g <;> cases g
        · cases hit
      · exact g
    cases he
    refine ⟨h1.step hit, by rw [e1]; exact h2, ?_, ?_, by rw [e2]; exact fun a ha b hb => hu a (List.mem_filter.1 ha).1 b (List.mem_filter.1 hb).1, ?_⟩
    · rw [e2]
      intro a hm
      obtain ⟨hm, hne⟩ := List.mem_filter.1 hm
      simp only [decide_eq_true_eq] at hne
      obtain ⟨id', g5, g6⟩ := h3 a hm
      rcases w1 _ _ _ g5 with g | ⟨who', r', g, -⟩
      · exact ⟨id', g, by unfold IsCall; rw [e1]; exact g6⟩
      · injection g with g7 g8
        injection g8 with g9
        exact (hne ⟨g7.symm, g9.symm⟩).elim
    · rw [e2]
      intro i' j' id' hw
      rcases w2 i' j' id' hw with g | ⟨g, -⟩
      · obtain ⟨a, g5, g6⟩ := h4 i' j' id' g
        refine ⟨a, List.mem_filter.2 ⟨g5, ?_⟩, g6⟩
        simp only [decide_eq_true_eq]
        rintro ⟨g7, g8⟩
        rw [← g6.1, ← g6.2, g7, g8] at hw
        exact hno _ hw
      · cases g
    · rw [hrep, e1]
      intro x hx
      rcases List.mem_append.1 hx with hx | hx
      · exact h5 x hx
      · rw [List.mem_singleton] at hx
        subst hx
        exact ⟨_, k, r, hk, g3, g4, hp, rfl⟩

theorem Inv.run {S : Sorter} {c : Cfg ε} {peers : List ID} {s s' : State ε} {as : List (Action ε)} (hi : Inv S c peers s) (h : runs (Search.step S c) s as = some s') : Inv S c peers s' :=
  runs_inv (fun _ _ _ hp hs => Inv.step hp hs) h hi

/-- What happens to the node. -/
theorem step_node {S : Sorter} {c : Cfg ε} {s s' : State ε} {a : Action ε} (h : step S c s a = some s') : s'.node = s.node ∨ ∃ b, Node.step c.node s.node b = some s'.node := by
  rcases step_cases h with ⟨b, -, hb, -⟩ | ⟨b, -, -, e1, -⟩ | ⟨i, j, id, -, -, -, hnd, -⟩ | ⟨i, j, who, b, k, r, -, -, -, -, -, e1, -⟩
  · exact .inr ⟨b, hb⟩
  · exact .inl e1
  · exact .inr ⟨_, hnd⟩
  · exact .inl e1

theorem step_reach {S : Sorter} {c : Cfg ε} {s0 : Node.State ε} {s s' : State ε} {a : Action ε} (h : step S c s a = some s') (hr : ReachFrom (Node.step c.node) s0 s.node) : ReachFrom (Node.step c.node) s0 s'.node := by
  rcases step_node h with e | ⟨b, hb⟩
  · rw [e]; exact hr
  · exact hr.snoc hb

/-- While a worker waits for an answer, the search has not returned. -/
theorem Inv.waiting {S : Sorter} {c : Cfg ε} {peers : List ID} {s : State ε} (hi : Inv S c peers s) {a : Ask} (ha : a ∈ s.asks) : s.it.returned = none := by
  obtain ⟨id, h1, -⟩ := hi.asks a ha
  cases hr : s.it.returned with
  | none => rfl
  | some r =>
    obtain ⟨h2, -⟩ := hi.it.ret r hr
    unfold wk at h1
    split at h1
    · next l hl =>
      have hm := List.mem_of_getElem? hl
      have := (hi.it.loc l hm).done (hi.it.closed h2 l hm) _ _ h1
      cases this
    · cases h1

end Noise.Search
