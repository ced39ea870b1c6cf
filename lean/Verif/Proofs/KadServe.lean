import Verif.Proofs.KadWire
/-! # Kademlia on a network of whole nodes: what `Handle` answers -/
namespace Noise.KWire
open Noise.Spec
variable {ε : Type}

/-- Calls of `Handle` on a node do what the code says for their item and some table that satisfies `V`. -/
structure Serves (S : Sorter) (c : Cfg ε) (V : Nat → Table → Prop) (x : Node.State ε) (rs : List Run) : Prop where
  each : ∀ r ∈ rs, ∃ q it tb pc, x.wk = some q ∧ q.items[r.item]? = some it ∧ V r.item tb ∧ start S c.ops tb it.msg = some pc ∧ (r.pc = pc ∨ r.pc = .replied ∧ c.handler ∈ respondersOf r.item q.log)
  sent : ∀ q k v d, x.wk = some q → .sendOk k c.handler v d ∈ q.log → ∃ it tb, q.items[k]? = some it ∧ V k tb ∧ start S c.ops tb it.msg = some (.reply d)
  done : ∀ q k, x.wk = some q → .finished k c.handler none ∈ q.log → ∃ r ∈ rs, r.item = k ∧ (r.pc = .ignored ∨ r.pc = .replied)

theorem Serves.mono {S : Sorter} {c : Cfg ε} {V V' : Nat → Table → Prop} {x : Node.State ε} {runs : List Run} (h : Serves S c V x runs) (hv : ∀ k tb, V k tb → V' k tb) : Serves S c V' x runs where
  each r hr := by
    obtain ⟨q, it, tb, pc, h1, h2, h3, h4⟩ := h.each r hr
    exact ⟨q, it, tb, pc, h1, h2, hv _ _ h3, h4⟩
  sent q k v d h1 h2 := by
    obtain ⟨it, tb, h3, h4, h5⟩ := h.sent q k v d h1 h2
    exact ⟨it, tb, h3, hv _ _ h4, h5⟩
  done := h.done

theorem responders_mono {k h : Nat} {l l' : List (Wk.Event ε)} (hl : l <+: l') (hm : h ∈ respondersOf k l) : h ∈ respondersOf k l' := (hl.filterMap _).subset hm

/-- A step of the node. -/
theorem Serves.node {S : Sorter} {c : Cfg ε} {cfg : Node.Cfg ε} {V : Nat → Table → Prop} {x x' : Node.State ε} {runs : List Run} {a : Node.Action ε} (h : Serves S c V x runs) (hr : Node.Reachable cfg x) (hs : Node.step cfg x a = some x')
    (hsend : ∀ k d q, a = .ctxSend k c.handler d → x.wk = some q → ∃ it tb, q.items[k]? = some it ∧ V k tb ∧ start S c.ops tb it.msg = some (.reply d))
    (hret : ∀ w k q, a = .handlerReturn w none → x.wk = some q → q.workers[w]? = some (.inside k c.handler) → ∃ r ∈ runs, r.item = k ∧ (r.pc = .ignored ∨ r.pc = .replied)) : Serves S c V x' runs := by
  have hlat := Node.Later.step hr hs
  constructor
  · intro r hm
    obtain ⟨q, it, tb, pc, h1, h2, h3, h4, h5⟩ := h.each r hm
    obtain ⟨q', g1, g2, g3⟩ := hlat.wk q h1
    refine ⟨q', it, tb, pc, g1, Node.prefix_get g2 h2, h3, h4, ?_⟩
    rcases h5 with h5 | ⟨h5, h6⟩
    · exact .inl h5
    · exact .inr ⟨h5, responders_mono g3 h6⟩
  · intro q' k v d hq' hin
    rcases Node.step_wkBy hs with h1 | ⟨-, h1⟩ | ⟨w, w1, act, h1, h2, h3, h4⟩
    · rw [h1] at hq'; exact h.sent q' k v d hq' hin
    · rw [hq'] at h1; cases h1
      simp [Wk.State.new] at hin
    · rw [hq'] at h2; cases h2
      have key : ∃ it tb, w.items[k]? = some it ∧ V k tb ∧ start S c.ops tb it.msg = some (.reply d) := by
        rcases Wk.sendOk_new h3 hin with h5 | rfl
        · exact h.sent w k v d h1 h5
        · exact hsend k d w h4 h1
      obtain ⟨it, tb, g1, g2, g3⟩ := key
      obtain ⟨q2, e1, e2, -⟩ := hlat.wk w h1
      rw [hq'] at e1; cases e1
      exact ⟨it, tb, Node.prefix_get e2 g1, g2, g3⟩
  · intro q' k hq' hin
    rcases Node.step_wkBy hs with h1 | ⟨-, h1⟩ | ⟨w, w1, act, h1, h2, h3, h4⟩
    · rw [h1] at hq'; exact h.done q' k hq' hin
    · rw [hq'] at h1; cases h1
      simp [Wk.State.new] at hin
    · rw [hq'] at h2; cases h2
      rcases Wk.finished_new h3 hin with h5 | ⟨w2, rfl, h6⟩
      · exact h.done w k h1 h5
      · exact hret w2 k w h4 h1 h6

/-- After `Send`, the handler is among those that have answered. -/
theorem ctxSend_responds {cfg : Node.Cfg ε} {x x' : Node.State ε} {k h : Nat} {d : Bytes} (hr : Node.Reachable cfg x) (hs : Node.step cfg x (.ctxSend k h d) = some x') : ∃ q', x'.wk = some q' ∧ h ∈ respondersOf k q'.log := by
  have hs0 := hs
  unfold Node.step at hs
  split at hs
  · cases hs
  simp only [Node.State.ctxSend] at hs
  split at hs
  swap
  · cases hs
  rename_i q hq
  split at hs
  swap
  · cases hs
  rename_i q1 it hq1 hit
  have hq2 : h ∈ respondersOf k q1.log := by
    have hinv := Wk.SendInv.reach ((Node.Stage.reach hr).workers q hq)
    simp only [Wk.step, hit] at hq1
    split at hq1
    swap
    · cases hq1
    cases hq1
    unfold Wk.State.ctxSend
    split
    · split
      · exact responders_mono (List.prefix_append _ _) (hinv.sent k h (by assumption))
      · exact Wk.mem_respondersOf.2 ⟨_, _, List.mem_append.2 (.inr (List.mem_singleton.2 rfl))⟩
    · exact Wk.mem_respondersOf.2 ⟨_, _, List.mem_append.2 (.inr (List.mem_singleton.2 rfl))⟩
  split at hs
  · cases hs; exact ⟨q1, rfl, hq2⟩
  · refine ⟨q1, ?_, hq2⟩
    simp only [Node.State.stepConn] at hs
    split at hs
    swap
    · cases hs
    obtain ⟨y, -, rfl⟩ := Option.map_eq_some_iff.1 hs
    rfl

/-- All nodes. -/
def AllServe (S : Sorter) (c : Cfg ε) (V : Nat → Nat → Table → Prop) (s : State ε) : Prop := ∀ n x p, s.net.nodes[n]? = some x → s.parts[n]? = some p → Serves S c (V n) x p.runs

theorem AllServe.net {S : Sorter} {c : Cfg ε} {V : Nat → Nat → Table → Prop} {s : State ε} {net : Net.State ε} {a : Net.Action ε} (h : AllServe S c V s) (hv : Net.Inv c.node s.net) (hn : Net.step c.node s.net a = some net)
    (hsend : ∀ n x p k d q, a = .node n (.ctxSend k c.handler d) → s.net.nodes[n]? = some x → s.parts[n]? = some p → x.wk = some q → ∃ it tb, q.items[k]? = some it ∧ V n k tb ∧ start S c.ops tb it.msg = some (.reply d))
    (hret : ∀ n x p w k q, a = .node n (.handlerReturn w none) → s.net.nodes[n]? = some x → s.parts[n]? = some p → x.wk = some q → q.workers[w]? = some (.inside k c.handler) → ∃ r ∈ p.runs, r.item = k ∧ (r.pc = .ignored ∨ r.pc = .replied)) :
    ∀ n x p, net.nodes[n]? = some x → s.parts[n]? = some p → Serves S c (V n) x p.runs := by
  intro n x' p hx' hp
  rcases GWire.net_node hn hx' with hx | ⟨x, b, hx, rfl, hst⟩
  · exact h n x' p hx hp
  · refine (h n x p hx hp).node (hv.nodes n x hx) hst ?_ ?_
    · rintro k d q rfl hq
      exact hsend n x p k d q rfl hx hp hq
    · rintro w k q rfl hq hw
      exact hret n x p w k q rfl hx hp hq hw

theorem invocation_some {c : Cfg ε} {x : Node.State ε} {w k : Nat} {it : Wk.Item} (h : invocation c x w = some (k, it)) : ∃ q, x.wk = some q ∧ q.workers[w]? = some (.inside k c.handler) ∧ q.items[k]? = some it := by
  unfold invocation at h
  split at h
  swap
  · cases h
  rename_i q hq
  split at h
  swap
  · cases h
  split at h
  swap
  · cases h
  rename_i hw hh
  obtain ⟨it', h1, h2⟩ := Option.map_eq_some_iff.1 h
  cases h2
  subst hh
  exact ⟨q, hq, hw, h1⟩

theorem AllServe.of_go {S : Sorter} {c : Cfg ε} {V : Nat → Nat → Table → Prop} {s s' : State ε} {a : Net.Action ε} (hs : s.go c a = some s')
    (h : ∀ n x p, s'.net.nodes[n]? = some x → s.parts[n]? = some p → Serves S c (V n) x p.runs) : AllServe S c V s' := by
  obtain ⟨-, h2⟩ := go_some hs
  intro n x' p' hx' hp'
  rw [h2, List.getElem?_mapIdx] at hp'
  obtain ⟨p, hp, rfl⟩ := Option.map_eq_some_iff.1 hp'
  have := h n x' p hx' hp
  unfold called
  split <;> exact this

theorem AllServe.of_set {S : Sorter} {c : Cfg ε} {V : Nat → Nat → Table → Prop} {s : State ε} (h : AllServe S c V s) {n : Nat} {x : Node.State ε} {p p' : Part} (hx : s.net.nodes[n]? = some x) (hp : s.parts[n]? = some p)
    (hp' : Serves S c (V n) x p'.runs) : AllServe S c V { s with parts := s.parts.set n p' } := by
  intro m y q hy hq
  simp only at hy hq
  by_cases hm : n = m
  · subst hm
    rw [List.getElem?_set_self (List.getElem?_eq_some_iff.1 hp).1] at hq
    cases hq
    rw [hx] at hy; cases hy
    exact hp'
  · rw [List.getElem?_set_ne hm] at hq
    exact h m y q hy hq

theorem AllServe.step {S : Sorter} {c : Cfg ε} {V : Nat → Nat → Table → Prop} {s s' : State ε} {a : Action ε} (h : AllServe S c V s) (hv : Net.Inv c.node s.net) (hs : KWire.step S c s a = some s')
    (hV : ∀ n x p q k, s.net.nodes[n]? = some x → s.parts[n]? = some p → x.wk = some q → k < q.items.length → V n k p.kad.table) : AllServe S c V s' := by
  cases a with
  | net b =>
    simp only [KWire.step] at hs
    split at hs
    · cases hs
    rename_i hb
    refine .of_go hs (h.net hv (go_some hs).1 ?_ ?_)
    · rintro n x p k d q rfl
      simp [bars] at hb
    · rintro n x p w k q rfl hx hp hq hw
      obtain ⟨it, hit⟩ := GWire.inside_item (hv.nodes n x hx) hq hw
      simp [bars, hx, invocation, hq, hw, hit] at hb
  | kad n b =>
    obtain ⟨x, p, p', hx, hp, hf, rfl⟩ := with_some hs
    obtain ⟨k, hk, rfl⟩ := Option.map_eq_some_iff.1 hf
    exact h.of_set hx hp (h n x p hx hp)
  | handle n w =>
    obtain ⟨x, p, p', hx, hp, hf, rfl⟩ := with_some hs
    have g := h n x p hx hp
    split at hf
    swap
    · cases hf
    rename_i k it hinv
    split at hf
    · cases hf
    obtain ⟨pc, h1, rfl⟩ := Option.map_eq_some_iff.1 hf
    obtain ⟨q, hq, -, hit⟩ := invocation_some hinv
    refine h.of_set hx hp ⟨fun r hr => ?_, g.sent, fun q k hq hin => ?_⟩
    · rcases List.mem_append.1 hr with hr | hr
      · exact g.each r hr
      · rw [List.mem_singleton] at hr; subst hr
        exact ⟨q, it, p.kad.table, pc, hq, hit, hV n x p q k hx hp hq (List.getElem?_eq_some_iff.1 hit).1, h1, .inl rfl⟩
    · obtain ⟨r, h2, h3⟩ := g.done q k hq hin
      exact ⟨r, List.mem_append.2 (.inl h2), h3⟩
  | reply n w =>
    simp only [KWire.step] at hs
    split at hs
    swap
    · cases hs
    rename_i x p hx hp
    split at hs
    swap
    · cases hs
    rename_i k it hinv
    split at hs
    swap
    · cases hs
    rename_i k' data hfind
    obtain ⟨q, hq, -, hit⟩ := invocation_some hinv
    have hmem := List.mem_of_find?_eq_some hfind
    have hk' : k' = k := by have := List.find?_some hfind; simpa using this
    subst hk'
    have g := h n x p hx hp
    obtain ⟨q1, it1, tb, pc, e1, e2, e3, e4, e5⟩ := g.each _ hmem
    rw [hq] at e1; cases e1
    simp only at e2 e3 e5
    rw [hit] at e2; cases e2
    have e5 : pc = .reply data := by
      rcases e5 with e5 | ⟨e5, -⟩
      · exact e5.symm
      · cases e5
    subst e5
    have hnet := (go_some hs).1
    simp only at hnet
    have hall := h.net hv hnet (by
      rintro m x1 p1 k1 d1 q1 hd hx1 hp1 hq1
      cases hd
      rw [hx] at hx1; cases hx1
      rw [hq] at hq1; cases hq1
      exact ⟨it, tb, hit, e3, e4⟩) (by rintro m x1 p1 w1 k1 q1 ⟨⟩)
    refine .of_go hs fun m x' p' hx' hp' => ?_
    simp only at hp'
    by_cases hm : n = m
    · subst hm
      rw [List.getElem?_set_self (List.getElem?_eq_some_iff.1 hp).1] at hp'
      cases hp'
      have g' := hall n x' p hx' hp
      have hst : Node.step (c.node n) x (.ctxSend k' c.handler data) = some x' := by
        simp only [Net.step, hx] at hnet
        obtain ⟨y, h1, h2⟩ := Option.map_eq_some_iff.1 hnet
        rw [← h2] at hx'
        have hx' : (s.net.nodes.set n y)[n]? = some x' := hx'
        rw [List.getElem?_set_self (List.getElem?_eq_some_iff.1 hx).1] at hx'
        cases hx'
        exact h1
      obtain ⟨q', hq', hresp⟩ := ctxSend_responds (hv.nodes n x hx) hst
      refine ⟨fun r hr => ?_, g'.sent, fun q2 k2 hq2 hin => ?_⟩
      · obtain ⟨r0, h0, rfl⟩ := List.mem_map.1 hr
        obtain ⟨q2, it2, tb2, pc2, f1, f2, f3, f4, f5⟩ := g'.each r0 h0
        by_cases hk : r0.item = k'
        · rw [if_pos hk]
          rw [hk] at f2 f3
          rw [hq'] at f1; cases f1
          exact ⟨q', it2, tb2, pc2, hq', f2, f3, f4, .inr ⟨rfl, hresp⟩⟩
        · rw [if_neg hk]
          exact ⟨q2, it2, tb2, pc2, f1, f2, f3, f4, f5⟩
      · obtain ⟨r0, h0, h1, h2⟩ := g'.done q2 k2 hq2 hin
        refine ⟨_, List.mem_map.2 ⟨r0, h0, rfl⟩, ?_⟩
        by_cases hk : r0.item = k'
        · rw [if_pos hk]; exact ⟨hk.symm.trans h1, .inr rfl⟩
        · rw [if_neg hk]; exact ⟨h1, h2⟩
    · rw [List.getElem?_set_ne hm] at hp'
      exact hall m x' p' hx' hp'
  | leave n w r =>
    simp only [KWire.step] at hs
    split at hs
    swap
    · cases hs
    rename_i x p hx hp
    split at hs
    swap
    · cases hs
    rename_i k it hinv
    split at hs
    swap
    · cases hs
    rename_i run hfind
    split at hs
    swap
    · cases hs
    rename_i hret
    obtain ⟨q, hq, hw, hit⟩ := invocation_some hinv
    refine .of_go hs (h.net hv (go_some hs).1 (by rintro m x1 p1 k1 d1 q1 ⟨⟩) ?_)
    rintro m x1 p1 w1 k1 q1 hd hx1 hp1 hq1 hw1
    cases hd
    rw [hx] at hx1; cases hx1
    rw [hp] at hp1; cases hp1
    rw [hq] at hq1; cases hq1
    rw [hw] at hw1; cases hw1
    refine ⟨run, List.mem_of_find?_eq_some hfind, by have := List.find?_some hfind; simpa using this, ?_⟩
    cases hpc : run.pc <;> simp [hpc, returns] at hret ⊢
  | find n target lookups requests max =>
    obtain ⟨x, p, p', hx, hp, hf, rfl⟩ := with_some hs
    split at hf
    swap
    · cases hf
    split at hf
    swap
    · cases hf
    cases hf
    exact h.of_set hx hp (h n x p hx hp)
  | it n f b =>
    obtain ⟨x, p, p', hx, hp, hf, rfl⟩ := with_some hs
    split at hf
    swap
    · cases hf
    obtain ⟨q', h1, rfl⟩ := Option.map_eq_some_iff.1 hf
    exact h.of_set hx hp (h n x p hx hp)
  | ask n f i j =>
    simp only [KWire.step] at hs
    split at hs
    swap
    · cases hs
    rename_i x p hx hp
    split at hs
    swap
    · cases hs
    split at hs
    swap
    · cases hs
    split at hs
    swap
    · cases hs
    refine .of_go hs (AllServe.net (s := _) ?_ hv (go_some hs).1 (by rintro m x1 p1 k1 d1 q1 ⟨⟩) (by rintro m x1 p1 w1 k1 q1 ⟨⟩))
    exact h.of_set hx hp (h n x p hx hp)
  | answer n f i j who =>
    obtain ⟨x, p, p', hx, hp, hf, rfl⟩ := with_some hs
    split at hf
    swap
    · cases hf
    obtain ⟨q', h1, rfl⟩ := Option.map_eq_some_iff.1 hf
    exact h.of_set hx hp (h n x p hx hp)

end Noise.KWire
