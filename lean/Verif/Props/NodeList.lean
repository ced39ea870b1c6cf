import Verif.Proofs.NodeList
import Verif.Props.NodeCalls
/-! # Properties C71 and C119: which connections `Inbound()` and `Outbound()` return -/
namespace Noise
open Node Spec
variable {ε : Type}

/-- The goroutine of the client has done everything but closing `clientDone`: its receive loop is over, it has closed its connection and has removed itself from the pool. -/
def HasEnded (c : Cl.State ε) : Prop := c.main = .done ∨ c.main = .finished

/-! ## C119 -/

/-- **C119.** When `Inbound()` or `Outbound()` returns, it returns clients of that direction that have not ended, each once, at most the configured number, no two with the same address; and it returns every one that has not ended
(for `Inbound()`: until the listener has been closed and the accept goroutine releases the pool). -/
theorem C119_lists (cfg : Cfg ε) (s s' : Node.State ε) (h : Node.Reachable cfg s) (d : Cl.Side) (hs : Node.step cfg s (.list d) = some s') :
    ∃ l : List Nat, s'.log = s.log ++ [.listed d l] ∧ l.Nodup ∧ l.length ≤ cfg.max ∧
      (∀ j ∈ l, ∃ x, s.conns[j]? = some x ∧ x.c.side = d ∧ ¬ HasEnded x.c) ∧
      (∀ j ∈ l, ∀ j' ∈ l, ∀ x x' : Node.Conn ε, s.conns[j]? = some x → s.conns[j']? = some x' → x.addr = x'.addr → j = j') ∧
      ((d = .inbound → s.accept.released = false) → ∀ (j : Nat) (x : Node.Conn ε), s.conns[j]? = some x → x.c.side = d → ¬ HasEnded x.c → j ∈ l) := by
  have hv := Inv.reach h
  unfold Node.step at hs
  split at hs
  · cases hs
  · simp only at hs
    split at hs
    · next hl =>
      cases hs
      refine ⟨_, rfl, entries_snd_nodup h d, by simpa using (hv.bound d).1, fun j hj => ?_, fun j hj j' hj' x x' hx hx' ha => ?_, fun hrel j x hx hsd hp => ?_⟩
      · obtain ⟨e, he, rfl⟩ := List.mem_map.1 hj
        obtain ⟨x, h1, -, h3, h4⟩ := hv.ent d e he
        exact ⟨x, h1, h3, h4⟩
      · obtain ⟨e, he, rfl⟩ := List.mem_map.1 hj
        obtain ⟨e', he', rfl⟩ := List.mem_map.1 hj'
        obtain ⟨y, h1, h2, -⟩ := hv.ent d e he
        obtain ⟨y', h1', h2', -⟩ := hv.ent d e' he'
        rw [hx] at h1; cases h1
        rw [hx'] at h1'; cases h1'
        have g := find_fst (hv.nodup d) he
        have g' := find_fst (hv.nodup d) he'
        rw [← h2, ha, h2', g'] at g
        cases g
        rfl
      · exact List.mem_map.2 ⟨_, listed h d hl hrel hx hsd hp, rfl⟩
    · cases hs

/-- Two inbound connections, of which the first has ended, and two outbound ones. -/
def fourConnections (n : ID) (e : ε) : List (Node.Action ε) :=
  [.listen, .acceptStep, .acceptConn ['a'], .acceptStep, .acceptConn ['b'], .acceptStep, .call .ping ['c'], .callStep 0, .call .ping ['d'], .callStep 1] ++ connDo 0 (connectIn n) ++ connDo 2 (connectOut n)
    ++ connDo 0 [.readFail e, .main, .main, .closeConn, .main, .main, .main, .main] ++ [.list .inbound, .list .outbound]

/-- The lists of this node. -/
example : ∃ s : Node.State Unit, Node.Reachable ⟨2, 3, 1, 1, fun _ => false⟩ s ∧ s.log = [.accepted ['a'] 0, .accepted ['b'] 1, .listed .inbound [1], .listed .outbound [3, 2]] := by
  have h : (runs (Node.step ⟨2, 3, 1, 1, fun _ => false⟩) (Node.State.new : Node.State Unit) (fourConnections ID.zero ())).map
      (fun s => s.log) = some [.accepted ['a'] 0, .accepted ['b'] 1, .listed .inbound [1], .listed .outbound [3, 2]] := by decide +kernel
  obtain ⟨s, h1, h2⟩ := Option.map_eq_some_iff.1 h
  exact ⟨s, ⟨_, h1⟩, h2⟩

/-! ## C71 -/

/-- **C71.** In a node, whatever else it does: when a connection ends, it disappears from the pool that `Inbound()` or `Outbound()` reads, and no other connection disappears. (Removal is by address: `C71_pool_by_itself`
shows that this relies on the node never using a pool again that it has released.) -/
theorem C71_removes_own (cfg : Cfg ε) (s s' : Node.State ε) (h : Node.Reachable cfg s) (j : Nat) (x : Node.Conn ε) (hx : s.conns[j]? = some x) (hm : x.c.main = .remove)
    (hs : Node.step cfg s (.conn j .main) = some s') : (∃ x', s'.conns[j]? = some x' ∧ HasEnded x'.c) ∧ ∀ d e, e ∈ (s'.pool d).entries ↔ e ∈ (s.pool d).entries ∧ e.2 ≠ j := by
  have hv := Inv.reach h
  unfold Node.step at hs
  split at hs
  · cases hs
  · simp only [State.connStep, hx, hm] at hs
    unfold State.remove at hs
    simp only at hs
    split at hs
    · cases hs
    · next hl =>
      simp only [ne_eq, Classical.not_not] at hl
      split at hs
      · next s1 h1 =>
        obtain ⟨y, c, hy, hc, rfl⟩ := stepConn_some h1
        rw [hx] at hy; cases hy
        have hc' : c = { x.c with main := .done, inPool := false } := by
          simp only [Cl.step, Cl.State.mainStep, hm, Option.some.injEq] at hc; exact hc.symm
        have hpool : s'.pool = fun b => if b = x.c.side then ⟨(s.pool x.c.side).lock, (s.pool x.c.side).entries.filter (fun q => q.1 ≠ x.addr)⟩ else s.pool b := by
          split at hs
          · cases hs; rw [(drop_same _ _).pool]; rfl
          · cases hs; rfl
        have hconn : ∃ x', s'.conns[j]? = some x' ∧ HasEnded x'.c := by
          have hj := (List.getElem?_eq_some_iff.1 hx).1
          split at hs
          · next e _ =>
            cases hs
            obtain ⟨x', g1, -, -, g4⟩ := (drop_mild ((({ s with conns := s.conns.set j { x with c := c } } : Node.State ε)).setPool x.c.side { s.pool x.c.side with entries := (s.pool x.c.side).entries.filter (fun q => q.1 ≠ x.addr) }) e.2).old j { x with c := c }
              (by simp only [State.setPool]; exact List.getElem?_set_self hj)
            exact ⟨x', g1, g4.2 (by rw [hc']; exact .inl rfl)⟩
          · cases hs
            exact ⟨{ x with c := c }, by simp only [State.setPool]; exact List.getElem?_set_self hj, by rw [hc']; exact .inl rfl⟩
        refine ⟨hconn, fun d e => ?_⟩
        rw [hpool]; simp only
        split
        · next hd =>
          subst hd
          simp only [List.mem_filter, ne_eq, decide_not, Bool.not_eq_true', decide_eq_false_iff_not]
          exact and_congr_right fun he => not_congr (own_entry h hx hm hl he)
        · next hd =>
          refine ⟨fun he => ⟨he, fun hej => ?_⟩, fun he => he.1⟩
          obtain ⟨y, g1, -, g3, -⟩ := hv.ent d e he
          rw [hej, hx] at g1; cases g1
          exact hd g3.symm
      · cases hs

/-- A node with two inbound and two outbound connections, the first of which is about to remove itself. -/
example : ∃ (s s' : Node.State Unit) (x : Node.Conn Unit), Node.Reachable ⟨2, 3, 1, 1, fun _ => false⟩ s ∧ s.conns[0]? = some x ∧ x.c.main = .remove ∧ Node.step ⟨2, 3, 1, 1, fun _ => false⟩ s (.conn 0 .main) = some s' ∧
    (s.pool .inbound).entries = [(['b'], 1), (['a'], 0)] ∧ (s'.pool .inbound).entries = [(['b'], 1)] := by
  have h : ((runs (Node.step ⟨2, 3, 1, 1, fun _ => false⟩) (Node.State.new : Node.State Unit) ((fourConnections ID.zero ()).dropLast.dropLast.dropLast.dropLast)).bind fun s => (s.conns[0]?).bind fun x =>
      (Node.step ⟨2, 3, 1, 1, fun _ => false⟩ s (.conn 0 .main)).map fun s' => (x.c.main, (s.pool .inbound).entries, (s'.pool .inbound).entries)) = some (.remove, [(['b'], 1), (['a'], 0)], [(['b'], 1)]) := by decide +kernel
  obtain ⟨s, h1, h⟩ := Option.bind_eq_some_iff.1 h
  obtain ⟨x, h2, h⟩ := Option.bind_eq_some_iff.1 h
  obtain ⟨s', h3, h⟩ := Option.map_eq_some_iff.1 h
  simp only [Prod.mk.injEq] at h
  exact ⟨s, s', x, ⟨_, h1⟩, h2, h.1, h3, h.2.1, h.2.2⟩

/-- **C71, the other direction.** If a connection disappears from a pool, then it is because it has ended, because the pool was full and it is being evicted, or because the accept goroutine releases the inbound pool. -/
theorem C71_disappears (cfg : Cfg ε) (s s' : Node.State ε) (h : Node.Reachable cfg s) (a : Node.Action ε) (hs : Node.step cfg s a = some s') (d : Cl.Side) (e : Text × Nat) (he : e ∈ (s.pool d).entries)
    (hn : e ∉ (s'.pool d).entries) : (∃ x', s'.conns[e.2]? = some x' ∧ HasEnded x'.c) ∨ ((s.pool d).entries.length = cfg.max ∧ ∃ t, ev s' t = some e.2) ∨ (d = .inbound ∧ s.accept = .release) := by
  have hv := Inv.reach h
  rcases step_eff hs with h0 | rfl
  swap
  · exact absurd he hn
  cases h0 with
  | quiet hp hm he' hr => rw [hp] at hn; exact absurd he hn
  | found b q hl hf hp hc he' hr =>
    refine absurd ?_ hn
    rw [hp]; simp only
    split
    · next hd =>
      subst hd
      by_cases hqe : e.1 = q.1
      · have h3 := find_fst (hv.nodup _) he
        rw [hqe, hf] at h3
        cases h3
        exact List.mem_cons_self
      · exact List.mem_cons_of_mem _ (List.mem_filter.2 ⟨he, by simp [hqe]⟩)
    · exact he
  | added b a hl hf hn' hp hc he' hd hr hw hacc =>
    refine absurd ?_ hn
    rw [hp]; simp only
    split
    · next hd => subst hd; exact List.mem_cons_of_mem _ he
    · exact he
  | evict t q hl hn' hg hp hm he0 he' heo hd hr hw =>
    by_cases hdt : d = t.side
    · subst hdt
      rw [hp] at hn
      simp only [if_true] at hn
      rw [eq_dropLast_append hg] at he
      rcases List.mem_append.1 he with h1 | h1
      · exact absurd h1 hn
      · simp only [List.mem_singleton] at h1
        subst h1
        exact .inr (.inl ⟨hn', t, he'⟩)
    · refine absurd ?_ hn
      rw [hp]; simp [hdt, he]
  | evicted t v a he0 hd hp hc he' heo hs hr =>
    refine absurd ?_ hn
    rw [hp]; simp only
    split
    · next hd => subst hd; exact List.mem_cons_of_mem _ he
    · exact he
  | removed j x hx hrm hl hp hlen hc he' hr =>
    left
    by_cases hd : d = x.c.side
    · subst hd
      rw [hp] at hn
      simp only [if_true] at hn
      have ha : e.1 = x.addr := by
        by_contra hne
        exact hn (List.mem_filter.2 ⟨he, by simp [hne]⟩)
      obtain ⟨x', g1, -, -, g4, -⟩ := hc j x hx
      rw [(own_entry h hx hrm hl he).1 ha]
      exact ⟨x', g1, g4.2 (.inr rfl)⟩
    · exfalso
      apply hn
      rw [hp]; simp [hd, he]
  | released l hl hperm ha hb hp hm he' =>
    by_cases hd : d = .inbound
    · exact .inr (.inr ⟨hd, hb⟩)
    · refine absurd ?_ hn
      rw [hp]; simp [hd, he]

end Noise
