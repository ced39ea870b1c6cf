import Verif.Props.Gossip
/-! # C65: a flood terminates and covers the network -/
namespace Noise
open Gossip Spec

/-- The number of steps of a run that deal with `d` (sends, receipts, goroutines, pushes; `about` in Model/GossipNet). -/
def stepsAbout (d : Bytes) : Net → List NAction → Nat
  | _, [] => 0
  | s, a :: as => (if about s a = some d then 1 else 0) + match nstep s a with
    | some s' => stepsAbout d s' as
    | none => 0

/-- What the pushes of `d` in a run may cost: 7 + 6 * (length of the table) steps each. -/
def pushCost (nodes : List Node) (d : Bytes) : List NAction → Nat
  | [] => 0
  | .node n (.push d') :: as => (if d' = d then ((nodes[n]?).map fun x => 7 + 6 * x.table.length).getD 0 else 0) + pushCost nodes d as
  | _ :: as => pushCost nodes d as

/-- The same nodes apart from their state. -/
def SameTables (l l' : List Node) : Prop := l.map (fun x => (x.id, x.table, x.workers)) = l'.map fun x => (x.id, x.table, x.workers)

theorem SameTables.step {s s' : Net} {a : NAction} (hs : nstep s a = some s') : SameTables s'.nodes s.nodes := by
  obtain ⟨n, x, t, b, hx, _, hn, _⟩ := nstep_node hs
  unfold SameTables
  rw [hn, List.map_set]
  apply List.ext_getElem?
  intro i
  rw [List.getElem?_set]
  split
  · rename_i e; subst e
    have := List.getElem?_eq_some_iff.1 hx
    simp [this.1, this.2]
  · rfl

theorem SameTables.get {l l' : List Node} (h : SameTables l l') (n : Nat) :
    ((l[n]?).map fun x => 7 + 6 * x.table.length) = (l'[n]?).map fun x => 7 + 6 * x.table.length := by
  have := congrArg (fun l => (l[n]?).map fun e : ID × List ID × Nat => 7 + 6 * e.2.1.length) h
  simp only [List.getElem?_map, Option.map_map] at this
  exact this

theorem nextra_cost {s : Net} {nodes : List Node} (d : Bytes) (h : SameTables s.nodes nodes) (a : NAction) (as : List NAction) :
    pushCost nodes d (a :: as) = nextra d s a + pushCost nodes d as := by
  cases a with
  | deliver i n => simp [pushCost, nextra]
  | node n a =>
    cases a <;> simp only [pushCost, nextra, Nat.zero_add]
    rw [h.get n]

theorem steps_bound {d : Bytes} (hd : d.length < 65500) (nodes : List Node) : ∀ (as : List NAction) (s s' : Net), NetOk d s → SameTables s.nodes nodes →
    runs nstep s as = some s' → stepsAbout d s as + total d s' ≤ total d s + pushCost nodes d as
  | [], s, s', _, _, h => by simp only [runs, Option.some.injEq] at h; subst h; simp [stepsAbout, pushCost]
  | a :: as, s, s', hok, hsame, h => by
    obtain ⟨s1, h1, h2⟩ := runs_cons h
    obtain ⟨hok1, ht⟩ := total_step hd hok h1
    have ih := steps_bound hd nodes as s1 s' hok1 ((SameTables.step h1).trans hsame) h2
    rw [nextra_cost d hsame]
    simp only [stepsAbout, h1]
    split
    · rename_i e; rw [if_pos e] at ht; omega
    · rename_i e; rw [if_neg e] at ht; omega

theorem netOk_new (d : Bytes) (nodes : List Node) : NetOk d (Net.new nodes) := by
  intro x hx
  obtain ⟨y, _, rfl⟩ := List.mem_map.1 hx
  exact ⟨by simp [State.new], DInv.new _ _⟩

theorem total_new (d : Bytes) (nodes : List Node) : total d (Net.new nodes) = (nodes.map fun x => x.workers * (7 + 6 * x.table.length)).sum := by
  have h : ∀ x : Node, nodeM d { x with st := State.new } = x.workers * (7 + 6 * x.table.length) := by
    intro x
    simp [nodeM, load, State.new, sumH, sumP, dels, pend]
  simp only [total, Net.new, inFlight, List.countP_nil, Nat.mul_zero, Nat.add_zero, List.map_map]
  congr 1
  apply List.map_congr_left
  intro x _
  exact h x

theorem same_new (nodes : List Node) : SameTables (Net.new nodes).nodes nodes := by
  unfold SameTables Net.new
  rw [List.map_map]
  rfl

/-- C65, the part that holds, termination: for data of fewer than 65500 bytes, in every network and every schedule the number of steps that deal with it is bounded by a number that
depends only on the tables, the numbers of workers and the calls of `Push`. (A single push therefore causes only finitely many sends.) Missing: larger data (`C65_large_refuted`). -/
theorem C65_terminates_partial (nodes : List Node) (d : Bytes) (hd : d.length < 65500) (as : List NAction) (s : Net) (h : runs nstep (Net.new nodes) as = some s) :
    stepsAbout d (Net.new nodes) as ≤ (nodes.map fun x => x.workers * (7 + 6 * x.table.length)).sum + pushCost nodes d as := by
  have := steps_bound hd nodes as _ s (netOk_new d nodes) (same_new nodes) h
  rw [total_new] at this
  omega

theorem valid_new {nodes : List Node} (h : Proper nodes) : NValid (Net.new nodes) := by
  have hk : ((nodes.map fun n => ({ n with st := State.new } : Node)).map fun x => x.id.id) = nodes.map fun x => x.id.id := by rw [List.map_map]; rfl
  refine ⟨⟨?_, ?_, ?_, ?_⟩, ?_, by simp [Net.new]⟩
  · show ((nodes.map fun n => ({ n with st := State.new } : Node)).map fun x => x.id.id).Nodup
    rw [hk]; exact h.keys
  · intro x hx
    obtain ⟨y, hy, rfl⟩ := List.mem_map.1 hx
    exact h.table y hy
  · intro x hx
    obtain ⟨y, hy, rfl⟩ := List.mem_map.1 hx
    intro e he
    show e.id ∈ (nodes.map fun n => ({ n with st := State.new } : Node)).map fun x => x.id.id
    rw [hk]; exact h.closed y hy e he
  · intro x hx
    obtain ⟨y, hy, rfl⟩ := List.mem_map.1 hx
    exact h.workers y hy
  · intro x hx
    obtain ⟨y, hy, rfl⟩ := List.mem_map.1 hx
    exact ⟨by simp [State.new], by simp [State.new], by simp [State.new]⟩

/-- C65, no deadlock: as long as a message is in flight or a handler or push is not finished, some node can make a step, without a new push. -/
theorem C65_progress_partial (nodes : List Node) (hp : Proper nodes) (s : Net) (h : ReachFrom nstep (Net.new nodes) s)
    (ha : s.flight ≠ [] ∨ ∃ x ∈ s.nodes, (∃ e ∈ x.st.handlers, e.pc ≠ .done) ∨ ∃ p ∈ x.st.pushes, p.pc ≠ .done) :
    ∃ a s', nstep s a = some s' ∧ ∀ n d, a ≠ .node n (.push d) :=
  net_progress (h.inv (P := NValid) (fun _ _ _ h hs => h.step hs) (valid_new hp)) ha

/-- Nothing to do with `d` is going on. -/
def Quiet (d : Bytes) (s : Net) : Prop :=
  (∀ m ∈ s.flight, m.data ≠ d) ∧ ∀ x ∈ s.nodes, (∀ h ∈ x.st.handlers, h.data = d → h.pc = .done) ∧ ∀ p ∈ x.st.pushes, p.data = d → p.pc = .done

def tables (nodes : List Node) : List (PublicKey × List PublicKey) := nodes.map fun x => (x.id.id, x.table.map ID.id)

/-- a push by the application has the node know the data, at the latest after its first line -/
def PushedInv (d : Bytes) (s : Net) : Prop :=
  ∀ (n : Nat), (n, d) ∈ s.pushed → ∃ x, s.nodes[n]? = some x ∧ (x.has d ∨ ∃ p ∈ x.st.pushes, p.data = d ∧ p.pc = .mark)

theorem mark_step {c : Cfg} {s t : State} {a : Action} {d : Bytes} (hd : d.length < 65500) (hs : step c s a = some t)
    (h : hash c.self d ∈ s.cache ∨ ∃ p ∈ s.pushes, p.data = d ∧ p.pc = .mark) : hash c.self d ∈ t.cache ∨ ∃ p ∈ t.pushes, p.data = d ∧ p.pc = .mark := by
  have hl := hash_length c.self d
  rcases h with h | ⟨p, h1, h2, h3⟩
  · exact Or.inl (cache_mono hs h)
  · g_cases a hs
    all_goals (try exact Or.inr ⟨p, h1, h2, h3⟩)
    all_goals (try exact Or.inr ⟨p, List.mem_append_left _ h1, h2, h3⟩)
    all_goals
      have hget := ‹s.pushes[_]? = some _›
      have key := fun y => mem_set_cases (y := y) hget h1
      have key2 := fun y => Iter.mem_set_self (y := y) hget
      grind [mem_cacheSet]

theorem mark_push {c : Cfg} {s t : State} {d : Bytes} (hs : step c s (.push d) = some t) : ∃ p ∈ t.pushes, p.data = d ∧ p.pc = .mark := by
  simp only [step] at hs
  split at hs
  · cases hs; exact ⟨⟨d, .mark, []⟩, by simp, rfl, rfl⟩
  · cases hs

theorem pushed_cases {s s' : Net} {a : NAction} {n : Nat} {d : Bytes} (hs : nstep s a = some s') (h : (n, d) ∈ s'.pushed) : (n, d) ∈ s.pushed ∨ a = .node n (.push d) := by
  cases a with
  | deliver i m =>
    simp only [nstep] at hs
    (repeat' (split at hs)) <;> (try (cases hs))
    exact Or.inl h
  | node m a =>
    simp only [nstep] at hs
    (repeat' (split at hs)) <;> (try (cases hs))
    · simp only [List.mem_append, List.mem_singleton, Prod.mk.injEq] at h
      rcases h with h | ⟨rfl, rfl⟩
      · exact Or.inl h
      · exact Or.inr rfl
    · exact Or.inl h

theorem PushedInv.step {d : Bytes} (hd : d.length < 65500) {s s' : Net} {a : NAction} (h : PushedInv d s) (hs : nstep s a = some s') : PushedInv d s' := by
  have hst := hs
  obtain ⟨n, x, t, b, hx, ht, hn, hab⟩ := nstep_node hs
  intro m hm
  have hget : ∀ m, s'.nodes[m]? = if n = m then some { x with st := t } else s.nodes[m]? := by
    intro m
    rw [hn, List.getElem?_set]
    split
    · rename_i e; subst e; simp; exact (List.getElem?_eq_some_iff.1 hx).1
    · rfl
  rcases pushed_cases hst hm with hm | ha
  · obtain ⟨y, hy, hyh⟩ := h m hm
    rw [hget]
    by_cases e : n = m
    · subst e
      rw [hx] at hy
      cases hy
      refine ⟨_, if_pos rfl, mark_step (c := x.cfg) hd ht hyh⟩
    · exact ⟨y, by rw [if_neg e]; exact hy, hyh⟩
  · rcases hab with ⟨ha', _, _⟩ | ⟨i, m', ha', _⟩
    · rw [ha] at ha'
      injection ha' with e1 e2
      subst e1 e2
      rw [hget]
      exact ⟨_, if_pos rfl, Or.inr (mark_push ht)⟩
    · rw [ha] at ha'; cases ha'

theorem cov_new {nodes : List Node} (hk : (nodes.map fun x => x.id.id).Nodup) (d : Bytes) : Cov d (Net.new nodes) := by
  have hx : ∀ x ∈ (Net.new nodes).nodes, x.st = State.new := by
    intro x hx
    obtain ⟨y, _, rfl⟩ := List.mem_map.1 hx
    rfl
  refine ⟨?_, ?_, ?_, ?_, ?_, ?_, ?_, ?_⟩
  · show ((nodes.map fun n => ({ n with st := State.new } : Node)).map fun x => x.id.id).Nodup
    rw [List.map_map]; exact hk
  · intro x h; rw [hx x h]; simp [State.new]
  · simp [Net.new]
  · intro x h; rw [hx x h]; simp [State.new]
  · intro x h; rw [hx x h]; simp [State.new]
  · intro x h; rw [hx x h]; simp [State.new]
  · intro x h; rw [hx x h]; simp [State.new]
  · intro x h hh; unfold Node.has at hh; rw [hx x h] at hh; simp [State.new] at hh

theorem gotN_new (d : Bytes) (nodes : List Node) : GotN d (Net.new nodes) := by
  intro n x hx
  have hx : x.st = State.new := by
    obtain ⟨y, _, rfl⟩ := List.mem_map.1 (List.mem_of_getElem? hx)
    rfl
  refine ⟨?_, ?_, ?_⟩
  · intro hh; unfold Node.has at hh; rw [hx] at hh; simp [State.new] at hh
  · rw [hx]; simp [State.new]
  · rw [hx]; simp [State.new]

theorem covers_of {nodes : List Node} {d : Bytes} {s : Net} (hcov : Cov d s) (hgot : GotN d s) (hpi : PushedInv d s) (hsame : SameTables s.nodes nodes) (hq : Quiet d s)
    {n : Nat} {x0 : Node} (hx0 : nodes[n]? = some x0) (hpush : (n, d) ∈ s.pushed) {k : PublicKey} (hl : Linked (tables nodes) x0.id.id k) :
    ∃ (m : Nat) (x : Node), s.nodes[m]? = some x ∧ x.id.id = k ∧ ((m, d) ∈ s.pushed ∨ 1 ≤ times x.st.delivered d) := by
  obtain ⟨hqf, hqn⟩ := hq
  have htab : ∀ e ∈ tables nodes, ∃ x ∈ s.nodes, e = (x.id.id, x.table.map ID.id) := by
    intro e he
    have : tables s.nodes = tables nodes := by
      have := congrArg (List.map fun e : ID × List ID × Nat => (e.1.id, e.2.1.map ID.id)) hsame
      simp only [List.map_map] at this
      exact this
    rw [← this] at he
    obtain ⟨x, hx, rfl⟩ := List.mem_map.1 he
    exact ⟨x, hx, rfl⟩
  have hhas : Has d s k := by
    induction hl with
    | refl =>
      obtain ⟨x, hx, hxx⟩ := hpi n hpush
      have hxm := List.mem_of_getElem? hx
      have hid : x.id = x0.id := by
        have := congrArg (·[n]?) hsame
        simp only [List.getElem?_map, hx, hx0, Option.map_some, Option.some.injEq, Prod.mk.injEq] at this
        exact this.1
      refine ⟨x, hxm, by rw [hid], ?_⟩
      rcases hxx with hxx | ⟨p, hp, hpd, hpm⟩
      · exact hxx
      · have := (hqn x hxm).2 p hp hpd
        rw [hpm] at this; cases this
    | @step k k' t hl' ht hk' ih =>
      obtain ⟨x, hx, hxk, hxh⟩ := ih
      obtain ⟨y, hy, he⟩ := htab _ ht
      have e1 : k = y.id.id := congrArg Prod.fst he
      have e2 : t = y.table.map ID.id := congrArg Prod.snd he
      have hxy : x = y := eq_of_key hcov.nodup hx hy (hxk.trans e1)
      subst hxy
      rw [e2] at hk'
      obtain ⟨e, he, rfl⟩ := List.mem_map.1 hk'
      obtain ⟨q1, q2⟩ := hqn x hx
      have hc : hash e.id d ∈ x.st.cache := by
        rcases hcov.passes x hx hxh with ⟨g, hg, hgd, hgp⟩ | ⟨p, hp, hpd, hpp⟩ | hall
        · rw [q1 g hg hgd] at hgp; simp at hgp
        · rw [q2 p hp hpd] at hpp; simp at hpp
        · rcases hall e he with hc | ⟨p, hp, hpd, g, hg, _, hgp⟩
          · exact hc
          · exact absurd ((hcov.wf x hx p hp).2.2 (q2 p hp hpd) g hg) hgp
      rcases hcov.noted x hx e.id hc with hh | ⟨m, hm, _, hmd⟩ | ⟨y, hy, _, g, hg, hgd, hgp⟩
      · exact hh
      · exact absurd hmd (hqf m hm)
      · rw [(hqn y hy).1 g hg hgd] at hgp; simp at hgp
  obtain ⟨x, hx, hxk, hxh⟩ := hhas
  obtain ⟨m, hm⟩ := List.mem_iff_getElem?.1 hx
  refine ⟨m, x, hm, hxk, ?_⟩
  rw [times_eq]
  rcases (hgot m x hm).has hxh with h1 | ⟨g, hg, hgd, hgp⟩ | h1
  · exact Or.inr h1
  · rw [(hqn x hx).1 g hg hgd] at hgp; cases hgp
  · exact Or.inl h1

/-- C65, the part that holds, coverage: for data of fewer than 65500 bytes, in every network and every schedule, when nothing to do with the data is going on any more, every node reachable
through tables from a node that pushed it has pushed it itself or been told about it at least once and at most as often as it has workers; exactly once with one worker. Missing: exactly
once with more workers (C63), larger data. -/
theorem C65_covers_partial (nodes : List Node) (hp : Proper nodes) (d : Bytes) (hd : d.length < 65500) (s : Net) (h : ReachFrom nstep (Net.new nodes) s) (hq : Quiet d s)
    (n : Nat) (x0 : Node) (hx0 : nodes[n]? = some x0) (hpush : (n, d) ∈ s.pushed) (k : PublicKey) (hl : Linked (tables nodes) x0.id.id k) :
    ∃ (m : Nat) (x : Node), s.nodes[m]? = some x ∧ x.id.id = k ∧ ((m, d) ∈ s.pushed ∨ 1 ≤ times x.st.delivered d) ∧ times x.st.delivered d ≤ x.workers := by
  have hinv := h.inv (P := fun s => Cov d s ∧ GotN d s ∧ PushedInv d s ∧ NetOk d s ∧ SameTables s.nodes nodes)
    (fun _ _ _ h hs => ⟨h.1.step hd hs, h.2.1.step h.1 hs, h.2.2.1.step hd hs, (total_step hd h.2.2.2.1 hs).1, (SameTables.step hs).trans h.2.2.2.2⟩)
    ⟨cov_new hp.keys d, gotN_new d nodes, by intro n hn; simp [Net.new] at hn, netOk_new d nodes, same_new nodes⟩
  obtain ⟨hcov, hgot, hpi, hok, hsame⟩ := hinv
  obtain ⟨m, x, hm, hxk, h1⟩ := covers_of hcov hgot hpi hsame hq hx0 hpush hl
  refine ⟨m, x, hm, hxk, h1, ?_⟩
  rw [times_eq]
  have := (hok x (List.mem_of_getElem? hm)).2.bound
  have e : x.cfg.workers = x.workers := rfl
  omega

/-! A network of three nodes in a line, the first pushes. -/

def line : List Node := [⟨gid 0, [gid 0, gid 1], 1, 1, State.new⟩, ⟨gid 1, [gid 1, gid 2], 1, 1, State.new⟩, ⟨gid 2, [gid 2], 1, 1, State.new⟩]

/-- The hypotheses of the theorems are met: a run in which the third node gets what the first pushed. -/
example : Proper line ∧ Linked (tables line) (gk 0) (gk 2) ∧
    ∃ s, ReachFrom nstep (Net.new line) s ∧ (0, [7]) ∈ s.pushed ∧ Quiet [7] s ∧ (s.nodes[2]?).map (fun x => times x.st.delivered [7]) = some 1 := by
  refine ⟨⟨by decide +kernel, by decide +kernel, by decide +kernel, by decide +kernel⟩, ?_, ?_⟩
  · refine Linked.step (k := gk 1) (t := [gk 1, gk 2]) (Linked.step (t := [gk 0, gk 1]) Linked.refl ?_ ?_) ?_ ?_ <;> decide +kernel
  · have hr : (runs nstep (Net.new line)
        ([.node 0 (.push [7]), .node 0 (.pushing 0 [gid 0, gid 1]), .node 0 (.pushing 0 [gid 0, gid 1]), .node 0 (.gor 0 0), .node 0 (.gor 0 1), .node 0 (.sent 0 1 true), .node 0 (.gor 0 1),
          .node 0 (.pushing 0 [gid 0, gid 1]), .deliver 0 1, .node 1 (.handler 0), .node 1 (.handler 0), .node 1 (.handler 0), .node 1 (.callback 0 true), .node 1 (.handler 0),
          .node 1 (.pushing 0 [gid 1, gid 2]), .node 1 (.pushing 0 [gid 1, gid 2]), .node 1 (.gor 0 0), .node 1 (.gor 0 1), .node 1 (.sent 0 1 true), .node 1 (.gor 0 1),
          .node 1 (.pushing 0 [gid 1, gid 2]), .node 1 (.handler 0), .deliver 0 2, .node 2 (.handler 0), .node 2 (.handler 0), .node 2 (.handler 0), .node 2 (.callback 0 true),
          .node 2 (.handler 0), .node 2 (.pushing 0 [gid 2]), .node 2 (.pushing 0 [gid 2]), .node 2 (.gor 0 0), .node 2 (.pushing 0 [gid 2]), .node 2 (.handler 0)] : List NAction)).map
        (fun s => decide (s.pushed = [(0, [7])] ∧ s.flight = [] ∧ (∀ x ∈ s.nodes, (∀ h ∈ x.st.handlers, h.pc = .done) ∧ ∀ p ∈ x.st.pushes, p.pc = .done) ∧
          (s.nodes[2]?).map (fun x => times x.st.delivered [7]) = some 1)) = some true := by decide +kernel
    obtain ⟨s, h1, h2⟩ := Option.map_eq_some_iff.1 hr
    simp only [decide_eq_true_eq] at h2
    obtain ⟨e1, e2, e3, e4⟩ := h2
    exact ⟨s, ⟨_, h1⟩, by rw [e1]; simp, ⟨by rw [e2]; simp, fun x hx => ⟨fun h hh _ => (e3 x hx).1 h hh, fun p hp _ => (e3 x hx).2 p hp⟩⟩, e4⟩

/-! ## Large data -/

theorem runningPushes_snoc (l : List Pushing) (h : Pushing) : runningPushes (l ++ [h]) = runningPushes l + if h.pc = .done then 0 else 1 := by
  unfold runningPushes
  rw [List.countP_append, List.countP_singleton]
  by_cases e : h.pc = .done <;> simp [e]

/-- A node that is alone: its table contains only itself. -/
def lonely (H : List Handler) (P : List Pushing) (D Se : List (ID × Bytes)) : Node := ⟨gid 0, [gid 0], 1, 1, ⟨[], H, P, D, Se⟩⟩

/-- one round: the message is taken, reported, pushed and sent again -/
theorem round (d : Bytes) (hd : 65500 ≤ d.length) (H : List Handler) (P : List Pushing) (D Se : List (ID × Bytes)) (U : List (Nat × Bytes)) (hH : running H = 0)
    (hP : runningPushes P = 0) :
    runs nstep ⟨[lonely H P D Se], [⟨gid 0, gk 0, d⟩], U⟩
      [.deliver 0 0, .node 0 (.handler H.length), .node 0 (.handler H.length), .node 0 (.handler H.length), .node 0 (.callback H.length true), .node 0 (.handler H.length),
        .node 0 (.pushing P.length [gid 0]), .node 0 (.pushing P.length [gid 0]), .node 0 (.gor P.length 0), .node 0 (.sent P.length 0 true), .node 0 (.gor P.length 0),
        .node 0 (.pushing P.length [gid 0]), .node 0 (.handler H.length)] =
      some ⟨[lonely (H ++ [⟨gid 0, d, .done⟩]) (P ++ [⟨d, .done, [⟨gid 0, .done⟩]⟩]) (D ++ [(gid 0, d)]) (Se ++ [(gid 0, d)])], [⟨gid 0, gk 0, d⟩], U⟩ := by
  have e : (gid 0).id = gk 0 := rfl
  simp [runs, nstep, step, lonely, Node.cfg, hH, hP, State.setH, State.setP, cacheSet_big hd, cacheHas, allowed, e]

/-- C65 is false for data of 65500 bytes or more: after one push the flood never ends. Here the node is alone (every table contains its owner) and sends the message to itself again and
again: for every `k` there is a run with one push in which the application is told about it `k` times and the message is still in flight. -/
theorem C65_large_refuted (d : Bytes) (hd : 65500 ≤ d.length) (k : Nat) :
    ∃ s, ReachFrom nstep (Net.new [⟨gid 0, [gid 0], 1, 1, State.new⟩]) s ∧ s.pushed = [(0, d)] ∧ s.flight ≠ [] ∧ (s.nodes[0]?).map (fun x => times x.st.delivered d) = some k := by
  suffices h : ∃ (H : List Handler) (P : List Pushing) (D Se : List (ID × Bytes)), running H = 0 ∧ runningPushes P = 0 ∧ times D d = k ∧
      ReachFrom nstep (Net.new [⟨gid 0, [gid 0], 1, 1, State.new⟩]) ⟨[lonely H P D Se], [⟨gid 0, gk 0, d⟩], [(0, d)]⟩ by
    obtain ⟨H, P, D, Se, _, _, h3, h4⟩ := h
    exact ⟨_, h4, rfl, by simp, by simp [lonely, h3]⟩
  induction k with
  | zero =>
    refine ⟨[], [⟨d, .done, [⟨gid 0, .done⟩]⟩], [], [(gid 0, d)], rfl, rfl, rfl,
      [.node 0 (.push d), .node 0 (.pushing 0 [gid 0]), .node 0 (.pushing 0 [gid 0]), .node 0 (.gor 0 0), .node 0 (.sent 0 0 true), .node 0 (.gor 0 0), .node 0 (.pushing 0 [gid 0])], ?_⟩
    have e : (gid 0).id = gk 0 := rfl
    simp [runs, nstep, step, lonely, Net.new, State.new, Node.cfg, State.setP, cacheSet_big hd, cacheHas, allowed, e, runningPushes]
  | succ k ih =>
    obtain ⟨H, P, D, Se, h1, h2, h3, h4⟩ := ih
    refine ⟨_, _, _, _, ?_, ?_, ?_, h4.run (round d hd H P D Se _ h1 h2)⟩
    · rw [running_snoc, h1]; simp
    · rw [runningPushes_snoc, h2]; simp
    · rw [times_eq] at h3 ⊢
      rw [dels_append, h3]; simp

end Noise
