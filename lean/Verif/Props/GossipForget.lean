import Verif.Props.GossipNet
import Verif.Proofs.GossipForgetNet
/-! # C126: gossip although the cache is bounded -/
namespace Noise
open Gossip Spec

/-! ## One node -/

/-- C126, what does hold: in every history of receipts, pushes and dropped cache entries, the application is told about `d` at most once per worker, and once more per worker each time the cache has dropped the
entry that says that the node has `d`. -/
theorem C126_delivered_partial (c : Cfg) (d : Bytes) (hd : d.length < 65500) (s : FState) (h : ReachFrom (fstep c) FState.new s) :
    times s.st.delivered d ≤ c.workers * (1 + s.dropped.count (hash c.self d)) := by
  have := (fd_reach hd h).bound
  rw [times_eq, Nat.mul_add, Nat.mul_one]
  omega

/-- C126, what does hold: to the same peer `d` is sent at most as often as pushes overlap, and as many times more each time the cache has dropped the entry that says that the peer has `d`. -/
theorem C126_sent_partial (c : Cfg) (d : Bytes) (hd : d.length < 65500) (k : PublicKey) (s : FState) (h : ReachFrom (fstep c) FState.new s) :
    timesTo s.st.sent k d ≤ c.pushes * (1 + s.dropped.count (hash k d)) := by
  have := (fs_reach hd k h).bound
  rw [timesTo_eq, Nat.mul_add, Nat.mul_one]
  omega

/-- C126 is false, whatever the cache drops: as soon as the application has been told about more messages than the cache has entries, one of them is reported again if it arrives again. -/
theorem C126_reported_again_refuted (c : Cfg) (s : State) (hc : 0 < c.workers) (hidle : ∀ h ∈ s.handlers, h.pc = .done) (N : Nat) (hN : ∀ keys : List Bytes, keys.Nodup → (∀ k ∈ keys, k ∈ s.cache) → keys.length ≤ N)
    (ds : List Bytes) (hnd : ds.Nodup) (hlen : N < ds.length) (hdel : ∀ d ∈ ds, 1 ≤ times s.delivered d) (e : ID) (he : e.id ≠ c.self) :
    ∃ d ∈ ds, ∃ s', ReachFrom (step c) s s' ∧ times s'.delivered d = times s.delivered d + 1 ∧ 2 ≤ times s'.delivered d := by
  have hex : ∃ d ∈ ds, hash c.self d ∉ s.cache := by
    by_contra hcon
    have hall : ∀ d ∈ ds, hash c.self d ∈ s.cache := fun d hd => Classical.byContradiction fun h => hcon ⟨d, hd, h⟩
    have := hN (ds.map (hash c.self)) (hnd.map fun _ _ h => (hash_inj h).2) (by
      intro k hk
      obtain ⟨d, hd, rfl⟩ := List.mem_map.1 hk
      exact hall d hd)
    rw [List.length_map] at this
    omega
  obtain ⟨d, hd, hn⟩ := hex
  have h1 : 1 ≤ times s.delivered d := hdel d hd
  have hrun : running s.handlers = 0 := by
    unfold running
    rw [List.countP_eq_zero]
    intro h hh
    simp [hidle h hh]
  have hnot : cacheHas (cacheSet s.cache (hash e.id d)) (hash c.self d) = false := by
    rw [← Bool.not_eq_true, cacheHas_iff, mem_cacheSet]
    rintro (h | ⟨h, _⟩)
    · exact hn h
    · exact he (hash_inj h).1.symm
  have hgoal : ∃ s', ReachFrom (step c) s s' ∧ s'.delivered = s.delivered ++ [(e, d)] :=
    ⟨{ s with cache := cacheSet (cacheSet s.cache (hash e.id d)) (hash c.self d), handlers := s.handlers ++ [⟨e, d, .done⟩], delivered := s.delivered ++ [(e, d)] },
      ⟨[.receive e d, .handler s.handlers.length, .handler s.handlers.length, .handler s.handlers.length, .callback s.handlers.length false],
        by simp [runs, step, hrun, hc, State.setH, hnot]⟩, rfl⟩
  obtain ⟨s', h2, h3⟩ := hgoal
  have h4 : times s'.delivered d = times s.delivered d + 1 := by rw [times_eq, times_eq, h3, dels_append]; simp
  exact ⟨d, hd, s', h2, h4, by omega⟩

/-- The hypotheses are met: a cache of two entries, three messages. -/
example : ∃ s : FState, ReachFrom (fstep ⟨gk 0, 1, 1⟩) FState.new s ∧ (∀ h ∈ s.st.handlers, h.pc = .done) ∧ s.st.cache.length = 2 ∧ ∀ d ∈ ([[1], [2], [3]] : List Bytes), times s.st.delivered d = 1 := by
  have hr : (runs (fstep ⟨gk 0, 1, 1⟩) FState.new
      [.act (.receive (gid 1) [1]), .act (.handler 0), .act (.handler 0), .act (.handler 0), .act (.callback 0 false), .drop (hash (gk 1) [1]), .drop (hash (gk 0) [1]),
        .act (.receive (gid 1) [2]), .act (.handler 1), .act (.handler 1), .act (.handler 1), .act (.callback 1 false), .drop (hash (gk 1) [2]), .drop (hash (gk 0) [2]),
        .act (.receive (gid 1) [3]), .act (.handler 2), .act (.handler 2), .act (.handler 2), .act (.callback 2 false)]).map
      (fun s => decide ((∀ h ∈ s.st.handlers, h.pc = .done) ∧ s.st.cache.length = 2 ∧ ∀ d ∈ ([[1], [2], [3]] : List Bytes), times s.st.delivered d = 1)) = some true := by decide +kernel
  obtain ⟨s, h1, h2⟩ := Option.map_eq_some_iff.1 hr
  simp only [decide_eq_true_eq] at h2
  exact ⟨s, ⟨_, h1⟩, h2⟩

/-! ## Networks -/

/-- The number of steps of a run that deal with `d`, as in C65; drops are not counted. -/
def fstepsAbout (d : Bytes) : FNet → List FNAction → Nat
  | _, [] => 0
  | s, a :: as => (if fabout s a = some d then 1 else 0) + match fnstep s a with
    | some s' => fstepsAbout d s' as
    | none => 0

/-- What the pushes of `d` and the drops in a run may cost: 7 + 6 * (length of the table) steps for each push, and for each worker of a node each time its cache drops the entry that says that the node has `d`. -/
def dropCost (nodes : List Node) (d : Bytes) : List FNAction → Nat
  | [] => 0
  | .act (.node n (.push d')) :: as => (if d' = d then ((nodes[n]?).map fun x => 7 + 6 * x.table.length).getD 0 else 0) + dropCost nodes d as
  | .drop n key :: as => ((nodes[n]?).map fun x => if key = hash x.id.id d then x.workers * (7 + 6 * x.table.length) else 0).getD 0 + dropCost nodes d as
  | _ :: as => dropCost nodes d as

theorem SameTables.get' {l l' : List Node} (h : SameTables l l') (n : Nat) (key d : Bytes) :
    ((l[n]?).map fun x => if key = hash x.id.id d then x.workers * (7 + 6 * x.table.length) else 0) =
      (l'[n]?).map fun x => if key = hash x.id.id d then x.workers * (7 + 6 * x.table.length) else 0 := by
  have := congrArg (fun l => (l[n]?).map fun e : ID × List ID × Nat => if key = hash e.1.id d then e.2.2 * (7 + 6 * e.2.1.length) else 0) h
  simp only [List.getElem?_map, Option.map_map] at this
  exact this

theorem fextra_cost {s : FNet} {nodes : List Node} (d : Bytes) (h : SameTables s.net.nodes nodes) (a : FNAction) (as : List FNAction) :
    dropCost nodes d (a :: as) = fextra d s a + dropCost nodes d as := by
  cases a with
  | drop n key => simp only [dropCost, fextra]; rw [h.get' n]
  | act a =>
    cases a with
    | deliver i n => simp [dropCost, fextra, nextra]
    | node n a =>
      cases a <;> simp only [dropCost, fextra, nextra, Nat.zero_add]
      rw [h.get n]

theorem SameTables.fstep {s s' : FNet} {a : FNAction} (hs : fnstep s a = some s') : SameTables s'.net.nodes s.net.nodes := by
  cases a with
  | act a =>
    simp only [fnstep, Option.map_eq_some_iff] at hs
    obtain ⟨t, hs, rfl⟩ := hs
    exact SameTables.step hs
  | drop n key =>
    simp only [fnstep] at hs
    split at hs
    · rename_i x hx
      split at hs
      · cases hs
        unfold SameTables
        simp only
        rw [List.map_set]
        apply List.ext_getElem?
        intro i
        rw [List.getElem?_set]
        split
        · rename_i e; subst e
          have := List.getElem?_eq_some_iff.1 hx
          simp [this.1, this.2]
        · rfl
      · cases hs
    · cases hs

theorem fsteps_bound {d : Bytes} (hd : d.length < 65500) (nodes : List Node) : ∀ (as : List FNAction) (s s' : FNet), FNetOk d s → SameTables s.net.nodes nodes →
    runs fnstep s as = some s' → fstepsAbout d s as + ftotal d s' ≤ ftotal d s + dropCost nodes d as
  | [], s, s', _, _, h => by simp only [runs, Option.some.injEq] at h; subst h; simp [fstepsAbout, dropCost]
  | a :: as, s, s', hok, hsame, h => by
    obtain ⟨s1, h1, h2⟩ := runs_cons h
    obtain ⟨hok1, ht⟩ := ftotal_step hd hok h1
    have ih := fsteps_bound hd nodes as s1 s' hok1 ((SameTables.fstep h1).trans hsame) h2
    rw [fextra_cost d hsame]
    simp only [fstepsAbout, h1]
    split
    · rename_i e; rw [if_pos e] at ht; omega
    · rename_i e; rw [if_neg e] at ht; omega

theorem fnetOk_new (d : Bytes) (nodes : List Node) : FNetOk d (FNet.new nodes) := by
  intro n x hx
  obtain ⟨y, _, rfl⟩ := List.mem_map.1 (List.mem_of_getElem? hx)
  exact ⟨by simp [State.new], FDInv.new y.cfg d⟩

theorem isum_new (d : Bytes) : ∀ (nodes : List Node) (i : Nat), isum (fun n x => fnodeM d (lost [] d n x) x) i (nodes.map fun n => { n with st := State.new }) =
    (nodes.map fun x => x.workers * (7 + 6 * x.table.length)).sum
  | [], _ => rfl
  | x :: l, i => by
    simp only [List.map_cons, isum, List.sum_cons]
    rw [isum_new d l (i + 1)]
    simp [fnodeM, load, State.new, sumH, sumP, dels, pend, lost]

/-- C126, what does hold, termination: in every network and every schedule the number of steps that deal with `d` is bounded by a number that depends only on the tables, the numbers of workers, the calls of `Push`
and how often caches drop the entries that say that their nodes have `d`. If that happens finitely often, a flood ends. -/
theorem C126_terminates_partial (nodes : List Node) (d : Bytes) (hd : d.length < 65500) (as : List FNAction) (s : FNet) (h : runs fnstep (FNet.new nodes) as = some s) :
    fstepsAbout d (FNet.new nodes) as ≤ (nodes.map fun x => x.workers * (7 + 6 * x.table.length)).sum + dropCost nodes d as := by
  have := fsteps_bound hd nodes as _ s (fnetOk_new d nodes) (same_new nodes) h
  have e : ftotal d (FNet.new nodes) = (nodes.map fun x => x.workers * (7 + 6 * x.table.length)).sum := by
    unfold ftotal FNet.new Net.new
    simp only
    rw [isum_new]
    simp [inFlight]
  omega

/-! ## Coverage -/

/-- the same but for the caches, which have at least the same entries -/
structure LessN (s g : Net) : Prop where
  flight : g.flight = s.flight
  pushed : g.pushed = s.pushed
  len : g.nodes.length = s.nodes.length
  nodes : ∀ (n : Nat) (x : Node), s.nodes[n]? = some x → ∃ t, g.nodes[n]? = some { x with st := t } ∧ Less x.st t

/-- one of the nodes finds an entry missing although it is there -/
def MissN (g g' : Net) : Prop := ∃ (n : Nat) (x : Node) (a : Action) (t : State), g.nodes[n]? = some x ∧ Miss x.st a t ∧ g' = { g with nodes := g.nodes.set n { x with st := t } }

theorem LessN.set {s g : Net} (h : LessN s g) {n : Nat} {x : Node} {t u : State} (hl : Less t u) {l : List Msg} {p : List (Nat × Bytes)} :
    LessN ⟨s.nodes.set n { x with st := t }, l, p⟩ ⟨g.nodes.set n { x with st := u }, l, p⟩ := by
  refine ⟨rfl, rfl, by simp [h.len], fun m y hy => ?_⟩
  simp only at hy ⊢
  rw [List.getElem?_set] at hy ⊢
  split at hy
  · rename_i e
    subst e
    rw [if_pos rfl, h.len]
    split at hy
    · rename_i hlt
      cases hy
      rw [if_pos hlt]
      exact ⟨u, rfl, hl⟩
    · cases hy
  · rename_i e
    rw [if_neg e]
    exact h.nodes m y hy

theorem LessN.step {s s' g : Net} {a : NAction} (h : LessN s g) (hs : nstep s a = some s') : ∃ g', (nstep g a = some g' ∨ MissN g g') ∧ LessN s' g' := by
  cases a with
  | node n a =>
    simp only [nstep] at hs
    split at hs
    · cases hs
    · rename_i x hx
      split at hs
      · rename_i hal
        split at hs
        · cases hs
        · rename_i t ht
          cases hs
          obtain ⟨u, hu, hl⟩ := h.nodes n x hx
          obtain ⟨u', hstep, hl'⟩ := hl.step ht
          rcases hstep with hstep | hmiss
          · refine ⟨_, Or.inl ?_, h.set (x := x) hl'⟩
            have hal' : allowed { x with st := u } a = true := hal
            have hstep' : Gossip.step (Node.cfg { x with st := u }) u a = some u' := hstep
            simp only [nstep, hu, hal', if_true, hstep', hl.sent, hl'.sent, h.flight, h.pushed]
          · have hsent : t.sent = x.st.sent := by
              rw [← hl'.sent, ← hl.sent]
              rcases hmiss with ⟨_, _, _, _, _, rfl⟩ | ⟨_, _, _, _, _, _, _, _, rfl⟩ <;> rfl
            refine ⟨_, Or.inr ⟨n, _, a, u', hu, hmiss, rfl⟩, ?_⟩
            have := h.set (n := n) (x := x) (l := s.flight) (p := s.pushed) hl'
            rw [hsent, List.drop_length, List.map_nil, List.append_nil]
            rw [show g = ⟨g.nodes, s.flight, s.pushed⟩ by rw [← h.flight, ← h.pushed]]
            rcases hmiss with ⟨_, _, ha, _⟩ | ⟨_, _, _, _, ha, _⟩ <;> (subst ha; exact this)
      · cases hs
  | deliver i n =>
    simp only [nstep] at hs
    split at hs
    · rename_i m x hm hx
      split at hs
      · rename_i hto
        split at hs
        · cases hs
        · rename_i t ht
          cases hs
          obtain ⟨u, hu, hl⟩ := h.nodes n x hx
          obtain ⟨u', hstep, hl'⟩ := hl.step ht
          rcases hstep with hstep | hmiss
          · refine ⟨⟨g.nodes.set n { x with st := u' }, s.flight.eraseIdx i, s.pushed⟩, Or.inl ?_, h.set (x := x) hl'⟩
            have hstep' : Gossip.step (Node.cfg { x with st := u }) u (.receive m.sender m.data) = some u' := hstep
            simp only [nstep, h.flight, hm, hu, hto, if_true, hstep', h.pushed]
          · rcases hmiss with ⟨_, _, h, _⟩ | ⟨_, _, _, _, h, _⟩ <;> cases h
      · cases hs
    · cases hs

theorem LessN.drop {s : FNet} {s' : FNet} {g : Net} {n : Nat} {key : Bytes} (h : LessN s.net g) (hs : fnstep s (.drop n key) = some s') : LessN s'.net g := by
  simp only [fnstep] at hs
  split at hs
  · rename_i x hx
    split at hs
    · cases hs
      refine ⟨h.flight, h.pushed, by simp [h.len], fun m y hy => ?_⟩
      simp only at hy
      rw [List.getElem?_set] at hy
      split at hy
      · rename_i e
        subst e
        split at hy
        · cases hy
          obtain ⟨t, h1, h2⟩ := h.nodes n x hx
          exact ⟨t, h1, h2.handlers, h2.pushes, h2.delivered, h2.sent, fun k hk => h2.cache k (mem_cacheDrop.1 hk).1⟩
        · cases hy
      · exact h.nodes m y hy
    · cases hs
  · cases hs

theorem PushedInv.miss {d : Bytes} {g g' : Net} (h : PushedInv d g) (hm : MissN g g') : PushedInv d g' := by
  obtain ⟨n, x, a, t, hx, hmiss, rfl⟩ := hm
  intro m hm
  obtain ⟨y, hy, hyh⟩ := h m hm
  simp only
  rw [List.getElem?_set]
  by_cases e : n = m
  · subst e
    rw [hx] at hy
    cases hy
    rw [if_pos rfl, if_pos (List.getElem?_eq_some_iff.1 hx).1]
    refine ⟨_, rfl, ?_⟩
    rcases hmiss with ⟨i, g, rfl, hg, hpc, rfl⟩ | ⟨k, j, p, g, rfl, hp, hg, hpc, rfl⟩
    · exact hyh
    · rcases hyh with hyh | ⟨q, hq, hqd, hqm⟩
      · exact Or.inl hyh
      · rcases mem_set_cases (y := { p with gors := p.gors.set j { g with pc := .send } }) hp hq with rfl | hq
        · exact Or.inr ⟨_, Iter.mem_set_self hp, hqd, hqm⟩
        · exact Or.inr ⟨q, hq, hqd, hqm⟩
  · exact ⟨y, by rw [if_neg e]; exact hy, hyh⟩

theorem Gossip.GotN.miss {d : Bytes} {g g' : Net} (h : GotN d g) (hm : MissN g g') : GotN d g' := by
  obtain ⟨n, x, a, t, hx, hmiss, rfl⟩ := hm
  intro m y hy
  simp only at hy
  rw [List.getElem?_set] at hy
  split at hy
  · rename_i e
    subst e
    split at hy
    · cases hy
      exact (h n x hx).miss hmiss
    · cases hy
  · exact h m y hy

theorem SameTables.miss {g g' : Net} (hm : MissN g g') : SameTables g'.nodes g.nodes := by
  obtain ⟨n, x, a, t, hx, hmiss, rfl⟩ := hm
  unfold SameTables
  simp only
  rw [List.map_set]
  apply List.ext_getElem?
  intro i
  rw [List.getElem?_set]
  split
  · rename_i e; subst e
    have := List.getElem?_eq_some_iff.1 hx
    simp [this.1, this.2]
  · rfl

/-- C126, what does hold, coverage: whatever the caches drop and when, nobody is left out: when nothing to do with `d` is going on any more, every node reachable through tables from a node that pushed it has pushed
it itself or been told about it at least once. -/
theorem C126_covers_partial (nodes : List Node) (hp : Proper nodes) (d : Bytes) (hd : d.length < 65500) (s : FNet) (h : ReachFrom fnstep (FNet.new nodes) s) (hq : Quiet d s.net)
    (n : Nat) (x0 : Node) (hx0 : nodes[n]? = some x0) (hpush : (n, d) ∈ s.net.pushed) (k : PublicKey) (hl : Linked (tables nodes) x0.id.id k) :
    ∃ (m : Nat) (x : Node), s.net.nodes[m]? = some x ∧ x.id.id = k ∧ ((m, d) ∈ s.net.pushed ∨ 1 ≤ times x.st.delivered d) := by
  have hinv := h.inv (P := fun s => ∃ g, LessN s.net g ∧ Cov d g ∧ GotN d g ∧ PushedInv d g ∧ SameTables g.nodes nodes) (fun s a s' => ?_)
    ⟨Net.new nodes, ⟨rfl, rfl, rfl, fun n x hx => ⟨x.st, hx, rfl, rfl, rfl, rfl, fun _ h => h⟩⟩, cov_new hp.keys d, gotN_new d nodes, by intro n hn; simp [Net.new] at hn, same_new nodes⟩
  · obtain ⟨g, hless, hcov, hgot, hpi, hsame⟩ := hinv
    have hback : ∀ (m : Nat) (y : Node), g.nodes[m]? = some y → ∃ x, s.net.nodes[m]? = some x ∧ ∃ t, y = { x with st := t } ∧ Less x.st t := by
      intro m y hy
      have hlt := (List.getElem?_eq_some_iff.1 hy).1
      rw [hless.len] at hlt
      obtain ⟨t, h1, h2⟩ := hless.nodes m _ (List.getElem?_eq_some_iff.2 ⟨hlt, rfl⟩)
      rw [hy] at h1
      exact ⟨_, List.getElem?_eq_some_iff.2 ⟨hlt, rfl⟩, t, Option.some.inj h1, h2⟩
    have hqg : Quiet d g := by
      refine ⟨by rw [hless.flight]; exact hq.1, fun y hy => ?_⟩
      obtain ⟨m, hm⟩ := List.mem_iff_getElem?.1 hy
      obtain ⟨x, hx, t, rfl, hlt⟩ := hback m y hm
      have := hq.2 x (List.mem_of_getElem? hx)
      simp only [hlt.handlers, hlt.pushes]
      exact this
    obtain ⟨m, y, hm, hyk, h1⟩ := covers_of hcov hgot hpi hsame hqg hx0 (by rw [hless.pushed]; exact hpush) hl
    obtain ⟨x, hx, t, rfl, hlt⟩ := hback m y hm
    refine ⟨m, x, hx, hyk, ?_⟩
    rw [← hless.pushed, ← hlt.delivered]
    exact h1
  · rintro ⟨g, hless, hcov, hgot, hpi, hsame⟩ hs
    cases a with
    | drop n key => exact ⟨g, hless.drop hs, hcov, hgot, hpi, hsame⟩
    | act a =>
      simp only [fnstep, Option.map_eq_some_iff] at hs
      obtain ⟨t, hs, rfl⟩ := hs
      obtain ⟨g', hg', hl'⟩ := hless.step hs
      rcases hg' with hg' | hg'
      · exact ⟨g', hl', hcov.step hd hg', hgot.step hcov hg', hpi.step hd hg', (SameTables.step hg').trans hsame⟩
      · refine ⟨g', hl', ?_, hgot.miss hg', hpi.miss hg', (SameTables.miss hg').trans hsame⟩
        obtain ⟨n, x, a, t, hx, hmiss, rfl⟩ := hg'
        exact hcov.miss hx hmiss rfl rfl

/-! ## A flood that does not end

Three nodes in a ring, each with the next one (and itself) in its table. The first pushes; each time before the message comes round again, the caches have dropped their entries about it. -/

def ringNode (i j : UInt8) (H : List Handler) (P : List Pushing) (D Se : List (ID × Bytes)) : Node := ⟨gid i, [gid i, gid j], 1, 1, ⟨[], H, P, D, Se⟩⟩

def ring : List Node := [⟨gid 0, [gid 0, gid 1], 1, 1, State.new⟩, ⟨gid 1, [gid 1, gid 2], 1, 1, State.new⟩, ⟨gid 2, [gid 2, gid 0], 1, 1, State.new⟩]

theorem cacheSet_small {cache : List Bytes} {k : PublicKey} {d : Bytes} (hd : d.length < 65500) : cacheSet cache (hash k d) = hash k d :: cache := by
  unfold cacheSet
  rw [if_pos]
  rw [hash_length]; omega

theorem hash_eq_iff (k k' : PublicKey) (d : Bytes) : hash k d = hash k' d ↔ k = k' := ⟨fun h => (hash_inj h).1, fun h => by rw [h]⟩

/-- the actions of node `n`, which takes the message from `h` and sends it to `j`, and whose cache then drops its entries -/
def hop (n : Nat) (h i j : UInt8) (d : Bytes) (a b : Nat) : List FNAction :=
  [.act (.deliver 0 n), .act (.node n (.handler a)), .act (.node n (.handler a)), .act (.node n (.handler a)), .act (.node n (.callback a true)), .act (.node n (.handler a)),
    .act (.node n (.pushing b [gid i, gid j])), .act (.node n (.pushing b [gid i, gid j])), .act (.node n (.gor b 0)), .act (.node n (.gor b 1)), .act (.node n (.sent b 1 true)),
    .act (.node n (.gor b 1)), .act (.node n (.pushing b [gid i, gid j])), .act (.node n (.handler a)), .drop n (hash (gk h) d), .drop n (hash (gk i) d), .drop n (hash (gk j) d)]

theorem hop_one (d : Bytes) (hd : d.length < 65500) (A C : Node) (H : List Handler) (P : List Pushing) (D Se : List (ID × Bytes)) (U X : List (Nat × Bytes)) (hH : running H = 0) (hP : runningPushes P = 0) :
    runs fnstep ⟨⟨[A, ringNode 1 2 H P D Se, C], [⟨gid 0, gk 1, d⟩], U⟩, X⟩ (hop 1 0 1 2 d H.length P.length) =
      some ⟨⟨[A, ringNode 1 2 (H ++ [⟨gid 0, d, .done⟩]) (P ++ [⟨d, .done, [⟨gid 1, .done⟩, ⟨gid 2, .done⟩]⟩]) (D ++ [(gid 0, d)]) (Se ++ [(gid 2, d)]), C], [⟨gid 1, gk 2, d⟩], U⟩,
        X ++ [(1, hash (gk 0) d), (1, hash (gk 1) d), (1, hash (gk 2) d)]⟩ := by
  have e0 : (gid 0).id = gk 0 := rfl
  have e1 : (gid 1).id = gk 1 := rfl
  have e2 : (gid 2).id = gk 2 := rfl
  have n1 : gk 0 ≠ gk 1 := by decide
  have n2 : gk 1 ≠ gk 2 := by decide
  have n3 : gk 0 ≠ gk 2 := by decide
  simp [hop, runs, fnstep, nstep, step, ringNode, Node.cfg, hH, hP, State.setH, State.setP, cacheSet_small hd, cacheHas, cacheDrop, allowed, e0, e1, e2, hash_eq_iff, n1, n2, n3, n1.symm, n2.symm, n3.symm]

theorem hop_two (d : Bytes) (hd : d.length < 65500) (A B : Node) (H : List Handler) (P : List Pushing) (D Se : List (ID × Bytes)) (U X : List (Nat × Bytes)) (hH : running H = 0) (hP : runningPushes P = 0) :
    runs fnstep ⟨⟨[A, B, ringNode 2 0 H P D Se], [⟨gid 1, gk 2, d⟩], U⟩, X⟩ (hop 2 1 2 0 d H.length P.length) =
      some ⟨⟨[A, B, ringNode 2 0 (H ++ [⟨gid 1, d, .done⟩]) (P ++ [⟨d, .done, [⟨gid 2, .done⟩, ⟨gid 0, .done⟩]⟩]) (D ++ [(gid 1, d)]) (Se ++ [(gid 0, d)])], [⟨gid 2, gk 0, d⟩], U⟩,
        X ++ [(2, hash (gk 1) d), (2, hash (gk 2) d), (2, hash (gk 0) d)]⟩ := by
  have e0 : (gid 0).id = gk 0 := rfl
  have e1 : (gid 1).id = gk 1 := rfl
  have e2 : (gid 2).id = gk 2 := rfl
  have n1 : gk 0 ≠ gk 1 := by decide
  have n2 : gk 1 ≠ gk 2 := by decide
  have n3 : gk 0 ≠ gk 2 := by decide
  simp [hop, runs, fnstep, nstep, step, ringNode, Node.cfg, hH, hP, State.setH, State.setP, cacheSet_small hd, cacheHas, cacheDrop, allowed, e0, e1, e2, hash_eq_iff, n1, n2, n3, n1.symm, n2.symm, n3.symm]

theorem hop_zero (d : Bytes) (hd : d.length < 65500) (B C : Node) (H : List Handler) (P : List Pushing) (D Se : List (ID × Bytes)) (U X : List (Nat × Bytes)) (hH : running H = 0) (hP : runningPushes P = 0) :
    runs fnstep ⟨⟨[ringNode 0 1 H P D Se, B, C], [⟨gid 2, gk 0, d⟩], U⟩, X⟩ (hop 0 2 0 1 d H.length P.length) =
      some ⟨⟨[ringNode 0 1 (H ++ [⟨gid 2, d, .done⟩]) (P ++ [⟨d, .done, [⟨gid 0, .done⟩, ⟨gid 1, .done⟩]⟩]) (D ++ [(gid 2, d)]) (Se ++ [(gid 1, d)]), B, C], [⟨gid 0, gk 1, d⟩], U⟩,
        X ++ [(0, hash (gk 2) d), (0, hash (gk 0) d), (0, hash (gk 1) d)]⟩ := by
  have e0 : (gid 0).id = gk 0 := rfl
  have e1 : (gid 1).id = gk 1 := rfl
  have e2 : (gid 2).id = gk 2 := rfl
  have n1 : gk 0 ≠ gk 1 := by decide
  have n2 : gk 1 ≠ gk 2 := by decide
  have n3 : gk 0 ≠ gk 2 := by decide
  simp [hop, runs, fnstep, nstep, step, ringNode, Node.cfg, hH, hP, State.setH, State.setP, cacheSet_small hd, cacheHas, cacheDrop, allowed, e0, e1, e2, hash_eq_iff, n1, n2, n3, n1.symm, n2.symm, n3.symm]

/-- C126 is false of floods: with caches that forget a message each time before it comes round again, a single push of data of any size is passed on for ever: for every `k` there is a run with one push in which
every node of the ring has reported it `k` times and it is still in flight. -/
theorem C126_flood_refuted (d : Bytes) (hd : d.length < 65500) (k : Nat) :
    ∃ s, ReachFrom fnstep (FNet.new ring) s ∧ s.net.pushed = [(0, d)] ∧ s.net.flight ≠ [] ∧ s.net.nodes.map (fun x => times x.st.delivered d) = [k, k, k] := by
  suffices h : ∃ (H1 H2 H3 : List Handler) (P1 P2 P3 : List Pushing) (D1 D2 D3 S1 S2 S3 : List (ID × Bytes)) (X : List (Nat × Bytes)),
      (running H1 = 0 ∧ running H2 = 0 ∧ running H3 = 0) ∧ (runningPushes P1 = 0 ∧ runningPushes P2 = 0 ∧ runningPushes P3 = 0) ∧ (times D1 d = k ∧ times D2 d = k ∧ times D3 d = k) ∧
      ReachFrom fnstep (FNet.new ring) ⟨⟨[ringNode 0 1 H1 P1 D1 S1, ringNode 1 2 H2 P2 D2 S2, ringNode 2 0 H3 P3 D3 S3], [⟨gid 0, gk 1, d⟩], [(0, d)]⟩, X⟩ by
    obtain ⟨H1, H2, H3, P1, P2, P3, D1, D2, D3, S1, S2, S3, X, _, _, ⟨h1, h2, h3⟩, h4⟩ := h
    exact ⟨_, h4, rfl, by simp, by simp [ringNode, h1, h2, h3]⟩
  induction k with
  | zero =>
    refine ⟨[], [], [], [⟨d, .done, [⟨gid 0, .done⟩, ⟨gid 1, .done⟩]⟩], [], [], [], [], [], [(gid 1, d)], [], [], [(0, hash (gk 0) d), (0, hash (gk 1) d)], ⟨rfl, rfl, rfl⟩, ⟨rfl, rfl, rfl⟩, ⟨rfl, rfl, rfl⟩,
      [.act (.node 0 (.push d)), .act (.node 0 (.pushing 0 [gid 0, gid 1])), .act (.node 0 (.pushing 0 [gid 0, gid 1])), .act (.node 0 (.gor 0 0)), .act (.node 0 (.gor 0 1)), .act (.node 0 (.sent 0 1 true)),
        .act (.node 0 (.gor 0 1)), .act (.node 0 (.pushing 0 [gid 0, gid 1])), .drop 0 (hash (gk 0) d), .drop 0 (hash (gk 1) d)], ?_⟩
    have e0 : (gid 0).id = gk 0 := rfl
    have e1 : (gid 1).id = gk 1 := rfl
    have n1 : gk 0 ≠ gk 1 := by decide
    have nd : ([gk 0, gk 1]).Nodup := by decide
    simp [runs, fnstep, nstep, step, FNet.new, ring, Net.new, State.new, ringNode, Node.cfg, State.setP, cacheSet_small hd, cacheHas, cacheDrop, allowed, e0, e1, hash_eq_iff, n1, n1.symm, runningPushes]
  | succ k ih =>
    obtain ⟨H1, H2, H3, P1, P2, P3, D1, D2, D3, S1, S2, S3, X, ⟨a1, a2, a3⟩, ⟨b1, b2, b3⟩, ⟨c1, c2, c3⟩, h⟩ := ih
    have h := h.run (hop_one d hd _ _ H2 P2 D2 S2 _ _ a2 b2)
    have h := h.run (hop_two d hd _ _ H3 P3 D3 S3 _ _ a3 b3)
    have h := h.run (hop_zero d hd _ _ H1 P1 D1 S1 _ _ a1 b1)
    refine ⟨_, _, _, _, _, _, _, _, _, _, _, _, _, ⟨?_, ?_, ?_⟩, ⟨?_, ?_, ?_⟩, ⟨?_, ?_, ?_⟩, h⟩
    · rw [running_snoc, a1]; simp
    · rw [running_snoc, a2]; simp
    · rw [running_snoc, a3]; simp
    · rw [runningPushes_snoc, b1]; simp
    · rw [runningPushes_snoc, b2]; simp
    · rw [runningPushes_snoc, b3]; simp
    · rw [times_eq] at c1 ⊢; rw [dels_append, c1]; simp
    · rw [times_eq] at c2 ⊢; rw [dels_append, c2]; simp
    · rw [times_eq] at c3 ⊢; rw [dels_append, c3]; simp

theorem NValid.drop {s s' : FNet} {n : Nat} {key : Bytes} (h : NValid s.net) (hs : fnstep s (.drop n key) = some s') : NValid s'.net := by
  simp only [fnstep] at hs
  split at hs
  · rename_i x hx
    split at hs
    · cases hs
      have hxm := List.mem_of_getElem? hx
      have hk := keys_step (s' := ⟨s.net.nodes.set n { x with st := { x.st with cache := cacheDrop x.st.cache key } }, s.net.flight, s.net.pushed⟩) hx rfl
      have old : ∀ y ∈ s.net.nodes.set n { x with st := { x.st with cache := cacheDrop x.st.cache key } }, y ∈ s.net.nodes ∨ y = { x with st := { x.st with cache := cacheDrop x.st.cache key } } :=
        fun y hy => List.mem_or_eq_of_mem_set hy
      refine ⟨⟨?_, ?_, ?_, ?_⟩, ?_, ?_⟩
      · have := h.proper.keys
        unfold Net.keys at hk
        rw [hk]; exact this
      · intro y hy
        rcases old y hy with hy | rfl
        · exact h.proper.table y hy
        · exact h.proper.table x hxm
      · unfold Net.keys at hk
        rw [hk]
        intro y hy
        rcases old y hy with hy | rfl
        · exact h.proper.closed y hy
        · exact h.proper.closed x hxm
      · intro y hy
        rcases old y hy with hy | rfl
        · exact h.proper.workers y hy
        · exact h.proper.workers x hxm
      · intro y hy
        rcases old y hy with hy | rfl
        · exact h.valid y hy
        · exact ⟨(h.valid x hxm).wf, (h.valid x hxm).ptr, (h.valid x hxm).peer⟩
      · intro m hm
        rw [hk]
        exact h.dest m hm
    · cases hs
  · cases hs

/-- C126, no deadlock: as long as a message is in flight or a handler or push is not finished, some node can make a step, without a new push, whatever the caches have dropped. -/
theorem C126_progress_partial (nodes : List Node) (hp : Proper nodes) (s : FNet) (h : ReachFrom fnstep (FNet.new nodes) s)
    (ha : s.net.flight ≠ [] ∨ ∃ x ∈ s.net.nodes, (∃ e ∈ x.st.handlers, e.pc ≠ .done) ∨ ∃ p ∈ x.st.pushes, p.pc ≠ .done) :
    ∃ a s', fnstep s (.act a) = some s' ∧ ∀ n d, a ≠ .node n (.push d) := by
  have hv := h.inv (P := fun s => NValid s.net) (fun s a s' hv hs => by
    cases a with
    | drop n key => exact NValid.drop hv hs
    | act a =>
      simp only [fnstep, Option.map_eq_some_iff] at hs
      obtain ⟨t, hs, rfl⟩ := hs
      exact hv.step hs) (valid_new hp)
  obtain ⟨a, t, h1, h2⟩ := net_progress hv ha
  exact ⟨a, { s with net := t }, by simp only [fnstep, h1, Option.map_some], h2⟩

/-- The ring meets the hypotheses of the theorems about networks. -/
example : Proper ring ∧ Linked (tables ring) (gk 0) (gk 2) := by
  refine ⟨⟨by decide +kernel, by decide +kernel, by decide +kernel, by decide +kernel⟩, ?_⟩
  refine Linked.step (k := gk 1) (t := [gk 1, gk 2]) (Linked.step (t := [gk 0, gk 1]) Linked.refl ?_ ?_) ?_ ?_ <;> decide +kernel

/-- A run of the network of C65 with a dropped entry, after which nothing is going on. -/
example : ∃ s, ReachFrom fnstep (FNet.new line) s ∧ (0, [7]) ∈ s.net.pushed ∧ Quiet [7] s.net ∧ s.dropped = [(1, hash (gk 1) [7])] := by
  have hr : (runs fnstep (FNet.new line) ((([.node 0 (.push [7]), .node 0 (.pushing 0 [gid 0, gid 1]), .node 0 (.pushing 0 [gid 0, gid 1]), .node 0 (.gor 0 0), .node 0 (.gor 0 1), .node 0 (.sent 0 1 true), .node 0 (.gor 0 1),
          .node 0 (.pushing 0 [gid 0, gid 1]), .deliver 0 1, .node 1 (.handler 0), .node 1 (.handler 0), .node 1 (.handler 0), .node 1 (.callback 0 true), .node 1 (.handler 0),
          .node 1 (.pushing 0 [gid 1, gid 2]), .node 1 (.pushing 0 [gid 1, gid 2]), .node 1 (.gor 0 0), .node 1 (.gor 0 1), .node 1 (.sent 0 1 true), .node 1 (.gor 0 1),
          .node 1 (.pushing 0 [gid 1, gid 2]), .node 1 (.handler 0), .deliver 0 2, .node 2 (.handler 0), .node 2 (.handler 0), .node 2 (.handler 0), .node 2 (.callback 0 true),
          .node 2 (.handler 0), .node 2 (.pushing 0 [gid 2]), .node 2 (.pushing 0 [gid 2]), .node 2 (.gor 0 0), .node 2 (.pushing 0 [gid 2]), .node 2 (.handler 0)] : List NAction).map FNAction.act) ++ [.drop 1 (hash (gk 1) [7])])).map
      (fun s => decide (s.net.pushed = [(0, [7])] ∧ s.net.flight = [] ∧ (∀ x ∈ s.net.nodes, (∀ h ∈ x.st.handlers, h.pc = .done) ∧ ∀ p ∈ x.st.pushes, p.pc = .done) ∧
        s.dropped = [(1, hash (gk 1) [7])])) = some true := by decide +kernel
  obtain ⟨s, h1, h2⟩ := Option.map_eq_some_iff.1 hr
  simp only [decide_eq_true_eq] at h2
  obtain ⟨e1, e2, e3, e4⟩ := h2
  exact ⟨s, ⟨_, h1⟩, by rw [e1]; simp, ⟨by rw [e2]; simp, fun x hx => ⟨fun h hh _ => (e3 x hx).1 h hh, fun p hp _ => (e3 x hx).2 p hp⟩⟩, e4⟩

end Noise
