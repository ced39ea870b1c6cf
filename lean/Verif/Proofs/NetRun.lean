import Verif.Proofs.NetLive
/-! # Fair executions of a network: a connection on which nothing fails -/
namespace Noise.Wk
open Spec
variable {ε : Type} {N H : Nat} {w : Nat → State ε} {γ : Nat → Option (Action ε)}

theorem work_rn (f : Nat → Nat) (s : State ε) (i : Nat) : (step (s.rn f) (.work i)).isSome = (step s (.work i)).isSome := by
  simp only [step, State.rn, List.length_map, List.getElem?_map]
  cases s.workers[i]? with
  | none => rfl
  | some p =>
    cases p with
    | idle => by_cases h1 : s.head < s.items.length <;> by_cases h2 : s.queueClosed = true <;> simp [h1, h2]
    | next k h => by_cases h1 : h < s.numHandlers <;> simp [h1]
    | failing k e => simp only; cases s.items[k]? <;> rfl
    | closing k => simp only; cases s.items[k]? <;> rfl
    | _ => rfl

theorem return_rn (f : Nat → Nat) (s : State ε) (i : Nat) (x : Option ε) : (step (s.rn f) (.handlerReturn i x)).isSome = (step s (.handlerReturn i x)).isSome := by
  simp only [step, State.rn]
  cases s.workers[i]? with
  | none => rfl
  | some p => cases p <;> cases x <;> rfl

theorem calm_rn (f : Nat → Nat) (a : Action ε) : (a.rn f).calm = a.calm := by cases a <;> rfl

theorem Run.rn (r : Run N H w γ) (f : Nat → Nat) : Run N H (fun t => (w t).rn f) (fun t => (γ t).map (Action.rn f)) where
  init := by show (w 0).rn f = _; rw [r.init]; rfl
  step := by
    intro t
    rcases r.step t with ⟨h1, h2⟩ | ⟨a, h1, h2, h3⟩
    · left; simp only [h1, h2, Option.map_none]; exact ⟨trivial, trivial⟩
    · right; exact ⟨a.rn f, by rw [h1]; rfl, by rw [calm_rn]; exact h2, step_rn h3⟩
  fair := by
    intro i t
    obtain ⟨t', h1, h2⟩ := r.fair i t
    refine ⟨t', h1, ?_⟩
    rcases h2 with (h | h) | h
    · left; left; rw [h]; rfl
    · left; right; rw [h]; rfl
    · right; rw [work_rn, return_rn]; exact h

/-- Before `Listen` the workers do nothing. -/
theorem new_stuck (i : Nat) : ¬ ((step (State.new N H : State ε) (.work i)).isSome = true ∨ (step (State.new N H : State ε) (.handlerReturn i none)).isSome = true) := by
  have : ∀ p, (State.new N H : State ε).workers[i]? = some p → p = .idle := by
    intro p hp
    simp only [State.new] at hp
    obtain ⟨hlt, e⟩ := List.getElem?_eq_some_iff.1 hp
    rw [List.getElem_replicate] at e
    exact e.symm
  simp only [step]
  cases h : (State.new N H : State ε).workers[i]? with
  | none => simp
  | some p =>
    rw [this p h]
    simp [State.new]

end Noise.Wk

namespace Noise.Net
open Spec
variable {ε : Type} {cfg : Nat → Node.Cfg ε} {n : Nat} {σ : Nat → State ε} {α : Nat → Option (Action ε)} {o i : End}

theorem step_len {s s' : State ε} {a : Action ε} (h : step cfg s a = some s') : s'.nodes.length = s.nodes.length := by
  have hle : s.nodes.length ≤ s'.nodes.length := by
    by_cases h0 : s.nodes.length = 0
    · omega
    · obtain ⟨X', h1, _⟩ := node_step h (n := s.nodes.length - 1) (List.getElem?_eq_getElem (by omega))
      have := (List.getElem?_eq_some_iff.1 h1).1
      omega
  refine Nat.le_antisymm ?_ hle
  cases a with
  | node m act =>
    simp only [step] at h
    repeat' split at h
    all_goals first
      | (cases h; done)
      | (obtain ⟨x, hx, rfl⟩ := Option.map_eq_some_iff.1 h; simp [State.setNode])
  | _ =>
    simp only [step] at h
    repeat' split at h
    all_goals first
      | (cases h; done)
      | (cases h; exact Nat.le_refl _)

theorem FairRun.reach (r : FairRun cfg n σ α) (t : Nat) : Reachable cfg n (σ t) := by
  have := Fair.reach r.exec t
  rwa [r.init] at this

theorem FairRun.inv (r : FairRun cfg n σ α) (t : Nat) : Inv cfg (σ t) := .reach (r.reach t)

theorem FairRun.len (r : FairRun cfg n σ α) (t : Nat) : (σ t).nodes.length = n := by
  induction t with
  | zero => rw [r.init]; simp [State.new]
  | succ t ih =>
    rcases r.exec t with ⟨_, e⟩ | ⟨a, _, e⟩
    · rw [e]; exact ih
    · rw [step_len e]; exact ih

theorem FairRun.has (r : FairRun cfg n σ α) {m : Nat} (hm : m < n) (t : Nat) : ∃ X, (σ t).nodes[m]? = some X := ⟨_, List.getElem?_eq_getElem (by rw [r.len t]; exact hm)⟩

theorem FairRun.at (r : FairRun cfg n σ α) {t m : Nat} {X : Node.State ε} (hX : (σ t).nodes[m]? = some X) :
    ∃ X', (σ (t + 1)).nodes[m]? = some X' ∧ ((X' = X ∧ ∀ act, α t ≠ some (.node m act)) ∨ ∃ act, α t = some (.node m act) ∧ Node.step (cfg m) X act = some X') := by
  rcases r.exec t with ⟨h, e⟩ | ⟨a, h, e⟩
  · exact ⟨X, by rw [e]; exact hX, .inl ⟨rfl, by rw [h]; simp⟩⟩
  · obtain ⟨X', h1, h2⟩ := node_step e hX
    refine ⟨X', h1, ?_⟩
    rcases h2 with ⟨h2, h3⟩ | ⟨act, h2, h3⟩
    · exact .inl ⟨h2, fun act => by rw [h]; simpa using h3 act⟩
    · exact .inr ⟨act, by rw [h, h2], h3⟩

theorem conn_split {s : State ε} {e : End} {x : Node.Conn ε} (h : s.conn e = some x) : ∃ X, s.nodes[e.node]? = some X ∧ X.conns[e.conn]? = some x := Option.bind_eq_some_iff.1 h

theorem conn_join {s : State ε} {e : End} {X : Node.State ε} (h : s.nodes[e.node]? = some X) : s.conn e = X.conns[e.conn]? := conn_at h rfl

theorem FairRun.keep (r : FairRun cfg n σ α) {t : Nat} {e : End} {x : Node.Conn ε} (h : (σ t).conn e = some x) : ∃ x', (σ (t + 1)).conn e = some x' ∧ x'.c.side = x.c.side := by
  obtain ⟨X, h1, h2⟩ := conn_split h
  obtain ⟨X', h3, h4⟩ := r.at h1
  rw [conn_join h3]
  rcases h4 with ⟨rfl, _⟩ | ⟨act, _, h4⟩
  · exact ⟨x, h2, rfl⟩
  · obtain ⟨x', as, h5, h6, _⟩ := Node.step_trace h4 _ x h2
    exact ⟨x', h5, Node.run_side h6⟩

theorem FairRun.keeps (r : FairRun cfg n σ α) {t t' : Nat} (hle : t ≤ t') {e : End} {x : Node.Conn ε} (h : (σ t).conn e = some x) : ∃ x', (σ t').conn e = some x' ∧ x'.c.side = x.c.side := by
  refine Fair.stays (P := fun y => ∃ x', (σ y).conn e = some x' ∧ x'.c.side = x.c.side) ?_ hle ⟨x, h, rfl⟩
  rintro y ⟨x', h1, h2⟩
  obtain ⟨x'', h3, h4⟩ := r.keep h1
  exact ⟨x'', h3, h4.trans h2⟩

theorem FairRun.linked (r : FairRun cfg n σ α) {t t' : Nat} (hle : t ≤ t') (h : Linked (σ t) o i) : Linked (σ t') o i := by
  refine Fair.stays (P := fun y => Linked (σ y) o i) ?_ hle h
  intro y hy
  rcases r.exec y with ⟨_, e⟩ | ⟨a, _, e⟩
  · rw [e]; exact hy
  · exact (wire_step e).1 o i hy

theorem FairRun.foreign (r : FairRun cfg n σ α) {t t' : Nat} (hle : t ≤ t') {e : End} (h : e ∈ (σ t).foreign) : e ∈ (σ t').foreign := by
  refine Fair.stays (P := fun y => e ∈ (σ y).foreign) ?_ hle h
  intro y hy
  rcases r.exec y with ⟨_, e⟩ | ⟨a, _, e⟩
  · rw [e]; exact hy
  · exact (wire_step e).2 _ hy

/-! ### One end -/

/-- What holds at an end of a connection on which nothing fails. -/
structure Calm (cfg : Nat → Node.Cfg ε) (n : Nat) (σ : Nat → State ε) (α : Nat → Option (Action ε)) (e : End) (d : Cl.Side) (t0 : Nat) : Prop where
  run : FairRun cfg n σ α
  exist : e.node < n
  side : ∀ t x, (σ t).conn e = some x → x.c.side = d
  there : ∀ t, t0 ≤ t → ∃ x, (σ t).conn e = some x
  fine : ∀ t x, (σ t).conn e = some x → x.c.err = none ∧ x.c.once = .fresh
  node : ∀ t X, (σ t).nodes[e.node]? = some X → X.crashed = false ∧ ∀ q, X.wk = some q → q.queueClosed = false
  handlers : ∀ t w x, α t ≠ some (.node e.node (.handlerReturn w (some x)))
  listens : ∀ t x X, (σ t).conn e = some x → (σ t).nodes[e.node]? = some X → X.wk ≠ none

variable {e : End} {d : Cl.Side} {t0 : Nat}

/-- What the client does at time `t`. -/
structure EndStep (σ : Nat → State ε) (α : Nat → Option (Action ε)) (e : End) (d : Cl.Side) (t : Nat) (ob : Option (Cl.Action ε)) : Prop where
  step : (ob = none ∧ (σ (t + 1)).cl e d = (σ t).cl e d) ∨ ∃ b, ob = some b ∧ b.calm = true ∧ Cl.step ((σ t).cl e d) b = some ((σ (t + 1)).cl e d)
  act : ∀ X x a, (σ t).nodes[e.node]? = some X → X.conns[e.conn]? = some x → α t = some (.node e.node a) → Node.By X a e.conn ob
  other : (∀ a, α t ≠ some (.node e.node a)) → ob = none

theorem cl_some {s : State ε} {x : Node.Conn ε} (h : s.conn e = some x) : s.cl e d = x.c := by unfold State.cl; rw [h]
theorem cl_none {s : State ε} (h : s.conn e = none) : s.cl e d = Cl.State.new d := by unfold State.cl; rw [h]

theorem Calm.endStep (c : Calm cfg n σ α e d t0) (t : Nat) (hh : Cl.Healthy ((σ t).cl e d)) : ∃ ob, EndStep σ α e d t ob := by
  obtain ⟨X, hX⟩ := c.run.has c.exist t
  obtain ⟨X', hX', hs⟩ := c.run.at hX
  have j := conn_join hX
  have j' := conn_join hX'
  rcases hs with ⟨rfl, hno⟩ | ⟨a, ha, hs⟩
  · refine ⟨none, .inl ⟨rfl, ?_⟩, fun _ _ a _ _ h => absurd h (hno a), fun _ => rfl⟩
    unfold State.cl
    rw [j, j']
  · have hother : ∀ ob : Option (Cl.Action ε), (∀ a, α t ≠ some (.node e.node a)) → ob = none := fun _ h => absurd ha (h a)
    cases hx : X.conns[e.conn]? with
    | none =>
      refine ⟨none, .inl ⟨rfl, ?_⟩, fun Y y b h1 h2 _ => ?_, hother _⟩
      · rw [cl_none (j.trans hx)]
        cases hx' : X'.conns[e.conn]? with
        | none => exact cl_none (j'.trans hx')
        | some y =>
          rw [cl_some (j'.trans hx')]
          obtain ⟨d', hd⟩ := Node.new_exact hs _ y hx' (by simpa using hx)
          have := c.side (t + 1) y (j'.trans hx')
          rw [hd] at this ⊢
          have : d' = d := this
          rw [this]
      · rw [hX] at h1; cases h1
        rw [hx] at h2; cases h2
    | some x =>
      have e1 := cl_some (d := d) (j.trans hx)
      obtain ⟨x', ob, h1, h2, h3, h4⟩ := Node.step_one hs (c.node _ _ hX').1 e.conn x hx (by
        intro hm
        have := hh.main
        rw [e1, hm] at this
        cases this)
      have e2 := cl_some (d := d) (j'.trans h1)
      refine ⟨ob, ?_, fun Y y b g1 g2 g3 => ?_, hother _⟩
      · rw [e1, e2]
        cases ob with
        | none => exact .inl ⟨rfl, h3 rfl⟩
        | some b =>
          obtain ⟨f1, f2⟩ := c.fine (t + 1) x' (j'.trans h1)
          exact .inr ⟨b, rfl, Node.calm_of (h4 b rfl) (c.fine t x (j.trans hx)).2 f1 f2, h4 b rfl⟩
      · rw [hX] at g1; cases g1
        rw [ha] at g3; cases g3
        exact h2

theorem Calm.init (c : Calm cfg n σ α e d t0) : (σ 0).cl e d = Cl.State.new d := by
  rw [c.run.init]
  exact cl_none (conn_new n e)

theorem Calm.healthy (c : Calm cfg n σ α e d t0) (t : Nat) : Cl.Healthy ((σ t).cl e d) := by
  induction t with
  | zero => rw [c.init]; exact .new d
  | succ t ih =>
    obtain ⟨ob, h⟩ := c.endStep t ih
    rcases h.step with ⟨_, h⟩ | ⟨b, _, h1, h2⟩
    · rw [h]; exact ih
    · exact ih.step h1 h2

theorem Calm.acts (c : Calm cfg n σ α e d t0) : ∃ β : Nat → Option (Cl.Action ε), ∀ t, EndStep σ α e d t (β t) := Classical.axiom_of_choice fun t => c.endStep t (c.healthy t)

/-- Its main goroutine does what it can. -/
theorem Calm.main (c : Calm cfg n σ α e d t0) {β : Nat → Option (Cl.Action ε)} (hβ : ∀ t, EndStep σ α e d t (β t)) {avail : Nat → Prop}
    (hav : ∀ t, t0 ≤ t → avail t → Fed (σ t) e ∧ e ∉ (σ t).foreign ∧ ∃ m ws, readWire (σ t) e m (σ t).wires = some ws) (t : Nat) :
    ∃ t', t ≤ t' ∧ ((∃ a, β t' = some a ∧ a.ofMain = true) ∨ ¬ Link.CanMain ((σ t').cl e d) (avail t')) := by
  obtain ⟨t', h1, h2⟩ := c.run.runs (.main e) (max t t0)
  refine ⟨t', by omega, ?_⟩
  obtain ⟨x, hx⟩ := c.there t' (by omega)
  obtain ⟨X, hX, hx'⟩ := conn_split hx
  rcases h2 with ⟨a, h3, act, rfl, h4⟩ | h2
  · left
    have := (hβ t').act X x _ hX hx' h3
    simp only [Node.By, if_true] at this
    exact ⟨act, this, h4⟩
  · right
    intro hcan
    apply h2
    have hm : x.c.main ≠ .remove := by
      intro hm
      have := (c.healthy t').main
      rw [cl_some hx, hm] at this
      cases this
    have hcr := (c.node t' X hX).1
    rw [cl_some hx] at hcan
    -- it does not read, or there is something to read
    have key : ∀ (m : Message), (x.c.main = .recv → avail t' ∧ ∃ ws, readWire (σ t') e m (σ t').wires = some ws) → Able (step cfg) (fun a => (Proc.main e).acts a ∧ sure (σ t') a) (σ t') := by
      intro m hm'
      obtain ⟨act, o1, o2, o3⟩ := Link.able_main (m := m) hcan
      have hn := Node.conn_able (cfg := cfg e.node) hcr hx' hm (.inl o1) o2
      obtain ⟨Y, hY⟩ := Option.isSome_iff_exists.1 hn
      refine ⟨.node e.node (.conn e.conn act), ⟨⟨act, rfl, o1⟩, ?_⟩, ?_⟩
      · intro n' j' m' he
        simp only [Action.node.injEq, Node.Action.conn.injEq] at he
        obtain ⟨rfl, rfl, rfl⟩ := he
        rcases o3 with o3 | ⟨o3, _⟩
        · exact absurd rfl (o3 m')
        · exact (hav t' (by omega) (hm' o3).1).1
      · rcases o3 with o3 | ⟨o3, rfl⟩
        · simp only [step, hX]
          split
          · next h => simp only [Node.Action.conn.injEq] at h; exact absurd h.2 (o3 _)
          · rw [hY]; rfl
        · obtain ⟨g1, ws, g2⟩ := hm' o3
          have g3 := (hav t' (by omega) g1).2.1
          have g3 : (σ t').foreign.contains (⟨e.node, e.conn⟩ : End) = false := by simpa using g3
          simp only [step, hX, g3, g2, hY]
          rfl
    by_cases hr : x.c.main = .recv
    · have ha : avail t' := by
        rcases hcan with ⟨m, h⟩ | ⟨_, h, _⟩ | h | ⟨_, _, h⟩
        · rw [hr] at h; cases h
        · rw [hr] at h; cases h
        · rw [hr] at h; cases h
        · exact h
      obtain ⟨_, _, m, ws, hws⟩ := hav t' (by omega) ha
      exact key m fun _ => ⟨ha, ws, hws⟩
    · exact key ⟨0, []⟩ fun h => absurd h hr

/-- The network delivers. -/
theorem Calm.net (c : Calm cfg n σ α e d t0) {β : Nat → Option (Cl.Action ε)} (hβ : ∀ t, EndStep σ α e d t (β t)) {avail : Nat → Prop}
    (hw : ∀ t, t0 ≤ t → Wired (σ t) e) (hav : ∀ t, t0 ≤ t → avail t → Fed (σ t) e) (t : Nat) :
    ∃ t', t ≤ t' ∧ (β t' = some .arrive ∨ ¬ (((σ t').cl e d).conn = .open ∧ Cl.needsFrame ((σ t').cl e d) = true ∧ (((σ t').cl e d).main = .hs ∨ avail t'))) := by
  obtain ⟨t', h1, h2⟩ := c.run.net e (max t t0)
  refine ⟨t', by omega, ?_⟩
  obtain ⟨x, hx⟩ := c.there t' (by omega)
  obtain ⟨X, hX, hx'⟩ := conn_split hx
  rcases h2 with ⟨a, h3, rfl⟩ | h2
  · left
    have := (hβ t').act X x _ hX hx' h3
    simpa only [Node.By, if_true] using this
  · right
    rw [cl_some hx]
    rintro ⟨q1, q2, q3⟩
    refine h2 ⟨x, hx, q1, ?_, ?_⟩
    · unfold Cl.needsFrame at q2
      split at q2 <;> simp_all
    · rcases q3 with q3 | q3
      · exact .inl ⟨q3, hw t' (by omega)⟩
      · exact .inr (hav t' (by omega) q3)

theorem Calm.writer (c : Calm cfg n σ α e d t0) {β : Nat → Option (Cl.Action ε)} (hβ : ∀ t, EndStep σ α e d t (β t)) (t : Nat) :
    ∃ t', t ≤ t' ∧ (β t' = some .writer ∨ ¬ (Cl.step ((σ t').cl e d) .writer).isSome = true) := by
  obtain ⟨t', h1, h2⟩ := c.run.runs (.writer e) (max t t0)
  refine ⟨t', by omega, ?_⟩
  obtain ⟨x, hx⟩ := c.there t' (by omega)
  obtain ⟨X, hX, hx'⟩ := conn_split hx
  rcases h2 with ⟨a, h3, rfl⟩ | h2
  · left
    have := (hβ t').act X x _ hX hx' h3
    simpa only [Node.By, if_true] using this
  · right
    intro hs
    apply h2
    have hm : x.c.main ≠ .remove := by
      intro hm
      have := (c.healthy t').main
      rw [cl_some hx, hm] at this
      cases this
    rw [cl_some hx] at hs
    obtain ⟨Y, hY⟩ := Option.isSome_iff_exists.1 (Node.conn_able (cfg := cfg e.node) (c.node t' X hX).1 hx' hm (.inr (.inr rfl)) hs)
    refine ⟨.node e.node (.conn e.conn .writer), ⟨rfl, ?_⟩, ?_⟩
    · intro _ _ _ h; simp at h
    · simp only [step, hX, hY]; rfl

/-! ### The workers -/

/-- What the workers of node `m` do at time `t`. -/
structure WkStep (cfg : Nat → Node.Cfg ε) (σ : Nat → State ε) (α : Nat → Option (Action ε)) (m t : Nat) (ob : Option (Wk.Action ε)) : Prop where
  step : (ob = none ∧ (σ (t + 1)).wkOf cfg m = (σ t).wkOf cfg m) ∨ ∃ b, ob = some b ∧ b.calm = true ∧ Wk.step ((σ t).wkOf cfg m) b = some ((σ (t + 1)).wkOf cfg m)
  work : ∀ w, α t = some (.node m (.work w)) → ob = some (.work w)
  ret : ∀ w r, α t = some (.node m (.handlerReturn w r)) ↔ ob = some (.handlerReturn w r)

theorem Calm.inv (c : Calm cfg n σ α e d t0) (t : Nat) : Wk.Inv (cfg e.node).numWorkers (cfg e.node).numHandlers ((σ t).wkOf cfg e.node) := by
  obtain ⟨X, hX⟩ := c.run.has c.exist t
  rw [wkOf_at hX]
  cases hq : X.wk with
  | none => exact .new _ _
  | some q => exact .reach ((Node.Stage.reach ((c.run.inv t).nodes _ _ hX)).workers q hq)

theorem Calm.wkStep (c : Calm cfg n σ α e d t0) (t : Nat) (hf : Wk.Fine (cfg e.node).numWorkers ((σ t).wkOf cfg e.node)) : ∃ ob, WkStep cfg σ α e.node t ob := by
  obtain ⟨X, hX⟩ := c.run.has c.exist t
  obtain ⟨X', hX', hs⟩ := c.run.at hX
  have j := wkOf_at (cfg := cfg) hX
  have j' := wkOf_at (cfg := cfg) hX'
  rcases hs with ⟨rfl, hno⟩ | ⟨a, ha, hs⟩
  · exact ⟨none, .inl ⟨rfl, by rw [j, j']⟩, fun w h => absurd h (hno _), fun w x => ⟨fun h => absurd h (hno _), by simp⟩⟩
  · by_cases hwork : ∃ w, a = .work w
    · obtain ⟨w, rfl⟩ := hwork
      obtain ⟨q, q', h1, h2, h3⟩ := Node.work_wk hs (by
        intro q p hq hp
        rw [j, hq] at hf
        exact hf.fine w p hp)
      refine ⟨some (.work w), .inr ⟨_, rfl, rfl, by rw [j, j', h1, h2]; exact h3⟩, ?_, ?_⟩
      · intro w' h; rw [ha] at h; simp at h; rw [h]
      · intro w' x; rw [ha]; simp
    · by_cases hret : ∃ w x, a = .handlerReturn w x
      · obtain ⟨w, x, rfl⟩ := hret
        obtain ⟨q, q', h1, h2, h3⟩ := Node.return_wk hs
        refine ⟨some (.handlerReturn w x), .inr ⟨_, rfl, ?_, by rw [j, j', h1, h2]; exact h3⟩, ?_, ?_⟩
        · cases x with
          | none => rfl
          | some x => exact absurd ha (c.handlers t w x)
        · intro w' h; rw [ha] at h; simp at h
        · intro w' x'; rw [ha]; simp
      · have nw : ∀ w, α t ≠ some (.node e.node (.work w)) := by
          intro w h; rw [ha] at h; simp at h; exact hwork ⟨w, h⟩
        have nr : ∀ w x, α t ≠ some (.node e.node (.handlerReturn w x)) := by
          intro w x h; rw [ha] at h; simp at h; exact hret ⟨w, x, h⟩
        rcases Node.step_wkBy hs with h1 | ⟨g, h1⟩ | ⟨w, w1, act, h1, h2, h3, h4⟩
        · exact ⟨none, .inl ⟨rfl, by rw [j, j', h1]⟩, fun w h => absurd h (nw w), fun w x => ⟨fun h => absurd h (nr w x), by simp⟩⟩
        · refine ⟨none, .inl ⟨rfl, ?_⟩, fun w h => absurd h (nw w), fun w x => ⟨fun h => absurd h (nr w x), by simp⟩⟩
          rw [j, j', h1, (Node.Stage.reach ((c.run.inv t).nodes _ _ hX)).init.1 g]
          rfl
        · refine ⟨some act, .inr ⟨act, rfl, ?_, by rw [j, j', h1, h2]; exact h3⟩, fun w h => absurd h (nw w), fun w x => ⟨fun h => absurd h (nr w x), ?_⟩⟩
          · cases act with
            | closeQueue =>
              exfalso
              have := (c.node (t + 1) X' hX').2 w1 h2
              simp only [Wk.step] at h3
              split at h3
              · cases h3
              · cases h3; cases this
            | handlerReturn w x => exact absurd (by rw [ha, show a = _ from h4]) (nr w x)
            | _ => rfl
          · intro h
            injection h with h
            subst h
            exact absurd (by rw [ha, show a = _ from h4]) (nr w x)

theorem Calm.wkFine (c : Calm cfg n σ α e d t0) (t : Nat) : Wk.Fine (cfg e.node).numWorkers ((σ t).wkOf cfg e.node) := by
  induction t with
  | zero =>
    obtain ⟨X, hX⟩ := c.run.has c.exist 0
    have : X = Node.State.new := by
      rw [c.run.init] at hX
      exact List.eq_of_mem_replicate (List.mem_of_getElem? hX)
    subst this
    rw [wkOf_at hX]
    refine ⟨rfl, ?_, by simp [Node.State.new, Wk.State.new]⟩
    intro j p hp
    simp only [Node.State.new, Option.getD_none, Wk.State.new] at hp
    obtain ⟨hlt, e⟩ := List.getElem?_eq_some_iff.1 hp
    rw [List.getElem_replicate] at e
    rw [← e]; rfl
  | succ t ih =>
    obtain ⟨ob, h⟩ := c.wkStep t ih
    rcases h.step with ⟨_, h⟩ | ⟨b, _, h1, h2⟩
    · rw [h]; exact ih
    · exact ih.step (c.inv t) h1 h2

/-- The workers of a node on which nothing fails. -/
theorem Calm.workers (c : Calm cfg n σ α e d t0) : ∃ γ : Nat → Option (Wk.Action ε), Wk.Run (cfg e.node).numWorkers (cfg e.node).numHandlers (fun t => (σ t).wkOf cfg e.node) γ ∧
    ∀ t w r, α t = some (.node e.node (.handlerReturn w r)) ↔ γ t = some (.handlerReturn w r) := by
  obtain ⟨γ, hγ⟩ := Classical.axiom_of_choice fun t => c.wkStep t (c.wkFine t)
  refine ⟨γ, ⟨?_, fun t => (hγ t).step, ?_⟩, fun t => (hγ t).ret⟩
  · obtain ⟨X, hX⟩ := c.run.has c.exist 0
    have : X = Node.State.new := by
      rw [c.run.init] at hX
      exact List.eq_of_mem_replicate (List.mem_of_getElem? hX)
    subst this
    show (σ 0).wkOf cfg e.node = _
    rw [wkOf_at hX]
    rfl
  · intro w t
    obtain ⟨t', h1, h2⟩ := c.run.runs (.worker e.node w) t
    refine ⟨t', h1, ?_⟩
    rcases h2 with ⟨a, h3, h4⟩ | h2
    · left
      rcases h4 with rfl | ⟨x, rfl⟩
      · exact .inl ((hγ t').work w h3)
      · cases x with
        | none => exact .inr (((hγ t').ret w none).1 h3)
        | some x => exact absurd h3 (c.handlers t' w x)
    · right
      intro hs
      apply h2
      obtain ⟨X, hX⟩ := c.run.has c.exist t'
      have hcr := (c.node t' X hX).1
      have hf := c.wkFine t'
      rw [wkOf_at hX] at hf
      simp only [wkOf_at hX] at hs
      cases hq : X.wk with
      | none => rw [hq] at hs; exact absurd hs (Wk.new_stuck w)
      | some q =>
        rw [hq] at hs hf
        rcases hs with hs | hs
        · obtain ⟨Y, hY⟩ := Option.isSome_iff_exists.1 (Node.work_able (cfg := cfg e.node) hcr hq (hf.fine w) hs)
          refine ⟨.node e.node (.work w), ⟨.inl rfl, fun _ _ _ h => by simp at h⟩, ?_⟩
          simp only [step, hX, hY]; rfl
        · obtain ⟨Y, hY⟩ := Option.isSome_iff_exists.1 (Node.return_able (cfg := cfg e.node) hcr hq hs)
          refine ⟨.node e.node (.handlerReturn w none), ⟨.inr ⟨none, rfl⟩, fun _ _ _ h => by simp at h⟩, ?_⟩
          simp only [step, hX, hY]; rfl

/-- Clients do not send on a nil channel. -/
theorem Calm.nil (c : Calm cfg n σ α e d t0) (t : Nat) {x : Node.Conn ε} (hx : (σ t).conn e = some x) : x.nilChan = false := by
  induction t generalizing x with
  | zero => rw [c.run.init, conn_new] at hx; cases hx
  | succ t ih =>
    obtain ⟨X, hX⟩ := c.run.has c.exist t
    obtain ⟨X', hX', hs⟩ := c.run.at hX
    rw [conn_join hX'] at hx
    rcases hs with ⟨rfl, hno⟩ | ⟨a, ha, hs⟩
    · exact ih (by rw [conn_join hX]; exact hx)
    · by_cases hl : X.conns.length ≤ e.conn
      · exact (Node.new_any hs _ x hx hl).1
      · have hy : X.conns[e.conn]? = some (X.conns[e.conn]'(by omega)) := List.getElem?_eq_getElem _
        have hy' : (σ t).conn e = some (X.conns[e.conn]'(by omega)) := by rw [conn_join hX]; exact hy
        exact Node.step_nil hs (c.listens t _ X hy' hX) hy hx (ih hy')

/-- The queue accepts. -/
theorem Calm.deliver (c : Calm cfg n σ α e d t0) {β : Nat → Option (Cl.Action ε)} (hβ : ∀ t, EndStep σ α e d t (β t)) (hN : 0 < (cfg e.node).numWorkers) (t : Nat) (m : Message) (hm : ((σ t).cl e d).main = .delivering m) :
    ∃ t', t ≤ t' ∧ β t' = some .deliver := by
  by_cases hd : ∃ t', t ≤ t' ∧ β t' = some .deliver
  · exact hd
  · exfalso
    obtain ⟨γ, hw, -⟩ := c.workers
    have hstay : ∀ t', t ≤ t' → ((σ t').cl e d).main = .delivering m := by
      intro t' ht'
      refine (Fair.stays (P := fun x => t ≤ x ∧ ((σ x).cl e d).main = .delivering m) ?_ ht' ⟨Nat.le_refl _, hm⟩).2
      rintro x ⟨hx, hxm⟩
      refine ⟨by omega, ?_⟩
      rcases (hβ x).step with ⟨_, e⟩ | ⟨act, e1, e2, e3⟩
      · rw [e]; exact hxm
      · rcases Link.delivering_step e2 e3 hxm with ⟨rfl, _⟩ | ⟨_, _, h⟩
        · exact absurd ⟨x, hx, e1⟩ hd
        · exact h
    have hfull : ∃ t1, t ≤ t1 ∧ t0 ≤ t1 ∧ ∀ t', t1 ≤ t' → ¬ Able (step cfg) (· = .node e.node (.conn e.conn .deliver)) (σ t') := by
      by_cases hio : ∀ t, ∃ t', t ≤ t' ∧ Able (step cfg) (· = .node e.node (.conn e.conn .deliver)) (σ t')
      · obtain ⟨t', h1, a, h2, rfl⟩ := c.run.queue e hio (max t t0)
        obtain ⟨x, hx⟩ := c.there t' (by omega)
        obtain ⟨X, hX, hx'⟩ := conn_split hx
        have := (hβ t').act X x _ hX hx' h2
        simp only [Node.By, if_true] at this
        exact absurd ⟨t', by omega, this⟩ hd
      · simp only [not_forall, not_exists, not_and] at hio
        obtain ⟨t1, h1⟩ := hio
        exact ⟨max t (max t0 t1), by omega, by omega, fun t' h => h1 t' (by omega)⟩
    obtain ⟨t1, ht1, ht1', hno⟩ := hfull
    have hN' : ∀ t', t1 ≤ t' → (cfg e.node).numWorkers ≤ ((σ t').wkOf cfg e.node).items.length - ((σ t').wkOf cfg e.node).head := by
      intro t' ht'
      by_cases hlt : ((σ t').wkOf cfg e.node).items.length - ((σ t').wkOf cfg e.node).head < (cfg e.node).numWorkers
      · exfalso
        obtain ⟨x, hx⟩ := c.there t' (by omega)
        obtain ⟨X, hX, hx'⟩ := conn_split hx
        have hq := c.listens t' x X hx hX
        have g := (c.inv t').nw
        have hmm := hstay t' (by omega)
        rw [cl_some hx] at hmm
        rw [wkOf_at hX] at g hlt
        cases hqq : X.wk with
        | none => exact hq hqq
        | some q =>
          rw [hqq] at g hlt
          simp only [Option.getD_some] at g hlt
          rw [← g] at hlt
          obtain ⟨Y, hY⟩ := Option.isSome_iff_exists.1 (Node.deliver_able (cfg := cfg e.node) (c.node t' X hX).1 hx' hmm (c.nil t' hx) hqq ((c.node t' X hX).2 q hqq) hlt)
          exact hno t' ht' ⟨_, rfl, by simp only [step, hX, hY]; rfl⟩
      · omega
    obtain ⟨t2, ht2, hhead⟩ := hw.takes hN (t0 := t1) (by
      intro t' ht' _
      have := hN' t' ht'
      show ((σ t').wkOf cfg e.node).head < ((σ t').wkOf cfg e.node).items.length
      omega)
    have hmove : ∃ x, t1 ≤ x ∧ ((σ x).wkOf cfg e.node).head < ((σ (x + 1)).wkOf cfg e.node).head := by
      by_cases hx : ∃ x, t1 ≤ x ∧ ((σ x).wkOf cfg e.node).head < ((σ (x + 1)).wkOf cfg e.node).head
      · exact hx
      · exfalso
        have : ((σ t2).wkOf cfg e.node).head ≤ ((σ t1).wkOf cfg e.node).head := by
          refine (Fair.stays (P := fun x => t1 ≤ x ∧ ((σ x).wkOf cfg e.node).head ≤ ((σ t1).wkOf cfg e.node).head) ?_ ht2 ⟨Nat.le_refl _, Nat.le_refl _⟩).2
          rintro x ⟨h1, h2⟩
          refine ⟨by omega, ?_⟩
          by_cases hlt : ((σ x).wkOf cfg e.node).head < ((σ (x + 1)).wkOf cfg e.node).head
          · exact absurd ⟨x, h1, hlt⟩ hx
          · omega
        have hhead : ((σ t1).wkOf cfg e.node).head < ((σ t2).wkOf cfg e.node).head := hhead
        omega
    obtain ⟨x, hx, hlt⟩ := hmove
    have f2 : ((σ x).wkOf cfg e.node).items.length ≤ ((σ x).wkOf cfg e.node).head + (cfg e.node).numWorkers := (c.wkFine x).room
    rcases hw.step x with ⟨_, e1⟩ | ⟨a, _, _, e1⟩
    · have e1 : (σ (x + 1)).wkOf cfg e.node = (σ x).wkOf cfg e.node := e1
      rw [e1] at hlt; omega
    · have e1 : Wk.step ((σ x).wkOf cfg e.node) a = some ((σ (x + 1)).wkOf cfg e.node) := e1
      rcases (Wk.queue_step e1).2 with q | ⟨q1, q2, _⟩
      · omega
      · have := hN' (x + 1) (by omega)
        rw [q1, q2] at this
        omega

end Noise.Net
