import Verif.Proofs.NodeStuck
import Verif.Props.Client
/-! # Properties C42 and C98 of the whole node: what has ended when `Close` returns, and what panics afterwards -/
namespace Noise
open Node
variable {ε : Type}

/-! ## C42 -/

/-- The inbound connections have ended (their receive loops are over, and they have left the pool), and so have the workers. -/
def AllReleased (s : Node.State ε) : Prop :=
  (∀ x ∈ s.conns, x.c.side = .inbound → x.c.main = .done ∨ x.c.main = .finished) ∧ ∀ w, s.wk = some w → ∀ p ∈ w.workers, ∃ b, p = .ended b

theorem allReleased_of {cfg : Cfg ε} {s : Node.State ε} (h : Node.Reachable cfg s) (he : 8 ≤ s.accept.stage) : AllReleased s := by
  have hi := Stage.reach h
  refine ⟨fun x hx hs => ?_, fun w hw p hp => ?_⟩
  · obtain ⟨j, hj⟩ := List.mem_iff_getElem?.1 hx
    exact Classical.not_not.1 fun hp => hi.gone (by omega) j ⟨x, hj, hs, hp⟩
  · have := List.all_eq_true.1 (hi.wrk he w hw) p hp
    cases p <;> simp_all

theorem ended_forever {cfg : Cfg ε} {s s' : Node.State ε} (hs : s.accept = .ended) (h : ReachFrom (Node.step cfg) s s') : s'.accept = .ended :=
  h.inv (P := fun s => s.accept = .ended) (fun s a s' he h => by
    cases adv h with
    | same h => rw [h]; exact he
    | early h => rw [he] at h; simp [Accept.stage] at h
    | _ => simp_all) hs

/-- **C42, what holds of the whole node** (missing: that every `Close` returns, that the one which receives the error of the accept loop waits for anything, and that outbound connections are closed). In a node with everything in it - both
pools with eviction, connections at any stage of their lives, calls under way, workers inside handlers, contexts kept by handlers, other calls of `Close` - a `Close` that returns because the accept goroutine has ended
returns with all inbound connections and all workers ended, and it stays like that, whatever happens. -/
theorem C42_node_close_released_partial (cfg : Cfg ε) (s : Node.State ε) (h : Node.Reachable cfg s) (c : Nat) (hc : s.closers[c]? = some .gotClosed) (s' : Node.State ε) (h' : ReachFrom (Node.step cfg) s s') : AllReleased s' :=
  allReleased_of (h.trans h') (by rw [ended_forever ((Stage.reach h).got (List.mem_of_getElem? hc)) h']; simp [Accept.stage])

/-- The beginning of the life of a connection, in a node. -/
def connDo (j : Nat) (l : List (Cl.Action ε)) : List (Node.Action ε) := l.map (.conn j)

/-- A node with one connection of each direction is closed, twice; the second `Close` returns when the accept goroutine has ended. -/
def closedTwice (n : ID) (e : ε) : List (Node.Action ε) :=
  [.listen, .acceptStep, .acceptConn ['a'], .acceptStep] ++ connDo 0 (connectIn n) ++ [.call .ping ['b'], .callStep 0] ++ connDo 1 (connectOut n)
    ++ [.close, .closeListener 0, .acceptFail, .acceptStep, .closeRecv 0, .close, .acceptRelease [0], .acceptStep] ++ connDo 0 [.closeConn] ++ [.acceptStep] ++ connDo 0 [.readFail e, .main, .main, .main, .main, .main]
    ++ [.acceptStep, .acceptStep, .acceptStep, .work 0, .acceptStep, .acceptStep, .acceptStep, .closeRecv 1]

/-- It meets the hypotheses of C42's theorem, with an outbound connection that is still open. -/
example : ∃ (s : Node.State Unit), Node.Reachable ⟨2, 3, 1, 1, fun _ => false⟩ s ∧ s.closers = [.gotError, .gotClosed] ∧ s.conns.map (fun x => x.c.main) = [.finished, .recv] := by
  have h : (runs (Node.step ⟨2, 3, 1, 1, fun _ => false⟩) (Node.State.new : Node.State Unit) (closedTwice ID.zero ())).map
      (fun s => (s.closers, s.conns.map fun x => x.c.main)) = some ([.gotError, .gotClosed], [.finished, .recv]) := by decide +kernel
  obtain ⟨s, h1, h2⟩ := Option.map_eq_some_iff.1 h
  injection h2 with h2 h3
  exact ⟨s, ⟨_, h1⟩, h2, h3⟩

/-- **C42, refuted in a further way.** A handler that returns an error ends its worker (C43). Once all workers have ended like that, and the work channel is full, a `Close` of the node does not complete while the receive loop of an inbound
connection has a message for the channel: whatever happens, that connection never ends, although it is closed; the accept goroutine, which waits for it, never ends; no worker, and no `Close` that waits for the accept goroutine to end, returns. So a
peer whose messages make the handlers fail keeps a node from being closed. -/
theorem C42_lost_workers_refuted (cfg : Cfg ε) (s : Node.State ε) (h : Node.Reachable cfg s) (w : Wk.State ε) (hw : s.wk = some w) (hall : ∀ p ∈ w.workers, ∃ b, p = .ended b) (hq : w.queueClosed = false)
    (hfull : w.numWorkers ≤ w.items.length - w.head) (j : Nat) (x : Node.Conn ε) (hx : s.conns[j]? = some x) (hs : x.c.side = .inbound) (m : Message) (hm : x.c.main = .delivering m)
    (s' : Node.State ε) (h' : ReachFrom (Node.step cfg) s s') :
    (∃ x' : Node.Conn ε, s'.conns[j]? = some x' ∧ x'.c.main = .delivering m) ∧ s'.accept ≠ .ended ∧ s'.doneClosed = false ∧ ∀ c : Nat, s'.closers[c]? ≠ some .gotClosed := by
  have key : Node.Reachable cfg s' ∧ Jam j m s' :=
    h'.inv (P := fun s => Node.Reachable cfg s ∧ Jam j m s) (fun _ _ _ ⟨h1, h2⟩ hs => ⟨h1.snoc hs, h2.step h1 hs⟩)
      ⟨h, ⟨w, hw, List.all_eq_true.2 (fun p hp => by obtain ⟨b, rfl⟩ := hall p hp; rfl), hq, hfull⟩, x, hx, hs, hm⟩
  obtain ⟨hr, -, x', hx', hs', hm'⟩ := key
  have hi := Stage.reach hr
  have hne : s'.accept ≠ .ended := fun he => hi.gone (by rw [he]; simp [Accept.stage]) j ⟨x', hx', hs', by rintro (h | h) <;> rw [hm'] at h <;> cases h⟩
  refine ⟨⟨x', hx', hm'⟩, hne, ?_, fun c hc => hne (hi.got (List.mem_of_getElem? hc))⟩
  cases hd : s'.doneClosed with
  | false => rfl
  | true => exact absurd (hi.done hd) hne

/-- A peer sends three messages; the handler returns an error for the first. -/
def jammed (n : ID) (e : ε) : List (Node.Action ε) :=
  [.listen, .acceptStep, .acceptConn ['a'], .acceptStep] ++ connDo 0 (connectIn n ++ [.arrive, .arrive, .arrive, .readMsg ⟨0, [1]⟩, .main, .deliver, .main]) ++ [.work 0, .work 0]
    ++ connDo 0 [.readMsg ⟨0, [2]⟩, .main, .deliver, .main, .readMsg ⟨0, [3]⟩, .main] ++ [.handlerReturn 0 (some e), .work 0, .work 0] ++ connDo 0 [.closeConn] ++ [.work 0]

/-- It happens: the node above meets the hypotheses, and is then closed, in vain. -/
theorem C42_lost_workers_witness : ∃ (s : Node.State Unit) (w : Wk.State Unit) (x : Node.Conn Unit), Node.Reachable ⟨2, 3, 1, 1, fun _ => false⟩ s ∧ s.wk = some w ∧ (∀ p ∈ w.workers, ∃ b, p = .ended b) ∧ w.queueClosed = false ∧
    w.numWorkers ≤ w.items.length - w.head ∧ s.conns[0]? = some x ∧ x.c.side = .inbound ∧ x.c.main = .delivering ⟨0, [3]⟩ ∧ x.c.conn = .closed ∧
    ∃ s', ReachFrom (Node.step ⟨2, 3, 1, 1, fun _ => false⟩) s s' ∧ s'.closers = [.gotError, .waiting] ∧ s'.accept = .releasing [0] true := by
  have h : ((runs (Node.step ⟨2, 3, 1, 1, fun _ => false⟩) (Node.State.new : Node.State Unit) (jammed ID.zero ())).bind fun s => s.wk.bind fun w => (s.conns[0]?).bind fun x =>
      (runs (Node.step ⟨2, 3, 1, 1, fun _ => false⟩) s [.close, .closeListener 0, .acceptFail, .acceptStep, .closeRecv 0, .close, .acceptRelease [0], .acceptStep]).map fun s' =>
      (w.workers.all (fun p => match p with | .ended _ => true | _ => false) && !w.queueClosed && decide (w.numWorkers ≤ w.items.length - w.head) && decide (x.c.side = .inbound ∧ x.c.main = .delivering ⟨0, [3]⟩ ∧ x.c.conn = .closed) &&
        decide (s'.closers = [.gotError, .waiting] ∧ s'.accept = .releasing [0] true))) = some true := by decide +kernel
  obtain ⟨s, h1, h⟩ := Option.bind_eq_some_iff.1 h
  obtain ⟨w, h2, h⟩ := Option.bind_eq_some_iff.1 h
  obtain ⟨x, h3, h⟩ := Option.bind_eq_some_iff.1 h
  obtain ⟨s', h4, h⟩ := Option.map_eq_some_iff.1 h
  simp only [Bool.and_eq_true, decide_eq_true_eq, Bool.not_eq_true', List.all_eq_true] at h
  obtain ⟨⟨⟨⟨g1, g2⟩, g3⟩, g4, g5, g6⟩, g7, g8⟩ := h
  exact ⟨s, w, x, ⟨_, h1⟩, h2, fun p hp => by have := g1 p hp; cases p <;> simp_all, g2, g3, h3, g4, g5, g6, s', ⟨_, h4⟩, g7, g8⟩

/-! ## C98 -/

/-- **C98, what holds of the whole node** (missing: that the process does not panic). If the process has panicked, then the work channel had been closed - the accept goroutine had released all inbound connections - and an outbound connection
was delivering a message. With `cfg.max ≠ 0`, which the constructor ensures, this is the only panic that the model of the node has; the pools do not panic. -/
theorem C98_node_no_crash_partial (cfg : Cfg ε) (hm : cfg.max ≠ 0) (s : Node.State ε) (h : Node.Reachable cfg s) (hc : s.crashed = true) :
    ∃ (j : Nat) (x : Node.Conn ε) (m : Message) (w : Wk.State ε), s.conns[j]? = some x ∧ x.c.side = .outbound ∧ x.c.main = .delivering m ∧ s.wk = some w ∧ w.queueClosed = true := by
  refine h.ind (P := fun s => s.crashed = true → ∃ (j : Nat) (x : Node.Conn ε) (m : Message) (w : Wk.State ε), s.conns[j]? = some x ∧ x.c.side = .outbound ∧ x.c.main = .delivering m ∧ s.wk = some w ∧ w.queueClosed = true)
    (fun h => by cases h) ?_ hc
  intro s a s' hr _ hs hc'
  rcases (step_wk hs).2 hc' with h0 | ⟨rfl, j, x, m, w, h1, h2, h3, h4⟩
  · exact absurd h0 hm
  · refine ⟨j, x, m, w, h1, ?_, h2, h3, h4⟩
    cases hsd : x.c.side with
    | outbound => rfl
    | inbound =>
      have hi := Stage.reach hr
      exact absurd ⟨x, h1, hsd, by rintro (h | h) <;> rw [h2] at h <;> cases h⟩ (hi.gone (by have := hi.queue w h3 h4; omega) j)

/-- C98 is false of the whole node: the outbound connection of the node that was closed gets a message. -/
theorem C98_node_crash_refuted : ∃ s : Node.State Unit, Node.Reachable ⟨2, 3, 1, 1, fun _ => false⟩ s ∧ s.crashed = true ∧ s.closers = [.gotError, .gotClosed] := by
  have h : (runs (Node.step ⟨2, 3, 1, 1, fun _ => false⟩) (Node.State.new : Node.State Unit) (closedTwice ID.zero () ++ connDo 1 [.arrive, .readMsg ⟨0, [1]⟩, .main, .deliver])).map
      (fun s => (s.crashed, s.closers)) = some (true, [.gotError, .gotClosed]) := by decide +kernel
  obtain ⟨s, h1, h2⟩ := Option.map_eq_some_iff.1 h
  injection h2 with h2 h3
  exact ⟨s, ⟨_, h1⟩, h2, h3⟩

end Noise
