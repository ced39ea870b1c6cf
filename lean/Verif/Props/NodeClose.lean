import Verif.Proofs.NodeFair
import Verif.Proofs.NodeStops
import Verif.Props.NodeEnd
/-! # Property C42 of the whole node: when `Close` completes -/
namespace Noise
open Node
variable {ε : Type}

/-- **C42, what holds of the whole node: the number of steps of closing it is bounded, and it does not get stuck** (missing: outbound connections are not closed; a `Close` before `Listen`, before the accept goroutine runs, during an eviction or
while the goroutine of an accepted connection has not begun does not complete; neither does one with all workers lost). Let the listener of a node be closed and its accept goroutine not be in the middle of accepting a connection; let the
connections that it accepted be in any state, but with their goroutines begun; let there be any number of calls of `Close`, `Ping`, `Send`, `Request` under way, and let a worker be left. Whatever happens from then on, if handlers return no errors:
what the node does by itself - the accept goroutine, calls of `Close`, inbound connections, workers and handlers going on - are at most `s.left cfg` steps, and `2 * numHandlers + 6` more for each frame that arrives meanwhile, each message of an
outbound connection and each further call of `Close`. And as soon as there is nothing more that it can do by itself, it is closed: the accept goroutine and all workers have ended, all inbound connections are closed and their goroutines have ended, and
every call of `Close` has returned. -/
theorem C42_node_close_steps_partial [Nonempty ε] (cfg : Cfg ε) (s : Node.State ε) (h : Node.Reachable cfg s) (hover : s.over) (hbegun : s.begun) (hstaffed : s.staffed) (as : List (Node.Action ε)) (s' : Node.State ε)
    (h' : runs (Node.step cfg) s as = some s') (herr : ∀ i e, .handlerReturn i (some e) ∉ as) (hcr : s'.crashed = false) :
    count State.own cfg s as ≤ s.left cfg + (2 * cfg.numHandlers + 6) * count State.feeds cfg s as ∧
    ((∀ a, s'.own a = true → Node.step cfg s' a = none) ↔ s'.Closed) := by
  obtain ⟨h1, h2, h3, h4⟩ := able_run as h hover hbegun hstaffed herr h'
  have := count_left as h hover h'
  exact ⟨by omega, fun hd => progress h1 h2 h3 h4 hcr hd, fun hc => hc.idles h1⟩

/-- **C42, what holds of the whole node: it is closed in the end** (what is missing is what `C42_node_close_steps_partial` says is missing). In every infinite execution of a node that is being closed, from such a state on, in which in the end nobody
gives it more to do, and in which the node does not rest for ever while there is something that it can do by itself, the node is closed from some time on: every call of `Close` has returned, the accept goroutine and all workers have ended, all inbound
connections are closed and their goroutines have ended. -/
theorem C42_node_close_completes_partial [Nonempty ε] (cfg : Cfg ε) (σ : Nat → Node.State ε) (α : Nat → Option (Node.Action ε)) (r : FairClose cfg σ α) : ∃ t, ∀ t', t ≤ t' → (σ t').Closed := r.closed

/-- **C42, what holds of the whole node: `Close` stops the accepting** (missing: a `Close` of a node that does not listen yet, or whose accept goroutine has not run). Let `Close` be called on a node that listens. As soon as the call has closed the
listener - so in particular once it has returned - no more connections are accepted, whatever else happens; it cannot return before. -/
theorem C42_close_stops_accepting_partial (cfg : Cfg ε) (s : Node.State ε) (h : Node.Reachable cfg s) (hl : s.listening = true) (as : List (Node.Action ε)) (s' : Node.State ε) (h' : runs (Node.step cfg) s (.close :: as) = some s')
    (hp : s'.closers[s.closers.length]? ≠ some .closing) : s'.closers[s.closers.length]? ≠ none ∧ ∀ s'', ReachFrom (Node.step cfg) s' s'' → ∀ a, Node.step cfg s'' (.acceptConn a) = none := by
  obtain ⟨s1, h1, h2⟩ := runs_cons h'
  have hs1 : Stops s.closers.length s1 := by
    unfold Node.step at h1
    split at h1
    · cases h1
    · simp only at h1
      cases h1
      exact ⟨fun hn => (by rw [listening_started h hn] at hl; cases hl), by simp, by simp⟩
  have hs' : Stops s.closers.length s' := runs_inv (P := Stops s.closers.length) (fun _ _ _ hi h => hi.step h) h2 hs1
  have ho : s'.listenerOpen = false := hs'.2.2.resolve_left hp
  refine ⟨by rw [List.getElem?_eq_getElem hs'.2.1]; simp, fun s'' hr a => ?_⟩
  have hc : s''.accept ≠ .none ∧ s''.listenerOpen = false := by
    refine hr.inv (P := fun s => s.accept ≠ .none ∧ s.listenerOpen = false) (fun s a s' hi h => closed_step hi.1 hi.2 h) ⟨hs'.1, ho⟩
  unfold Node.step
  split
  · rfl
  · simp only [hc.2]; split <;> simp_all

/-- A node with an inbound connection, which has two messages to read, one of which a worker has to handle, and with an outbound connection, is closed. -/
def beingClosed (n : ID) : List (Node.Action ε) :=
  [.listen, .acceptStep, .acceptConn ['a'], .acceptStep] ++ connDo 0 (connectIn n) ++ [.call .ping ['b'], .callStep 0] ++ connDo 1 (connectOut n)
    ++ connDo 0 [.arrive, .arrive, .readMsg ⟨0, [1]⟩, .main, .deliver] ++ [.work 0, .work 0, .close, .closeListener 0]

/-- What it does then. -/
def goesOn (e : ε) : List (Node.Action ε) :=
  [.acceptFail, .acceptStep, .acceptRelease [0], .acceptStep] ++ connDo 0 [.main, .closeConn] ++ [.closeRecv 0, .handlerReturn 0 none, .acceptStep] ++ connDo 0 [.readMsg ⟨0, [2]⟩, .main, .deliver, .main] ++ [.work 0, .work 0, .work 0]
    ++ connDo 0 [.readFail e, .main, .main, .main, .main, .main] ++ [.handlerReturn 0 none, .acceptStep, .acceptStep, .acceptStep, .work 0, .work 0, .acceptStep, .acceptStep, .acceptStep]

/-- It meets the hypotheses, with a handler running, a message on the channel, another one to be read, and an outbound connection that stays open. -/
example : ∃ (s s' : Node.State Unit), Node.Reachable ⟨2, 3, 1, 1, fun _ => false⟩ s ∧ s.over ∧ s.begun ∧ s.staffed ∧ s.closers = [.waiting] ∧ runs (Node.step ⟨2, 3, 1, 1, fun _ => false⟩) s (goesOn ()) = some s' ∧ s'.Closed ∧
    FairClose ⟨2, 3, 1, 1, fun _ => false⟩ (fun t => (runs (Node.step ⟨2, 3, 1, 1, fun _ => false⟩) s ((goesOn ()).take t)).getD s) (fun t => (goesOn ())[t]?) := by
  have h : ((runs (Node.step ⟨2, 3, 1, 1, fun _ => false⟩) (Node.State.new : Node.State Unit) (beingClosed ID.zero)).bind fun s =>
      (runs (Node.step ⟨2, 3, 1, 1, fun _ => false⟩) s (goesOn ())).map fun s' =>
      (decide (s.accept = .loop ∧ s.listenerOpen = false ∧ s.closers = [.waiting]) && s.conns.all (fun x => decide (x.c.conn = .open ∧ x.c.once = .fresh)) && (match s.wk with | some w => w.workers.any (fun p => match p with | .inside _ _ => true | _ => false) | none => false)) &&
      (!s'.crashed && decide (s'.accept = .ended ∧ s'.listening = false ∧ s'.closers = [.gotError]) &&
        s'.conns.all (fun x => decide (x.c.side = .inbound → x.c.main = .finished ∧ x.c.conn = .closed)) && (match s'.wk with | some w => w.workers.all (fun p => match p with | .ended _ => true | _ => false) | none => false))) = some true := by
    decide +kernel
  obtain ⟨s, h1, h2⟩ := Option.bind_eq_some_iff.1 h
  obtain ⟨s', h3, h4⟩ := Option.map_eq_some_iff.1 h2
  simp only [Bool.and_eq_true, decide_eq_true_eq, Bool.not_eq_true', List.all_eq_true] at h4
  obtain ⟨⟨⟨⟨a1, a2, a3⟩, b⟩, c⟩, ⟨⟨d, e1, e2, e3⟩, f⟩, g⟩ := h4
  have hover : s.over := by simp [State.over, a1, a2]
  have hbegun : s.begun := fun x hx _ => by simp [(b x hx).1, (b x hx).2]
  have hst : s.staffed := by
    split at c
    · next w hw =>
      obtain ⟨p, hp, hq⟩ := List.any_eq_true.1 c
      refine ⟨w, hw, p, hp, ?_⟩
      cases p <;> simp at hq ⊢
    · cases c
  have hcl : s'.Closed := ⟨e1, e2, fun x hx hs => f x hx hs, fun w hw p hp => by
    rw [hw] at g
    have := List.all_eq_true.1 g p hp
    cases p <;> simp at this
    exact ⟨_, rfl⟩, fun c hc => by rw [e3] at hc; exact .inl (List.mem_singleton.1 hc)⟩
  exact ⟨s, s', ⟨_, h1⟩, hover, hbegun, hst, a3, h3, hcl, .of_run ⟨_, h1⟩ hover hbegun hst h3 d (by simp [goesOn, connDo]) hcl⟩

/-- A node that listens and is closed while it has an inbound connection and a running handler. -/
example : ∃ s s' : Node.State Unit, Node.Reachable ⟨2, 3, 1, 1, fun _ => false⟩ s ∧ s.listening = true ∧ runs (Node.step ⟨2, 3, 1, 1, fun _ => false⟩) s [.close, .closeListener 0, .acceptFail, .acceptStep, .closeRecv 0] = some s' ∧
    s.closers.length = 0 ∧ s'.closers[0]? = some .gotError := by
  have h : ((runs (Node.step ⟨2, 3, 1, 1, fun _ => false⟩) (Node.State.new : Node.State Unit) ((beingClosed ID.zero).take ((beingClosed (ε := Unit) ID.zero).length - 2))).bind fun s =>
      (runs (Node.step ⟨2, 3, 1, 1, fun _ => false⟩) s [.close, .closeListener 0, .acceptFail, .acceptStep, .closeRecv 0]).map fun s' => (s.listening, s.closers.length, s'.closers[0]?)) = some (true, 0, some .gotError) := by decide +kernel
  obtain ⟨s, h1, h2⟩ := Option.bind_eq_some_iff.1 h
  obtain ⟨s', h3, h4⟩ := Option.map_eq_some_iff.1 h2
  simp only [Prod.mk.injEq] at h4
  exact ⟨s, s', ⟨_, h1⟩, h4.1, h3, h4.2⟩

end Noise
