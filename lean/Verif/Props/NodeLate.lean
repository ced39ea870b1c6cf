import Verif.Proofs.NodeLate
import Verif.Props.NodeEnd
/-! # Property C42 of the whole node: a connection that `Close` comes too early for -/
namespace Noise
open Node
variable {ε : Type}

theorem late_step {cfg : Cfg ε} {j : Nat} {s s' : Node.State ε} {a : Node.Action ε} (hx : ∃ x : Node.Conn ε, s.conns[j]? = some x ∧ Cl.Late x.c) (ha : ∀ e, a ≠ .conn j (.hsFail e) ∧ a ≠ .conn j (.readFail e))
    (hs : Node.step cfg s a = some s') : ∃ x : Node.Conn ε, s'.conns[j]? = some x ∧ Cl.Late x.c := by
  obtain ⟨x, hx, hl⟩ := hx
  obtain ⟨x', as, h1, h2, h3⟩ := step_trace hs j x hx
  refine ⟨x', h1, Cl.run_inv' (Q := fun b => byNode b = true ∨ a = .conn j b) (fun _ b _ hl hb hs => hl.step (fun e => ?_) hs) h3 h2 hl⟩
  constructor
  · rintro rfl
    rcases hb with hb | hb
    · cases hb
    · exact (ha e).1 hb
  · rintro rfl
    rcases hb with hb | hb
    · cases hb
    · exact (ha e).2 hb

/-- **C42, refuted in a further way.** A connection has been accepted, and the goroutine that serves it has not begun when the node, which is being closed, calls `close` on it: `close` finds no connection to close, and nothing that is called later
closes it either. Then, whatever happens, unless the handshake with that peer or reading from it fails, which is up to the peer: the connection is not closed and its client does not end, the accept goroutine does not end, the workers are not stopped, and
no `Close` returns because the accept goroutine has ended. The witness below shows that a `Close` can have returned, and that the messages of this peer are handled. -/
theorem C42_late_connection_refuted (cfg : Cfg ε) (s : Node.State ε) (h : Node.Reachable cfg s) (j : Nat) (x : Node.Conn ε) (hx : s.conns[j]? = some x) (hside : x.c.side = .inbound) (honce : x.c.once = .done) (hconn : x.c.conn = .none)
    (as : List (Node.Action ε)) (has : ∀ a ∈ as, ∀ e, a ≠ .conn j (.hsFail e) ∧ a ≠ .conn j (.readFail e)) (s' : Node.State ε) (hr : runs (Node.step cfg) s as = some s') :
    (∃ x' : Node.Conn ε, s'.conns[j]? = some x' ∧ x'.c.conn ≠ .closed ∧ x'.c.clientDone = false ∧ x'.c.readerDone = false) ∧ s'.accept ≠ .ended ∧ s'.doneClosed = false ∧ (∀ w, s'.wk = some w → w.queueClosed = false) ∧
      ∀ c : Nat, s'.closers[c]? ≠ some .gotClosed := by
  have hc := Reaches.reach h j x hx
  have hu := Cl.Unset.reach hc
  have hm := hu.init hside hconn
  have hl : Cl.Late x.c := by
    refine ⟨hside, honce, by rw [hconn]; simp, by rw [hm]; rfl, fun _ => hu.fresh hm, ?_⟩
    cases hd : x.c.clientDone with
    | false => rfl
    | true => have := ((Cl.Life.reach hc).client).1 hd; rw [hm] at this; cases this
  obtain ⟨x', hx', hl'⟩ := runs_inv' (P := fun s => ∃ x : Node.Conn ε, s.conns[j]? = some x ∧ Cl.Late x.c) (Q := fun a => ∀ e, a ≠ .conn j (.hsFail e) ∧ a ≠ .conn j (.readFail e))
    (fun _ _ _ hp hq hs => late_step hp hq hs) has hr ⟨x, hx, hl⟩
  have hr' : Node.Reachable cfg s' := h.run hr
  have hi := Stage.reach hr'
  have hlive : live s' j := ⟨x', hx', hl'.side, by rintro (h | h) <;> have := hl'.main <;> rw [h] at this <;> cases this⟩
  have hst : s'.accept.stage < 6 := Nat.lt_of_not_le fun hge => hi.gone hge j hlive
  have hne : s'.accept ≠ .ended := fun he => by rw [he] at hst; simp [Accept.stage] at hst
  refine ⟨⟨x', hx', hl'.conn, hl'.done, ?_⟩, hne, ?_, fun w hw => ?_, fun c hc => hne (hi.got (List.mem_of_getElem? hc))⟩
  · refine (Cl.Life.reach (Reaches.reach hr' j x' hx')).reader ?_
    have := hl'.main
    revert this
    cases x'.c.main <;> simp [Cl.MainPc.serves, Cl.MainPc.readerOpen]
  · cases hd : s'.doneClosed with
    | false => rfl
    | true => exact absurd (hi.done hd) hne
  · cases hq : w.queueClosed with
    | false => rfl
    | true => have := hi.queue w hw hq; omega

/-- A connection is accepted, `Close` is called and returns, and the client of the connection is closed before it has begun. -/
def lateConn : List (Node.Action ε) :=
  [.listen, .acceptStep, .acceptConn ['a'], .acceptStep, .close, .closeListener 0, .acceptFail, .acceptStep, .closeRecv 0, .acceptRelease [0], .acceptStep, .conn 0 .closeConn, .acceptStep]

/-- The peer sends a message, and a handler runs for it. -/
def lateMsg : List (Node.Action ε) := connDo 0 [.arrive, .readMsg ⟨0, [1]⟩, .main, .deliver, .main] ++ [.work 0, .work 0, .handlerReturn 0 none, .work 0]

/-- How many times a handler has been called. -/
def started (s : Node.State ε) : Nat := match s.wk with
  | some w => w.log.countP fun | .started _ _ => true | _ => false
  | none => 0

/-- Between two messages of the peer: `n` have been handled. -/
structure Between (n : Nat) (s : Node.State ε) : Prop where
  crashed : s.crashed = false
  closers : s.closers = [.gotError]
  started : started s = n
  conn : ∃ x : Node.Conn ε, s.conns = [x] ∧ x.nilChan = false ∧ x.c.main = .recv ∧ x.c.conn = .open ∧ x.c.reqs.entries 0 = none
  wk : ∃ w : Wk.State ε, s.wk = some w ∧ w.queueClosed = false ∧ w.workers = [.idle] ∧ w.head = w.items.length ∧ w.numWorkers = 1 ∧ w.numHandlers = 1

theorem Between.next {cfg : Cfg ε} {n : Nat} {s : Node.State ε} (h : Between n s) : ∃ s', runs (Node.step cfg) s lateMsg = some s' ∧ Between (n + 1) s' := by
  obtain ⟨h1, h2, h3, ⟨x, h4, h5, h6, h7, h8⟩, w, h9, h10, h11, h12, h13, h14⟩ := h
  simp only [Noise.started, h9] at h3
  simp [lateMsg, connDo, runs, Node.step, h1, Node.State.connStep, h4, Node.State.stepConn, Cl.step, h7, h6, Node.State.route, Cl.State.mainStep, Cl.State.route, RequestMap.findRequest, h8, Node.State.deliver, WorkQ.sending, h5, h9,
    h10, Wk.step, h12, h13, Node.State.workStep, h11, Wk.State.setWorker, h14]
  constructor <;> simp [h2, Noise.started, h3, h8]

theorem Between.iter {cfg : Cfg ε} {n : Nat} {s : Node.State ε} (h : Between 0 s) : ∃ s', runs (Node.step cfg) s (List.replicate n lateMsg).flatten = some s' ∧ Between n s' := by
  induction n with
  | zero => exact ⟨s, rfl, h⟩
  | succ n ih =>
    obtain ⟨s1, h1, h2⟩ := ih
    obtain ⟨s2, h3, h4⟩ := h2.next (cfg := cfg)
    exact ⟨s2, by rw [List.replicate_succ', List.flatten_append]; exact runs_trans h1 (by simpa using h3), h4⟩

/-- It happens: `Close` has returned, the connection meets the hypotheses of the theorem, and then any number of messages of its peer is handled. -/
theorem C42_late_connection_witness (n : Nat) : ∃ (s : Node.State Unit) (x : Node.Conn Unit) (as : List (Node.Action Unit)) (s' : Node.State Unit), Node.Reachable ⟨2, 3, 1, 1, fun _ => false⟩ s ∧ s.closers = [.gotError] ∧ s.conns[0]? = some x ∧
    x.c.side = .inbound ∧ x.c.once = .done ∧ x.c.conn = .none ∧ started s = 0 ∧ runs (Node.step ⟨2, 3, 1, 1, fun _ => false⟩) s as = some s' ∧ (∀ a ∈ as, ∀ e, a ≠ .conn 0 (.hsFail e) ∧ a ≠ .conn 0 (.readFail e)) ∧ started s' = n := by
  have h0 : (runs (Node.step ⟨2, 3, 1, 1, fun _ => false⟩) (Node.State.new : Node.State Unit) lateConn).bind (fun s => (s.conns[0]?).bind fun x =>
      (runs (Node.step ⟨2, 3, 1, 1, fun _ => false⟩) s (connDo 0 (connectIn ID.zero))).bind fun s1 => s1.wk.bind fun w =>
        match s1.conns, w.workers with
        | [y], [.idle] => some (decide (s.closers = [.gotError] ∧ x.c.side = .inbound ∧ x.c.once = .done ∧ x.c.conn = .none ∧ started s = 0 ∧ s1.crashed = false ∧ s1.closers = [.gotError] ∧ started s1 = 0 ∧
            y.nilChan = false ∧ y.c.main = .recv ∧ y.c.conn = .open ∧ y.c.reqs.entries 0 = none ∧ w.queueClosed = false ∧ w.head = w.items.length ∧ w.numWorkers = 1 ∧ w.numHandlers = 1))
        | _, _ => none) = some true := by decide +kernel
  obtain ⟨s, h1, h⟩ := Option.bind_eq_some_iff.1 h0
  obtain ⟨x, h2, h⟩ := Option.bind_eq_some_iff.1 h
  obtain ⟨s1, h3, h⟩ := Option.bind_eq_some_iff.1 h
  obtain ⟨w, h4, h⟩ := Option.bind_eq_some_iff.1 h
  split at h
  · next y hy hw =>
    simp only [Option.some.injEq, decide_eq_true_eq] at h
    obtain ⟨g1, g2, g3, g4, g5, g6, g7, g8, g9, g10, g11, g12, g13, g14, g15, g16⟩ := h
    have hb : Between 0 s1 := ⟨g6, g7, g8, ⟨y, hy, g9, g10, g11, g12⟩, w, h4, g13, hw, g14, g15, g16⟩
    obtain ⟨s', h5, h6⟩ := hb.iter (cfg := ⟨2, 3, 1, 1, fun _ => false⟩) (n := n)
    refine ⟨s, x, _, s', ⟨_, h1⟩, g1, h2, g2, g3, g4, g5, runs_trans h3 h5, ?_, h6.started⟩
    intro a ha e
    rcases List.mem_append.1 ha with ha | ha
    · simp [connDo, connectIn] at ha
      constructor <;> rintro rfl <;> simp at ha
    · obtain ⟨l, hl, ha⟩ := List.mem_flatten.1 ha
      rw [(List.mem_replicate.1 hl).2] at ha
      simp [connDo, lateMsg] at ha
      constructor <;> rintro rfl <;> simp at ha
  · cases h

end Noise
