import Verif.Props.Client
/-! # Properties C28-C33: errors, callbacks and the life cycle of one connection -/
set_option linter.unusedSimpArgs false
namespace Noise
open Spec Cl
variable {ε : Type}

/-- C28: in every schedule the client's error is the first one reported by any goroutine; once set it never changes. -/
theorem C28_first_error (side : Side) (s : State ε) (h : Reachable side s) :
    s.err = (reportedOf s.log).head? ∧ ∀ e as s', s.err = some e → run s as = some s' → s'.err = some e := by
  refine ⟨err_reach h, ?_⟩
  intro e as s' he hr
  obtain ⟨l, hl⟩ := log_run hr
  rw [err_reach (Reachable.trans h hr), hl, reportedOf_append]
  rw [err_reach h] at he
  cases hx : reportedOf s.log with
  | nil => rw [hx] at he; cases he
  | cons a r => rw [hx] at he; simpa using he

example (id : ID) : ∃ s : State Nat, client .outbound (connectOut id ++ [.writer, .writerFail 7, .readFail 8]) = some s ∧ s.err = some 7 ∧ reportedOf s.log = [7, 8] :=
  ⟨_, rfl, rfl, rfl⟩

/-- C29 is false: an outbound client whose handshake fails (with any error, with or without a session key) goes on, and calls `OnPeerDisconnected`
without ever having called `OnPeerConnected`. -/
theorem C29_disconnected_without_connected_refuted (e e' : ε) : ∃ (as : List (Action ε)) (s : State ε), run (State.new .outbound) as = some s ∧ s.clientDone = true ∧
    connectedOf s.log = [] ∧ disconnects s.log = 1 :=
  ⟨[.main, .dialOK, .hsFail e, .main, .main, .readFail e', .main, .main, .closeConn, .main, .main, .main, .main], _, rfl, rfl, rfl, rfl⟩

/-- C29, what does hold: `OnPeerConnected` is called at most once, for the verified ID, after the session key was established; `OnPeerDisconnected` at most once,
and only for a connected client unless it is outbound and its handshake failed with an error; no connect follows a disconnect. -/
theorem C29_callbacks_partial (side : Side) (s : State ε) (h : Reachable side s) :
    (connectedOf s.log = [] ∨ ∃ id, connectedOf s.log = [some id] ∧ s.id = some id ∧ s.suite = true) ∧
    disconnects s.log ≤ 1 ∧
    (∀ l1 l2, s.log = l1 ++ .disconnected :: l2 → connectedOf l2 = [] ∧
      ((∃ id, connectedOf l1 = [some id]) ∨ (side = .outbound ∧ connectedOf s.log = [] ∧ reportedOf l1 ≠ []))) := by
  have inv := CbInv.reach h
  refine ⟨?_, inv.disc1, ?_⟩
  · rw [inv.conn]
    split
    · exact Or.inl rfl
    · cases hid : s.id with
      | none => exact Or.inl rfl
      | some id => exact Or.inr ⟨id, rfl, rfl, inv.suite (by rw [hid]; rfl)⟩
  · intro l1 l2 hl
    obtain ⟨s1, a, s2, as, r1, st, e1, e2, hr⟩ := log_event h hl
    have i1 := CbInv.reach r1
    have i2 := CbInv.reach (Reachable.step r1 st)
    have hd : s2.main.deferred = true := by
      cases hx : s2.main.deferred with
      | true => rfl
      | false =>
        have := i2.disc0 hx
        rw [e2, disconnects_append] at this
        have : disconnects [(.disconnected : Event ε)] = 1 := rfl
        omega
    have habs : s.main.deferred = true ∧ connectedOf s.log = connectedOf s2.log := by
      refine run_inv (P := fun x => x.main.deferred = true ∧ connectedOf x.log = connectedOf s2.log) ?_ hr ⟨hd, rfl⟩
      rintro x b x' ⟨k1, k2⟩ hs
      cl_cases b hs
      all_goals (simp_all [State.closeReady, State.closeReaderDone, State.closeWriterDone, State.closeClientDone, State.report, State.send,
        State.setCall, connectedOf, MainPc.deferred])
    have c2 : connectedOf s2.log = connectedOf l1 := by
      rw [e2, connectedOf_append]; simp [connectedOf]
    have c3 : connectedOf s.log = connectedOf l1 ++ connectedOf l2 := by
      rw [hl, connectedOf_append]; rfl
    have c4 : connectedOf l2 = [] := by
      have := habs.2.trans c2
      rw [c3] at this
      simpa using this
    refine ⟨c4, ?_⟩
    cases hid : s2.id with
    | some id =>
      left
      refine ⟨id, ?_⟩
      rw [← c2, i2.conn, hid]
      have : ¬ (s2.main.preHs = true ∨ s2.main = .hsVerified) := by
        revert hd; cases s2.main <;> simp [MainPc.deferred, MainPc.preHs]
      rw [if_neg this]; rfl
    | none =>
      right
      have hside := side_reach (Reachable.step r1 st)
      refine ⟨?_, ?_, ?_⟩
      · cases side with
        | outbound => rfl
        | inbound =>
          have := i2.discIn hside (by rw [e2, disconnects_append]; have : disconnects [(.disconnected : Event ε)] = 1 := rfl; omega)
          rw [hid] at this; cases this
      · rw [habs.2, i2.conn, hid]; simp
      · have he := i2.err (by revert hd; cases s2.main <;> simp [MainPc.deferred, MainPc.undecided]) (by rw [hid]; rfl)
        rw [err_reach (Reachable.step r1 st), e2, reportedOf_append] at he
        intro hnil
        rw [hnil] at he
        cases he

example (id : ID) : ∃ s : State Nat, client .inbound (connectIn id ++ [.readFail 1, .main, .main, .closeConn, .main, .main, .main, .main]) = some s ∧
    connectedOf s.log = [some id] ∧ disconnects s.log = 1 := ⟨_, rfl, rfl, rfl⟩

/-- C30 is false: on an outbound connection whose handshake failed before a key was established, any message the peer sends - in plain text - is put on the
work queue, with no peer identity. -/
theorem C30_plaintext_delivered_refuted (e : ε) (m : Message) : ∃ (as : List (Action ε)) (s : State ε), run (State.new .outbound) as = some s ∧ .delivered m none false ∈ s.log :=
  ⟨[.main, .dialOK, .hsFail e, .main, .main, .arrive, .readMsg m, .main, .deliver], _, rfl, List.mem_append_right _ (List.mem_singleton.2 rfl)⟩

/-- C30, what does hold: a message reaches the work queue either with the verified ID of the peer under the session key, after `OnPeerConnected` was called with that
ID, or - only on an outbound connection - after an error was reported. Missing: outbound connections with a failed handshake (refuted above). -/
theorem C30_delivered_partial (side : Side) (s : State ε) (h : Reachable side s) (l1 l2 : List (Event ε)) (m : Message) (x : Option ID) (b : Bool)
    (hl : s.log = l1 ++ .delivered m x b :: l2) :
    (∃ id, x = some id ∧ b = true ∧ .connected (some id) ∈ l1) ∨ (side = .outbound ∧ x = none ∧ reportedOf l1 ≠ []) := by
  obtain ⟨s1, a, s2, as, r1, st, e1, e2, hr⟩ := log_event h hl
  have r2 := Reachable.step r1 st
  have i2 := CbInv.reach r2
  obtain ⟨k1, k2, k3, k4⟩ := i2.deliv m x b (by rw [e2]; simp)
  have c2 : connectedOf s2.log = connectedOf l1 := by rw [e2, connectedOf_append]; simp [connectedOf]
  have hpre : ¬ (s2.main.preHs = true ∨ s2.main = .hsVerified) := by
    rw [delivered_step st (by rw [e2, e1])]; simp [MainPc.preHs]
  cases hid : s2.id with
  | some id =>
    refine Or.inl ⟨id, k1.trans hid, k2.trans (i2.suite (by rw [hid]; rfl)), ?_⟩
    have hc := i2.conn
    rw [if_neg hpre, hid, c2] at hc
    have : some id ∈ connectedOf l1 := by rw [hc]; simp
    unfold connectedOf at this
    obtain ⟨ev, he, hev⟩ := List.mem_filterMap.1 this
    cases ev <;> simp at hev
    subst hev
    exact he
  | none =>
    refine Or.inr ⟨?_, k1.trans hid, ?_⟩
    · cases side with
      | outbound => rfl
      | inbound =>
        have := k4 (side_reach r2)
        rw [hid] at this; cases this
    · have he := i2.err (by revert k3; cases s2.main <;> simp [MainPc.noWriter, MainPc.undecided]) (by rw [hid]; rfl)
      rw [err_reach r2, e2, reportedOf_append] at he
      intro hnil
      rw [hnil] at he
      cases he

example (id : ID) (m : Message) : ∃ s : State Nat, client .inbound (connectIn id ++ [.arrive, .readMsg m, .main, .deliver]) = some s ∧
    s.log = [.connected (some id), .processed m false, .delivered m (some id) true] := ⟨_, rfl, rfl⟩

/-- C31: in no schedule is a lifecycle channel closed twice (or any other panic of `close(ch)`), and when `WaitUntilClosed` returns, `WaitUntilReady` returns too and
the client has left the pool. -/
theorem C31_lifecycle (side : Side) (s : State ε) (h : Reachable side s) :
    s.crashed = false ∧ (s.clientDone = true → s.ready = true ∧ s.inPool = false) := by
  have inv := Life.reach h
  refine ⟨inv.crashed, fun hc => ?_⟩
  have hm := inv.client.1 hc
  exact ⟨by rw [inv.ready, hm]; rfl, inv.pool (Or.inr hm)⟩

/-- C32 is false (1): if `Close` is called while the dial is still running, the dial goes on, and the connection is used as if nothing had happened; no further call
of `Close` does anything, and unless the peer sends something or drops the connection, the client never terminates. -/
theorem C32_close_during_dial_refuted (id : ID) : ∃ (as : List (Action ε)) (s : State ε), run (State.new .outbound) (.main :: .closeBegin :: .closeConn :: as) = some s ∧
    s.main = .recv ∧ s.conn = .open ∧
    ∀ bs s', (∀ b ∈ bs, (∀ m, b ≠ .readMsg m) ∧ (∀ e, b ≠ .readFail e)) → run s bs = some s' → s'.conn = .open ∧ s'.clientDone = false := by
  refine ⟨[.dialOK, .arrive, .hsKey, .arrive, .hsOK id, .main, .main, .main], _, rfl, rfl, rfl, ?_⟩
  intro bs s' hb hr
  have : s'.main = .recv ∧ s'.conn = .open ∧ s'.once = .done ∧ s'.clientDone = false := by
    refine run_inv' (P := fun x => x.main = .recv ∧ x.conn = .open ∧ x.once = .done ∧ x.clientDone = false)
      (Q := fun b => (∀ m, b ≠ .readMsg m) ∧ (∀ e, b ≠ .readFail e)) ?_ hb hr ⟨rfl, rfl, rfl, rfl⟩
    rintro x a x' ⟨h1, h2, h3, h4⟩ hq hs
    cl_cases a hs
    all_goals grind [State.closeReady, State.closeReaderDone, State.closeWriterDone, State.closeClientDone, State.report, State.send, State.setCall]
  exact ⟨this.2.1, this.2.2.2⟩

/-- C32 is false (2): if the work queue accepts nothing (for example because the node has not called Listen, or all its workers have stopped), the client does not
terminate after `Close`. -/
theorem C32_close_blocked_refuted (m : Message) (s : State ε) (hm : s.main = .delivering m) (hd : s.clientDone = false) (bs : List (Action ε)) (s' : State ε)
    (hb : ∀ b ∈ bs, b ≠ .deliver) (hr : run s bs = some s') : s'.clientDone = false := by
  have : s'.main = .delivering m ∧ s'.clientDone = false := by
    refine run_inv' (P := fun x => x.main = .delivering m ∧ x.clientDone = false) (Q := fun b => b ≠ .deliver) ?_ hb hr ⟨hm, hd⟩
    rintro x a x' ⟨h1, h2⟩ hq hs
    cl_cases a hs
    all_goals grind [State.closeReady, State.closeReaderDone, State.closeWriterDone, State.closeClientDone, State.report, State.send, State.setCall]
  exact this.2

/-- Such states are reached. -/
theorem C32_close_blocked_witness (id : ID) (m : Message) : ∃ s : State Nat, client .outbound (connectOut id ++ [.arrive, .readMsg m, .main, .closeBegin, .closeConn]) = some s ∧
    s.main = .delivering m ∧ s.conn = .closed ∧ s.clientDone = false := ⟨_, rfl, rfl, rfl, rfl⟩

/-- C32, what does hold: a call of `Close` on a client that has a connection closes it; from then on the main goroutine makes at most `4 * frames + 12` further
steps, `frames` being the number of complete frames already received, and until it has terminated it can make one - by itself, unless it is
waiting for the work queue. (So with any fair schedule and a work queue that accepts, the client terminates.) Missing: the two cases refuted above. -/
theorem C32_close_terminates_partial (side : Side) (s : State ε) (h : Reachable side s) (hc : s.conn ≠ .none) (e : ε) :
    (s.once = .fresh → ∃ s1, run s [.closeBegin, .closeConn] = some s1 ∧ s1.conn = .closed) ∧
    (s.conn = .closed → (∀ as s', run s as = some s' → s'.conn = .closed ∧ as.countP (·.isMain) ≤ 4 * s.rbuf + 12) ∧
      (s.clientDone = true ∨ (∃ a : Action ε, a.isMain = true ∧ (step s a).isSome = true ∧ (a = .deliver → ∃ m, s.main = .delivering m)))) := by
  have inv := ConnInv.reach h
  refine ⟨?_, ?_⟩
  · intro ho
    refine ⟨_, by simp only [run, step, State.closeBegin, State.closeConn, ho, if_true]; rfl, ?_⟩
    simp [hc]
  · intro hcl
    refine ⟨?_, ?_⟩
    · intro as s' hr
      obtain ⟨k1, k2⟩ := mainLeft_run hcl inv hr
      refine ⟨k1, ?_⟩
      have : s.main.rank ≤ 12 := by cases s.main <;> simp [MainPc.rank]
      unfold State.mainLeft at k2
      omega
    · cases hm : s.main with
      | finished => exact Or.inl ((Life.reach h).client.2 hm)
      | hs => exact Or.inr ⟨.hsFail e, rfl, by simp [step, hm], by simp⟩
      | recv => exact Or.inr ⟨.readFail e, rfl, by simp [step, hm], by simp⟩
      | delivering m => exact Or.inr ⟨.deliver, rfl, by simp [step, hm], by simp⟩
      | dialing => have := inv.pre (by rw [hm]; rfl); exact absurd this hc
      | afterHs => refine Or.inr ⟨.main, rfl, ?_, by simp⟩; simp only [step, State.mainStep, hm]; split <;> rfl
      | closing b => refine Or.inr ⟨.main, rfl, ?_, by simp⟩; simp [step, State.mainStep, hm, inv.once hcl]
      | init => have := inv.pre (by rw [hm]; rfl); exact absurd this hc
      | _ => refine Or.inr ⟨.main, rfl, ?_, by simp⟩; simp [step, State.mainStep, hm]

example (id : ID) : ∃ s : State Nat, client .inbound (connectIn id ++ [.arrive, .closeBegin, .closeConn]) = some s ∧ s.conn = .closed ∧ s.rbuf = 1 := ⟨_, rfl, rfl, rfl⟩

/-- C33 is false: `WaitUntilClosed` may return while the writer goroutine is in the middle of a batch, and it can then still hand messages to the connection and
report errors. -/
theorem C33_writer_outlives_refuted (side : Side) (id : ID) (m : Message) (e : ε) : ∃ (as : List (Action ε)) (s s' : State ε), run (State.new side) as = some s ∧
    s.clientDone = true ∧ s.writer = .batch [m] ∧ run s [.writer, .writerFail e] = some s' ∧ wroteOf s'.log = wroteOf s.log ++ [m] ∧
    reportedOf s'.log = reportedOf s.log ++ [e] := by
  cases side
  · exact ⟨connectIn id ++ [.send m, .writer, .writer, .readFail e, .main, .main, .closeConn, .main, .main, .main, .main], _, _, rfl, rfl, rfl, rfl, rfl, rfl⟩
  · exact ⟨connectOut id ++ [.send m, .writer, .writer, .readFail e, .main, .main, .closeConn, .main, .main, .main, .main], _, _, rfl, rfl, rfl, rfl, rfl, rfl⟩

/-- C33, what does hold: when `WaitUntilClosed` returns, the main goroutine has ended, and the writer makes at most `|batch| + 4` more steps, where `batch` is what it was
writing; nothing new is ever written, and until it has ended it can make a step. Missing: waiting for the writer (refuted above). -/
theorem C33_writer_ends_partial (side : Side) (s : State ε) (h : Reachable side s) (hc : s.clientDone = true) (e : ε) :
    s.main = .finished ∧ (∀ as s', run s as = some s' → as.countP (·.isWriter) ≤ s.writer.pending.length + 4 ∧ (∀ a ∈ as, a.isMain = false)) ∧
    (s.writer = .notStarted ∨ s.writer = .ended ∨ ∃ a : Action ε, a.isWriter = true ∧ (step s a).isSome = true) := by
  have inv := ConnInv.reach h
  have life := Life.reach h
  have hm := life.client.1 hc
  have hw : s.writer ≠ .notStarted → s.writerClosed = true := fun hw => inv.closed.2 (by rw [inv.deferred (by rw [hm]; rfl) (inv.writer hw)]; simp)
  refine ⟨hm, ?_, ?_⟩
  · intro as s' hr
    constructor
    · have h1 := writerLeft_run life hc hw hr
      have : s.writer.rank ≤ s.writer.pending.length + 4 := by cases s.writer <;> simp [WriterPc.rank, WriterPc.pending]
      omega
    · clear hw inv h life hc
      induction as generalizing s with
      | nil => intro a ha; cases ha
      | cons b bs ih =>
        simp only [run] at hr
        cases hst : step s b with
        | none => rw [hst] at hr; cases hr
        | some s1 =>
          rw [hst] at hr
          have hb : b.isMain = false ∧ s1.main = .finished := by
            clear ih hr
            cl_cases b hst
            all_goals simp_all [Action.isMain, State.send, State.report, State.setCall, State.closeWriterDone]
          intro a ha
          rcases List.mem_cons.1 ha with rfl | ha
          · exact hb.1
          · exact ih s1 hb.2 hr a ha
  · cases hx : s.writer with
    | notStarted => exact Or.inl rfl
    | ended => exact Or.inr (Or.inl rfl)
    | wait => exact Or.inr (Or.inr ⟨.writerFail e, rfl, by simp [step, hx]⟩)
    | batch l => exact Or.inr (Or.inr ⟨.writerFail e, rfl, by simp [step, hx]⟩)
    | _ => exact Or.inr (Or.inr ⟨.writer, rfl, by simp [step, State.writerStep, hx]⟩)

example (id : ID) : ∃ s : State Nat, client .inbound (connectIn id ++ [.readFail 1, .main, .main, .closeConn, .main, .main, .main, .main]) = some s ∧
    s.clientDone = true ∧ s.writer = .check := ⟨_, rfl, rfl, rfl⟩

end Noise
