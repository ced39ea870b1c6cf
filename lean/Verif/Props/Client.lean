import Verif.Proofs.ClientTrace
/-! # Properties C22, C23, C25-C27: requests and sending on one connection -/
set_option linter.unusedSimpArgs false
namespace Noise
open Spec Cl
variable {ε : Type}

/-- Run a schedule on a new client. -/
def client (side : Side) (as : List (Action ε)) : Option (State ε) := run (State.new side) as

/-- An outbound client that dials, completes the handshake and starts its loops. -/
def connectOut (id : ID) : List (Action ε) :=
  [.main, .dialOK, .arrive, .hsKey, .arrive, .hsOK id, .main, .main, .main]

/-- The same for an inbound one. -/
def connectIn (id : ID) : List (Action ε) := [.main, .arrive, .hsKey, .arrive, .hsOK id, .main, .main, .main]

/-- C22: in every schedule, assign to each call of Request that returned a message the place in the log where the connection processed that message: the
message carries the nonce under which the call was registered earlier, and no two calls share a place. -/
theorem C22_responses (side : Side) (s : State ε) (h : Reachable side s) :
    ∃ place : Nat → Nat, ∀ i m, .returned i m ∈ s.log →
      s.log[place i]? = some (.processed m true) ∧
      (∃ q, q < place i ∧ s.log[q]? = some (.registered i m.nonce)) ∧
      (∀ n, .registered i n ∈ s.log → n = m.nonce) ∧
      (∀ j m', .returned j m' ∈ s.log → place j = place i → j = i ∧ m' = m) := by
  classical
  have inv := ReqsOK.reach h
  refine ⟨fun i => ((s.calls[i]?.bind (·.chan)).map Prod.snd).getD 0, ?_⟩
  have key : ∀ i m, .returned i m ∈ s.log → ∃ c p, s.calls[i]? = some c ∧ c.chan = some (m, p) ∧
      ((s.calls[i]?.bind (·.chan)).map Prod.snd).getD 0 = p := by
    intro i m hm
    obtain ⟨c, hc, hst⟩ := (inv.ret i m).1 hm
    obtain ⟨p, hp⟩ := inv.retChan i c m hc hst
    exact ⟨c, p, hc, hp, by simp [hc, hp]⟩
  intro i m hm
  obtain ⟨c, p, hc, hp, e⟩ := key i m hm
  obtain ⟨k1, k2, q, k3, k4⟩ := inv.chan i c m p hc hp
  simp only [e]
  refine ⟨k1, ⟨q, k3, by rw [k2]; exact k4⟩, ?_, ?_⟩
  · intro n hn
    obtain ⟨d, hd, hdn⟩ := (inv.reg i n).1 hn
    rw [hc] at hd
    injection hd with hd
    subst hd
    exact hdn.symm.trans k2.symm
  · intro j m' hm' hpl
    obtain ⟨d, p', hd, hp', e'⟩ := key j m' hm'
    rw [e'] at hpl
    subst hpl
    have hij := inv.inj j i d c m' m p' hd hc hp' hp
    subst hij
    rw [hc] at hd
    injection hd with hd
    subst hd
    rw [hp] at hp'
    injection hp' with hp'
    injection hp' with hp'
    exact ⟨rfl, hp'.symm⟩

/-- Two concurrent requests answered in the opposite order: each gets its own answer. -/
example (id : ID) (a b : Bytes) : ∃ s : State Nat, client .outbound (connectOut id ++
    [.reqStart [1], .reqStart [2], .reqSend 0, .reqSend 1, .arrive, .arrive, .readMsg ⟨2, b⟩, .main, .readMsg ⟨1, a⟩, .main, .reqTake 0, .reqTake 1]) = some s ∧
    s.log = [.connected (some id), .registered 0 1, .registered 1 2, .submitted ⟨1, [1]⟩, .submitted ⟨2, [2]⟩, .processed ⟨2, b⟩ true,
      .processed ⟨1, a⟩ true, .returned 0 ⟨1, a⟩, .returned 1 ⟨2, b⟩] :=
  ⟨_, rfl, rfl⟩

/-- C23 is false: when the main goroutine of the client has ended (the connection is gone) and a Request is still waiting without an answer, then it waits
forever - in no continuation does it return, unless its context ends. -/
theorem C23_blocked_forever_refuted (s : State ε) (hfin : s.clientDone = true) (side : Side) (hr : Reachable side s) (i : Nat) (c : Call)
    (hc : s.calls[i]? = some c) (hw : c.st = .waiting) (hn : c.chan = none) (as : List (Action ε)) (s' : State ε) (hno : ∀ a ∈ as, a ≠ .reqCancel i)
    (h : run s as = some s') : s'.calls[i]? = some c ∧ step s' (.reqTake i) = none := by
  have hmain := (Life.reach hr).client.1 hfin
  have inv : s'.main = .finished ∧ s'.calls[i]? = some c := by
    refine run_inv' (P := fun x => x.main = .finished ∧ x.calls[i]? = some c) (Q := fun a => a ≠ .reqCancel i) ?_ hno h ⟨hmain, hc⟩
    rintro x a x' ⟨h1, h2⟩ hq hs
    have hlt : i < x.calls.length := (List.getElem?_eq_some_iff.1 h2).1
    cl_cases a hs
    all_goals grind [State.closeReady, State.closeReaderDone, State.closeWriterDone, State.closeClientDone, State.report, State.send, State.setCall]
  refine ⟨inv.2, ?_⟩
  simp [step, inv.2, hw, hn]

/-- Such states occur: a request is sent, the peer closes the connection. -/
theorem C23_witness (side : Side) (id : ID) (e : ε) : ∃ (as : List (Action ε)) (s : State ε) (c : Call), run (State.new side) as = some s ∧ s.clientDone = true ∧ s.conn = .closed ∧
    s.calls[0]? = some c ∧ c.st = .waiting ∧ c.chan = none := by
  cases side
  · exact ⟨connectIn id ++ [.reqStart [1], .reqSend 0, .readFail e, .main, .main, .closeConn, .main, .main, .main, .main], _, _, rfl, rfl, rfl, rfl, rfl, rfl⟩
  · exact ⟨connectOut id ++ [.reqStart [1], .reqSend 0, .readFail e, .main, .main, .closeConn, .main, .main, .main, .main], _, _, rfl, rfl, rfl, rfl, rfl, rfl⟩

/-- C23, what does hold: a waiting Request can always return when its context ends, and whenever the connection processes a message with its nonce first,
the Request can return it. Missing: returning when the connection drops (refuted above). -/
theorem C23_returns_partial (side : Side) (s : State ε) (h : Reachable side s) (i : Nat) (c : Call) (hc : s.calls[i]? = some c) (hw : c.st = .waiting) :
    (∃ s', step s (.reqCancel i) = some s') ∧
    (∀ m p, c.chan = some (m, p) → ∃ s', step s (.reqTake i) = some s' ∧ s'.log = s.log ++ [.returned i m]) ∧
    (c.chan = none → ∀ m, s.main = .routing m → m.nonce = c.nonce → s.reqs.entries c.nonce = some i →
      ∃ s' p, step s .main = some s' ∧ s'.calls[i]? = some { c with chan := some (m, p) }) := by
  have inv := ReqsOK.reach h
  refine ⟨?_, ?_, ?_⟩
  · simp [step, hc, hw]
  · intro m p hp
    have := (inv.chan i c m p hc hp).2.1
    have h0 : m.nonce ≠ 0 := by rw [this]; exact inv.nz i c hc
    simp [step, hc, hw, hp, h0, State.setCall]
  · intro hn m hm hmn he
    have hf : s.reqs.findRequest m.nonce = ({ s.reqs with entries := fun n => if n = m.nonce then none else s.reqs.entries n }, some i) := by
      unfold RequestMap.findRequest; rw [hmn, he]
    refine ⟨_, s.log.length, by simp only [step, State.mainStep, hm, State.route, hf]; rfl, ?_⟩
    simp [List.getElem?_modify, hc]

/-- C25 is false: once a request has been answered, a second message with its nonce - a second response - is put on the work queue, where the
handlers see it as an incoming request (its nonce is not zero). -/
theorem C25_second_response_refuted (s : State ε) (m : Message) (hm : s.main = .recv) (hb : 0 < s.rbuf) (hn : s.reqs.entries m.nonce = none)
    (h0 : m.nonce ≠ 0) : ∃ s', run s [.readMsg m, .main, .deliver] = some s' ∧ .delivered m s.id s.suite ∈ s'.log ∧ m.isRequest = true := by
  have hf : s.reqs.findRequest m.nonce = (s.reqs, none) := by unfold RequestMap.findRequest; rw [hn]
  refine ⟨_, by simp only [run, step, hm, hb, and_self, if_true, State.mainStep, State.route, hf]; rfl, by simp, ?_⟩
  simp only [Message.isRequest, decide_eq_true_eq]
  rw [gt_iff_lt, UInt64.lt_iff_toNat_lt]
  have : m.nonce.toNat ≠ 0 := fun e => h0 (UInt64.toNat_inj.1 (by simpa using e))
  simp; omega

/-- Instance: one request, two responses from the peer (which happens whenever two handlers of the peer answer, see C24). -/
theorem C25_second_response_witness (id : ID) (a b : Bytes) : ∃ s : State Nat, client .outbound (connectOut id ++
    [.reqStart [1], .reqSend 0, .arrive, .arrive, .readMsg ⟨1, a⟩, .main, .reqTake 0, .readMsg ⟨1, b⟩, .main, .deliver]) = some s ∧
    s.log = [.connected (some id), .registered 0 1, .submitted ⟨1, [1]⟩, .processed ⟨1, a⟩ true, .returned 0 ⟨1, a⟩, .processed ⟨1, b⟩ false,
      .delivered ⟨1, b⟩ (some id) true] :=
  ⟨_, rfl, rfl⟩

/-- C25, what does hold: a message with the nonce of one of this node's requests is sent on to the handlers only if an earlier message with that nonce was
handed to a request after the registration; and the handlers get, in order, exactly the messages that no request claimed. (So the first response never
reaches the handlers, even if the caller gave up.) Missing: further responses (refuted above). -/
theorem C25_first_response_partial (side : Side) (s : State ε) (h : Reachable side s) :
    (∀ l1 l2 l3 i m, s.log = l1 ++ .registered i m.nonce :: (l2 ++ .processed m false :: l3) → ∃ m', .processed m' true ∈ l2 ∧ m'.nonce = m.nonce) ∧
    deliveredOf s.log <+: toHandlersOf s.log := by
  refine ⟨fun l1 l2 l3 i m hl => unclaimed_answered h _ l1 l2 l3 i m rfl hl, ?_⟩
  rw [handlers_reach h]
  exact List.prefix_append _ _

/-- A response that arrives after the caller gave up is swallowed. -/
example (id : ID) (a : Bytes) : ∃ s : State Nat, client .outbound (connectOut id ++
    [.reqStart [1], .reqSend 0, .reqCancel 0, .arrive, .readMsg ⟨1, a⟩, .main]) = some s ∧ s.main = .recv ∧ deliveredOf s.log = [] ∧ toHandlersOf s.log = [] :=
  ⟨_, rfl, rfl, rfl, rfl⟩

/-- C26: in every schedule the messages put on the wire are a prefix of the messages submitted, in the order of submission. -/
theorem C26_fifo (side : Side) (s : State ε) (h : Reachable side s) : wroteOf s.log <+: submittedOf s.log := (Fifo.reach h).pre

example (id : ID) : ∃ s : State Nat, client .inbound (connectIn id ++
    [.send ⟨0, [1]⟩, .writer, .writer, .send ⟨0, [2]⟩, .reqStart [3], .writer, .reqSend 0, .writer, .writer, .writer, .writer, .writer]) = some s ∧
    wroteOf s.log = [⟨0, [1]⟩, ⟨0, [2]⟩] ∧ submittedOf s.log = [⟨0, [1]⟩, ⟨0, [2]⟩, ⟨1, [3]⟩] :=
  ⟨_, rfl, rfl, rfl⟩

/-- After `close()` has been called, the writer puts at most what it had already taken on the wire. -/
theorem closed_no_more {side : Side} {s s' : State ε} (h : Reachable side s) (hc : s.once ≠ .fresh) {as : List (Action ε)} (hr : run s as = some s') :
    wroteOf s'.log ++ s'.writer.pending <+: wroteOf s.log ++ s.writer.pending := by
  generalize hT : wroteOf s.log ++ s.writer.pending = T
  have hP : s'.writerClosed = true ∧ (s'.main.noWriter = true → s'.writer = .notStarted) ∧ wroteOf s'.log ++ s'.writer.pending <+: T := by
    refine run_inv (P := fun x => x.writerClosed = true ∧ (x.main.noWriter = true → x.writer = .notStarted) ∧
      wroteOf x.log ++ x.writer.pending <+: T) ?_ hr ⟨(ConnInv.reach h).closed.2 hc, (ConnInv.reach h).early, hT ▸ List.prefix_refl _⟩
    clear hr hT hc h
    rintro x a x' ⟨h1, h2, h3⟩ hs
    cl_cases a hs
    all_goals (simp_all [State.closeReady, State.closeReaderDone, State.closeWriterDone, State.closeClientDone, State.report, State.send,
      State.setCall, wroteOf, WriterPc.pending, MainPc.noWriter])
    all_goals exact (List.prefix_append _ _).trans h3
  exact hP.2.2

/-- C27 is false: after `close()` has been called in any way, Send still returns nil (the model's `send`, like the code's, has no other outcome), and in no
continuation does the message it submitted get on the wire: at most the messages submitted before are. -/
theorem C27_send_after_close_refuted (side : Side) (s : State ε) (h : Reachable side s) (hc : s.once ≠ .fresh) (m : Message) :
    ∃ s1, step s (.send m) = some s1 ∧ submittedOf s1.log = submittedOf s.log ++ [m] ∧
      ∀ as s', run s1 as = some s' → (wroteOf s'.log).length ≤ (submittedOf s.log).length := by
  refine ⟨s.send m, rfl, by simp [State.send]; rfl, ?_⟩
  intro as s' hr
  have h1 := closed_no_more (Reachable.step h (a := .send m) rfl) (s := s.send m) hc hr
  have h2 : (wroteOf s.log ++ s.writer.pending) <+: submittedOf s.log := by
    by_cases hst : s.writer.stopped = true
    · have : s.writer.pending = [] := by
        cases hw : s.writer <;> simp_all [WriterPc.stopped, WriterPc.pending]
      rw [this, List.append_nil]
      exact (Fifo.reach h).pre
    · rw [(Fifo.reach h).exact (by simpa using hst)]
      exact List.prefix_append _ _
  have h3 : wroteOf (s.send m).log = wroteOf s.log := by simp [State.send, wroteOf]
  have h4 : (s.send m).writer = s.writer := rfl
  rw [h3, h4] at h1
  have := (h1.trans h2).length_le
  rw [List.length_append] at this
  omega

theorem C27_closed_witness (id : ID) : ∃ s : State Nat, client .outbound (connectOut id ++ [.closeBegin, .closeConn]) = some s ∧ s.once = .done ∧ s.conn = .closed :=
  ⟨_, rfl, rfl, rfl⟩

/-- The writer alone writes its batch. -/
theorem write_batch (s : State ε) (l : List Message) (hw : s.writer = .batch l) (hc : s.conn ≠ .closed) :
    run s (List.replicate (l.length + 1) .writer) =
      some { s with writer := .cb, log := s.log ++ l.map .wrote ++ [.flushed] } := by
  induction l generalizing s with
  | nil => simp [run, step, State.writerStep, hw, hc]
  | cons m l ih =>
    have : List.replicate ((m :: l).length + 1) (Action.writer : Action ε) = .writer :: List.replicate (l.length + 1) .writer := by
      rw [List.length_cons, List.replicate_succ]
    rw [this]
    have hst : step s .writer = some { s with writer := .batch l, log := s.log ++ [.wrote m] } := by simp only [step, State.writerStep, hw]
    simp only [run, hst]
    rw [ih { s with writer := .batch l, log := s.log ++ [.wrote m] } rfl hc]
    simp

/-- C27, what does hold: as long as `close()` has not been called and the receive loop runs, scheduling the writer (without a write error) for at most
`submitted - wrote + 5` steps puts everything submitted so far on the wire and flushes it. Missing: an error for closed connections (refuted above). -/
theorem C27_send_transmits_partial (side : Side) (s : State ε) (h : Reachable side s) (hc : s.once = .fresh) (hr : s.readerDone = false)
    (hw : s.writer ≠ .notStarted ∧ s.writer ≠ .ending ∧ s.writer ≠ .ended) (hs : wroteOf s.log ≠ submittedOf s.log) :
    ∃ k s', k ≤ (submittedOf s.log).length - (wroteOf s.log).length + 5 ∧ run s (List.replicate k .writer) = some s' ∧
      wroteOf s'.log = submittedOf s.log ∧ submittedOf s'.log = submittedOf s.log ∧ ∃ l, s'.log = l ++ [.flushed] := by
  have inv := ConnInv.reach h
  have hcc : s.conn ≠ .closed := fun e => by rw [inv.once e] at hc; cases hc
  have hwc : s.writerClosed = false := by
    cases hx : s.writerClosed with
    | false => rfl
    | true => exact absurd hc (inv.closed.1 hx)
  have hcd : s.clientDone = false := by
    cases hx : s.clientDone with
    | false => rfl
    | true =>
      have hm := (Life.reach h).client.1 hx
      have := inv.deferred (by rw [hm]; rfl) (inv.writer hw.1)
      rw [this] at hc; cases hc
  -- from `wait` with a non-empty queue
  have fromWait : ∀ t : State ε, t.writer = .wait → t.writerClosed = false → t.conn ≠ .closed → t.writerBuf ≠ [] →
      run t (List.replicate (t.writerBuf.length + 2) .writer) =
        some { t with writer := .cb, writerBuf := [], log := t.log ++ t.writerBuf.map .wrote ++ [.flushed] } := by
    intro t h1 h2 h3 h4
    rw [show t.writerBuf.length + 2 = (t.writerBuf.length + 1) + 1 from rfl, List.replicate_succ]
    have hst : step t .writer = some { t with writer := .batch t.writerBuf, writerBuf := [] } := by simp [step, State.writerStep, h1, h2, h4]
    simp only [run, hst]
    rw [write_batch { t with writer := .batch t.writerBuf, writerBuf := [] } _ rfl h3]
  have chk : ∀ t : State ε, t.writer = .check → t.readerDone = false → t.clientDone = false → step t .writer = some { t with writer := .wait } := by
    intro t h1 h2 h3
    simp [step, State.writerStep, h1, h2, h3]
  have cbk : ∀ t : State ε, t.writer = .cb → step t .writer = some { t with writer := .check, log := t.log ++ [.sentCb] } := by
    intro t h1
    simp [step, State.writerStep, h1]
  have wl : ∀ l : List Message, wroteOf (l.map (.wrote : Message → Event ε)) = l := by
    intro l
    unfold wroteOf
    rw [List.filterMap_map]
    exact List.filterMap_some
  have sl : ∀ l : List Message, submittedOf (l.map (.wrote : Message → Event ε)) = [] := by
    intro l
    unfold submittedOf
    rw [List.filterMap_map]
    simp
  have fl : wroteOf [(.flushed : Event ε)] = [] ∧ submittedOf [(.flushed : Event ε)] = [] := ⟨rfl, rfl⟩
  have cl : wroteOf [(.sentCb : Event ε)] = [] ∧ submittedOf [(.sentCb : Event ε)] = [] := ⟨rfl, rfl⟩
  have fifo := (Fifo.reach h).exact (by cases hx : s.writer <;> simp_all [WriterPc.stopped])
  have len : (submittedOf s.log).length - (wroteOf s.log).length = s.writer.pending.length + s.writerBuf.length := by
    rw [fifo]; simp
  rw [len]
  cases hx : s.writer with
  | notStarted => exact absurd hx hw.1
  | ending => exact absurd hx hw.2.1
  | ended => exact absurd hx hw.2.2
  | wait =>
    rw [hx] at fifo
    simp only [WriterPc.pending, List.append_nil] at fifo ⊢
    have hb : s.writerBuf ≠ [] := by
      intro e; rw [e, List.append_nil] at fifo; exact hs fifo.symm
    refine ⟨_, _, ?_, fromWait s hx hwc hcc hb, ?_, ?_, _, rfl⟩
    · simp
    · simp [wl, fl, fifo]
    · simp [sl, fl]
  | check =>
    rw [hx] at fifo
    simp only [WriterPc.pending, List.append_nil] at fifo ⊢
    have hb : s.writerBuf ≠ [] := by
      intro e; rw [e, List.append_nil] at fifo; exact hs fifo.symm
    have h1 := fromWait { s with writer := .wait } rfl hwc hcc hb
    have hrun := (show run s (List.replicate (s.writerBuf.length + 3) .writer) =
        run { s with writer := .wait } (List.replicate (s.writerBuf.length + 2) .writer) by
      rw [show s.writerBuf.length + 3 = (s.writerBuf.length + 2) + 1 from rfl, List.replicate_succ, run, chk s hx hr hcd]).trans h1
    refine ⟨_, _, ?_, hrun, ?_, ?_, ?_⟩
    · simp
    · simp [wl, fl, fifo]
    · simp [sl, fl]
    · exact ⟨_, rfl⟩
  | cb =>
    rw [hx] at fifo
    simp only [WriterPc.pending, List.append_nil] at fifo ⊢
    have hb : s.writerBuf ≠ [] := by
      intro e; rw [e, List.append_nil] at fifo; exact hs fifo.symm
    have h1 := fromWait { s with writer := .wait, log := s.log ++ [.sentCb] } rfl hwc hcc hb
    have hrun := (show run s (List.replicate (s.writerBuf.length + 4) .writer) =
        run { s with writer := .wait, log := s.log ++ [.sentCb] } (List.replicate (s.writerBuf.length + 2) .writer) by
      rw [show s.writerBuf.length + 4 = (s.writerBuf.length + 2) + 1 + 1 from rfl, List.replicate_succ, List.replicate_succ]
      rw [run, cbk s hx]
      simp only [run]
      rw [chk { s with writer := .check, log := s.log ++ [.sentCb] } rfl hr hcd]).trans h1
    refine ⟨_, _, ?_, hrun, ?_, ?_, ?_⟩
    · simp
    · simp only [wroteOf_append, wl, fl, cl, fifo, List.append_nil, List.append_assoc, List.nil_append]
    · simp only [submittedOf_append, sl, fl, cl, List.append_nil]
    · exact ⟨_, rfl⟩
  | batch l =>
    rw [hx] at fifo
    simp only [WriterPc.pending] at fifo ⊢
    have h0 := write_batch s l hx hcc
    by_cases hb : s.writerBuf = []
    · refine ⟨_, _, ?_, h0, ?_, ?_, _, rfl⟩
      · omega
      · simp [wl, fl, fifo, hb]
      · simp [sl, fl]
    · have h1 := fromWait { s with writer := .wait, log := s.log ++ l.map .wrote ++ [.flushed] ++ [.sentCb] } rfl hwc hcc hb
      have hrun := (show run s (List.replicate ((l.length + 1) + (s.writerBuf.length + 4)) .writer) =
          run { s with writer := .wait, log := s.log ++ l.map .wrote ++ [.flushed] ++ [.sentCb] } (List.replicate (s.writerBuf.length + 2) .writer) by
        rw [← List.replicate_append_replicate, run_append, h0]
        rw [show s.writerBuf.length + 4 = (s.writerBuf.length + 2) + 1 + 1 from rfl, List.replicate_succ, List.replicate_succ]
        rw [Option.bind_some, run, cbk { s with writer := .cb, log := s.log ++ l.map .wrote ++ [.flushed] } rfl]
        simp only [run]
        rw [chk { s with writer := .check, log := s.log ++ l.map .wrote ++ [.flushed] ++ [.sentCb] } rfl hr hcd]).trans h1
      refine ⟨_, _, ?_, hrun, ?_, ?_, ?_⟩
      · omega
      · simp only [wroteOf_append, wl, fl, cl, fifo, List.append_nil, List.append_assoc, List.nil_append]
      · simp only [submittedOf_append, sl, fl, cl, List.append_nil]
      · exact ⟨_, rfl⟩

end Noise
