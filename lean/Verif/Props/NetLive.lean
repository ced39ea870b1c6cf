import Verif.Proofs.NetAnswer
import Verif.Props.Net
import Verif.Props.Live
/-! # C133: messages arrive and requests return in a network of whole nodes -/
namespace Noise
open Spec Net
variable {ε : Type}

/-- C133: in every fair execution of a network of nodes, on a connection on which nothing fails: every message that the dialling node submits is put on the queue of the accepting node, exactly behind the messages
that were submitted before it, taken by a worker, and given to every handler in turn. Everything else in the network is arbitrary: other nodes, other connections, failures and closing there. -/
theorem C133_sent_is_handled (cfg : Nat → Node.Cfg ε) (n : Nat) (σ : Nat → Net.State ε) (α : Nat → Option (Net.Action ε)) (r : Net.FairRun cfg n σ α) (o i : End) (u : Unbroken σ α o i)
    (hNo : 0 < (cfg o.node).numWorkers) (hNi : 0 < (cfg i.node).numWorkers)
    (t : Nat) (x : Node.Conn ε) (hx : (σ t).conn o = some x) (p : Nat) (m : Message) (hm : (submittedOf x.c.log)[p]? = some m) :
    ∃ (t' : Nat) (I : Node.State ε) (q : Wk.State ε) (k w : Nat), (σ t').nodes[i.node]? = some I ∧ I.wk = some q ∧ q.items[k]? = some ⟨i.conn, m⟩ ∧
      ((q.items.take k).filter fun it => it.client = i.conn).length = p ∧ handlingOf k q.log = handledUpTo w k (cfg i.node).numHandlers :=
  u.handled r hNo hNi hx hm

/-- C133: a call of `Send` that has got this connection, and whose context does not end, returns without an error, and the message is given to every handler of the accepting node. -/
theorem C133_send_is_handled (cfg : Nat → Node.Cfg ε) (n : Nat) (σ : Nat → Net.State ε) (α : Nat → Option (Net.Action ε)) (r : Net.FairRun cfg n σ α) (o i : End) (u : Unbroken σ α o i)
    (hNo : 0 < (cfg o.node).numWorkers) (hNi : 0 < (cfg i.node).numWorkers)
    (t k : Nat) (c : Node.Call ε) (hc : CallAt σ o.node k t c) (hpc : c.pc = .select o.conn ∨ c.pc = .got o.conn) (data : Bytes) (hkind : c.kind = .send data) (hend : Endless σ o.node k) :
    (∃ t' c', t ≤ t' ∧ CallAt σ o.node k t' c' ∧ c'.pc = .returned .sent) ∧
    ∃ (t' : Nat) (I : Node.State ε) (q : Wk.State ε) (v w : Nat), (σ t').nodes[i.node]? = some I ∧ I.wk = some q ∧ q.items[v]? = some ⟨i.conn, ⟨0, data⟩⟩ ∧
      handlingOf v q.log = handledUpTo w v (cfg i.node).numHandlers := by
  obtain ⟨t1, c1, h1, hc1, hpc1, hk1⟩ : ∃ t1 c1, t ≤ t1 ∧ CallAt σ o.node k t1 c1 ∧ c1.pc = .got o.conn ∧ c1.kind = .send data := by
    rcases hpc with hpc | hpc
    · obtain ⟨t1, h1, h2⟩ := u.chosen r hNo hNi hc hpc hend
      exact ⟨t1, _, h1, h2, rfl, hkind⟩
    · exact ⟨t, c, Nat.le_refl _, hc, hpc, hkind⟩
  obtain ⟨t2, x, p, h2, hc2, hx, hm⟩ := u.sends r hc1 hpc1 hk1 hend
  obtain ⟨t', I, q, v, w, g1, g2, g3, _, g4⟩ := u.handled r hNo hNi hx hm
  exact ⟨⟨t2, _, by omega, hc2, rfl⟩, t', I, q, v, w, g1, g2, g3, g4⟩

/-- C133: a call of `Request` that has got this connection, and whose context does not end, returns a response, if one of the handlers of the accepting node answers every request with this data before it returns
(and fewer than 2^64 - 1 requests are ever made on the connection). What it returns is what a handler of that node has sent in answer to this request, during the call. -/
theorem C133_answered_request_returns (cfg : Nat → Node.Cfg ε) (n : Nat) (σ : Nat → Net.State ε) (α : Nat → Option (Net.Action ε)) (r : Net.FairRun cfg n σ α) (o i : End) (u : Unbroken σ α o i)
    (hNo : 0 < (cfg o.node).numWorkers) (hNi : 0 < (cfg i.node).numWorkers) (h : Nat) (hh : h < (cfg i.node).numHandlers) (data : Bytes) (hans : Net.AnswersTo σ α i h data)
    (hb : ∀ t x, (σ t).conn o = some x → x.c.calls.length < 2 ^ 64 - 1)
    (t k : Nat) (c : Node.Call ε) (hc : CallAt σ o.node k t c) (hpc : c.pc = .select o.conn ∨ c.pc = .got o.conn) (hkind : c.kind = .request data) (hend : Endless σ o.node k) :
    ∃ t' m c', t ≤ t' ∧ CallAt σ o.node k t' c' ∧ c'.pc = .returned (.response m) ∧ Answered σ i t t' data m := by
  obtain ⟨t1, c1, h1, hc1, hpc1, hk1⟩ : ∃ t1 c1, t ≤ t1 ∧ CallAt σ o.node k t1 c1 ∧ c1.pc = .got o.conn ∧ c1.kind = .request data := by
    rcases hpc with hpc | hpc
    · obtain ⟨t1, h1, h2⟩ := u.chosen r hNo hNi hc hpc hend
      exact ⟨t1, _, h1, h2, rfl, hkind⟩
    · exact ⟨t, c, Nat.le_refl _, hc, hpc, hkind⟩
  obtain ⟨t2, q, x, d, h2, hc2, hx, hd, hdd, hnew⟩ := u.starts r hc1 hpc1 hk1 hend hb
  obtain ⟨t', m, c', h3, h4, h5, x', d', hx', hd', hst⟩ := u.returns r hNo hNi hh hans hc2 rfl ⟨x, d, hx, hd, hdd⟩ hend
  obtain ⟨x1, g1, g2⟩ := r.grows h3 hx
  rw [hx'] at g1; cases g1
  obtain ⟨d1, g3, -, g4⟩ := g2 q d hd
  rw [hd'] at g3; cases g3
  obtain ⟨I, w, v, f, e1, e2, e3, e4, e5⟩ := u.answer (t := t1) r hb hx' hd' hst hnew
  refine ⟨t', m, c', by omega, h4, h5, I, w, v, f, e1, e2, by rw [e3, g4, hdd], e4, fun J w' hJ hw' => ?_⟩
  by_contra hlt
  have := e5 t J w' (by omega) hJ hw' (by omega)
  omega

/-- C133: a call of `Request` that has got this connection, and whose context does not end, returns a response, if one of the handlers of the accepting node answers every request before it returns
(and fewer than 2^64 - 1 requests are ever made on the connection). -/
theorem C133_request_returns (cfg : Nat → Node.Cfg ε) (n : Nat) (σ : Nat → Net.State ε) (α : Nat → Option (Net.Action ε)) (r : Net.FairRun cfg n σ α) (o i : End) (u : Unbroken σ α o i)
    (hNo : 0 < (cfg o.node).numWorkers) (hNi : 0 < (cfg i.node).numWorkers) (h : Nat) (hh : h < (cfg i.node).numHandlers) (hans : Net.Answers σ α i h)
    (hb : ∀ t x, (σ t).conn o = some x → x.c.calls.length < 2 ^ 64 - 1)
    (t k : Nat) (c : Node.Call ε) (hc : CallAt σ o.node k t c) (hpc : c.pc = .select o.conn ∨ c.pc = .got o.conn) (data : Bytes) (hkind : c.kind = .request data) (hend : Endless σ o.node k) :
    ∃ t' m c', t ≤ t' ∧ CallAt σ o.node k t' c' ∧ c'.pc = .returned (.response m) := by
  obtain ⟨t', m, c', h1, h2, h3, -⟩ := C133_answered_request_returns cfg n σ α r o i u hNo hNi h hh data (fun t w k it X q h1 h2 h3 h4 h5 h6 h7 _ => hans t w k it X q h1 h2 h3 h4 h5 h6 h7) hb t k c hc hpc hkind hend
  exact ⟨t', m, c', h1, h2, h3⟩

/-! ### A concrete fair execution: node 0 makes a request to node 1, whose handler answers it and returns, and then nothing happens any more -/

/-- The execution that does this list of actions and then nothing. -/
def playAt (cfg : Nat → Node.Cfg ε) (s : Net.State ε) (as : List (Net.Action ε)) (t : Nat) : Net.State ε := (runs (Net.step cfg) s (as.take t)).getD s

theorem playAt_exec {cfg : Nat → Node.Cfg ε} {s s' : Net.State ε} {as : List (Net.Action ε)} (h : runs (Net.step cfg) s as = some s') :
    Execution (Net.step cfg) (playAt cfg s as) (fun t => as[t]?) ∧ ∀ t, as.length ≤ t → playAt cfg s as t = s' := by
  refine ⟨?_, ?_⟩
  · intro t
    by_cases ht : t < as.length
    · right
      refine ⟨as[t], List.getElem?_eq_getElem ht, ?_⟩
      have e : as = as.take t ++ as[t] :: as.drop (t + 1) := by rw [List.getElem_cons_drop, List.take_append_drop]
      rw [e, runs_append] at h
      cases h1 : runs (Net.step cfg) s (as.take t) with
      | none => rw [h1] at h; cases h
      | some x =>
        rw [h1, Option.bind_some] at h
        have h2 : ∃ y, Net.step cfg x as[t] = some y := by
          cases h3 : Net.step cfg x as[t] with
          | none => simp [runs, h3] at h
          | some y => exact ⟨y, rfl⟩
        obtain ⟨y, h2⟩ := h2
        unfold playAt
        have h3 : runs (Net.step cfg) s (as.take (t + 1)) = some y := by
          rw [List.take_succ_eq_append_getElem ht, runs_append, h1, Option.bind_some]
          simp [runs, h2]
        rw [h1, h3]
        exact h2
    · left
      refine ⟨List.getElem?_eq_none (by omega), ?_⟩
      unfold playAt
      rw [List.take_of_length_le (by omega), List.take_of_length_le (by omega)]
  · intro t ht
    unfold playAt
    rw [List.take_of_length_le ht, h]; rfl

/-- A network in which nothing can go on by itself. -/
structure QuietNet (s : Net.State ε) : Prop where
  conns : ∀ (m : Nat) (X : Node.State ε) (j : Nat) (x : Node.Conn ε), s.nodes[m]? = some X → X.conns[j]? = some x → AtRest x.c
  calls : ∀ (m : Nat) (X : Node.State ε) (k : Nat) (c : Node.Call ε), s.nodes[m]? = some X → X.calls[k]? = some c → ∃ r, c.pc = .returned r
  works : ∀ (m : Nat) (X : Node.State ε) (q : Wk.State ε) (w : Nat), s.nodes[m]? = some X → X.wk = some q → Wk.step q (.work w) = none ∧ ∀ r, Wk.step q (.handlerReturn w r) = none
  wires : ∀ w ∈ s.wires, (∀ y, s.conn w.inn = some y → (flushedOf y.c.log).length ≤ w.readOut) ∧ ∀ y, s.conn w.out = some y → (flushedOf y.c.log).length ≤ w.readIn

theorem QuietNet.notFed {s : Net.State ε} (q : QuietNet s) (e : End) : ¬ Fed s e := by
  rintro ⟨w, hw, ⟨_, y, hy, hlt⟩ | ⟨_, y, hy, hlt⟩⟩
  · have := (q.wires w hw).1 y hy; omega
  · have := (q.wires w hw).2 y hy; omega

theorem QuietNet.conn {cfg : Nat → Node.Cfg ε} {s : Net.State ε} (q : QuietNet s) {m j : Nat} {act : Cl.Action ε} (ha : act.ofMain = true ∨ act = .deliver ∨ act = .writer) :
    Net.step cfg s (.node m (.conn j act)) = none := by
  cases hX : s.nodes[m]? with
  | none => simp only [Net.step, hX]
  | some X =>
    have hn : Node.step (cfg m) X (.conn j act) = none := by
      unfold Node.step
      split
      · rfl
      simp only [Node.State.connStep]
      cases hx : X.conns[j]? with
      | none => rfl
      | some x =>
        have hr := q.conns m X j x hX hx
        have hs : Cl.step x.c act = none := by
          rcases ha with h | rfl | rfl
          · exact hr.noMain (.inl h)
          · exact hr.noMain (.inr rfl)
          · exact hr.noWriter
        have hst : X.stepConn j act = none := by simp [Node.State.stepConn, hx, hs]
        simp only
        split
        · rw [hr.main]; exact hst
        · simp only [Node.State.deliver, hr.main]
        · rfl
        · rfl
        · rfl
        · rfl
        · rfl
        · rfl
        · rfl
        · rfl
        · exact hst
    simp only [Net.step, hX]
    split <;> (try split) <;> (try split) <;> simp_all

/-- If an execution from the start comes to a state where nothing can go on by itself and stays there, it is fair. -/
theorem net_fair_of_rest {cfg : Nat → Node.Cfg ε} {n : Nat} {s : Net.State ε} {σ : Nat → Net.State ε} {α : Nat → Option (Net.Action ε)} (he : Execution (Net.step cfg) σ α) (h0 : σ 0 = .new n) {T : Nat} (hend : ∀ t, T ≤ t → σ t = s) (q : QuietNet s) :
    Net.FairRun cfg n σ α := by
  have rest : ∀ (able : Net.State ε → Prop) (C : Net.Action ε → Prop), ¬ able s → WeaklyFair σ α able C := by
    intro able C hn t
    exact ⟨max t T, by omega, Or.inr (by rw [hend _ (by omega)]; exact hn)⟩
  have node : ∀ {m : Nat} {a : Node.Action ε}, (∀ j act, a ≠ .conn j act) → (∀ X, s.nodes[m]? = some X → Node.step (cfg m) X a = none) → ¬ (Net.step cfg s (.node m a)).isSome = true := by
    intro m a hne hn hs
    cases hX : s.nodes[m]? with
    | none => simp [Net.step, hX] at hs
    | some X =>
      have := hn X hX
      cases a <;> simp_all [Net.step]
  refine ⟨he, h0, ?_, ?_, ?_⟩
  · intro p
    apply rest
    rintro ⟨a, ⟨ha, _⟩, hs⟩
    cases p with
    | main e => obtain ⟨act, rfl, h⟩ := ha; rw [q.conn (.inl h)] at hs; cases hs
    | writer e => rw [ha, q.conn (.inr (.inr rfl))] at hs; cases hs
    | call m k =>
      have stuck : ∀ X, s.nodes[m]? = some X → ∀ b, OwnAct k b → Node.step (cfg m) X b = none := by
        intro X hX b hb
        unfold Node.step
        split
        · rfl
        cases hc : X.calls[k]? with
        | none => rcases hb with rfl | ⟨b, rfl⟩ | rfl | rfl <;> simp [hc]
        | some c =>
          obtain ⟨r, hr⟩ := q.calls m X k c hX hc
          rcases hb with rfl | ⟨b, rfl⟩ | rfl | rfl <;> simp [hc, hr, Node.State.callStep]
      obtain ⟨b, rfl, hb⟩ := OwnAct.of ha
      refine node ?_ (fun X hX => stuck X hX b hb) hs
      rcases hb with rfl | ⟨b, rfl⟩ | rfl | rfl <;> simp
    | worker m w =>
      rcases ha with rfl | ⟨r, rfl⟩
      · refine node (by simp) (fun X hX => ?_) hs
        unfold Node.step
        split
        · rfl
        simp only [Node.State.workStep]
        cases hq : X.wk with
        | none => rfl
        | some p => simp only [(q.works m X p w hX hq).1, Option.map_none]; split <;> (try split) <;> simp_all
      · refine node (by simp) (fun X hX => ?_) hs
        unfold Node.step
        split
        · rfl
        cases hq : X.wk with
        | none => rfl
        | some p => simp only [(q.works m X p w hX hq).2 r, Option.map_none]
  · intro e
    apply rest
    rintro ⟨x, hx, _, _, ⟨hm, _⟩ | hf⟩
    · obtain ⟨X, hX, hx'⟩ := conn_split hx
      rw [(q.conns _ X _ x hX hx').main] at hm; cases hm
    · exact q.notFed e hf
  · intro e hio
    obtain ⟨t, ht, a, rfl, hs⟩ := hio T
    rw [hend _ ht, q.conn (.inr (.inl rfl))] at hs; cases hs

theorem net_fair_of_quiet {cfg : Nat → Node.Cfg ε} {n : Nat} {s : Net.State ε} {as : List (Net.Action ε)} (h : runs (Net.step cfg) (.new n) as = some s) (q : QuietNet s) :
    Net.FairRun cfg n (playAt cfg (.new n) as) (fun t => as[t]?) :=
  net_fair_of_rest (playAt_exec h).1 rfl (playAt_exec h).2 q

/-- Node 0 makes a request to node 1. -/
def askAndWait (n : ID) : List (Net.Action ε) :=
  atNode 0 ([.listen, .acceptStep, .call (.request [1]) ['b'], .callStep 0] ++ connDo 0 (connectOut n)) ++ atNode 1 ([.listen, .acceptStep, .acceptConn ['x'], .acceptStep] ++ connDo 0 (connectIn n))
    ++ [.connect ⟨0, 0⟩ ⟨1, 0⟩] ++ atNode 0 ([.select 0 .ready, .callStep 0, .callStep 0] ++ connDo 0 [.writer, .writer, .writer, .writer, .writer, .writer])
    ++ atNode 1 (connDo 0 [.arrive, .readMsg ⟨1, [1]⟩, .main, .deliver, .main] ++ [.work 0, .work 0, .ctxSend 0 0 [2]] ++ connDo 0 [.writer, .writer, .writer, .writer, .writer, .writer] ++ [.handlerReturn 0 none, .work 0])
    ++ atNode 0 (connDo 0 [.arrive, .readMsg ⟨1, [2]⟩, .main] ++ [.take 0])

/-- The nodes of the example. -/
def cfg2 : Nat → Node.Cfg Unit := fun _ => ⟨2, 3, 1, 1, fun _ => false⟩

/-- Nothing has failed, no context has ended. -/
def okNode (X : Node.State Unit) : Bool :=
  !X.crashed && (match X.wk with | some q => !q.queueClosed | none => X.conns.isEmpty) && X.conns.all (fun x => x.c.err.isNone && decide (x.c.once = .fresh) && decide (x.c.calls.length < 2)) && X.calls.all (fun c => !c.ended)

theorem okNode_spec {X : Node.State Unit} (h : okNode X = true) : X.crashed = false ∧ (∀ q, X.wk = some q → q.queueClosed = false) ∧ (X.wk = none → X.conns = []) ∧
    (∀ x ∈ X.conns, x.c.err = none ∧ x.c.once = .fresh ∧ x.c.calls.length < 2) ∧ ∀ c ∈ X.calls, c.ended = false := by
  simp only [okNode, Bool.and_eq_true, Bool.not_eq_true', List.all_eq_true, decide_eq_true_eq, Option.isNone_iff_eq_none] at h
  obtain ⟨⟨⟨h1, h2⟩, h3⟩, h4⟩ := h
  refine ⟨h1, ?_, ?_, fun x hx => ⟨(h3 x hx).1.1, (h3 x hx).1.2, (h3 x hx).2⟩, h4⟩
  · intro q hq; rw [hq] at h2; simpa using h2
  · intro hq; rw [hq] at h2; simpa using h2

/-- Nothing goes on by itself. -/
def quietNode (X : Node.State Unit) : Bool :=
  X.conns.all (fun x => decide (x.c.main = .recv ∧ x.c.rbuf = 0 ∧ x.c.writer = .wait ∧ x.c.writerClosed = false ∧ x.c.writerBuf = [])) && X.calls.all (fun c => match c.pc with | .returned _ => true | _ => false)
    && (match X.wk with | some q => q.workers.all (fun p => match p with | .idle => true | _ => false) && decide (q.items.length = q.head) && !q.queueClosed | none => true)

theorem quietNode_spec {X : Node.State Unit} (h : quietNode X = true) : (∀ x ∈ X.conns, AtRest x.c) ∧ (∀ c ∈ X.calls, ∃ r, c.pc = .returned r) ∧
    ∀ q (w : Nat), X.wk = some q → Wk.step q (.work w) = none ∧ ∀ r, Wk.step q (.handlerReturn w r) = none := by
  simp only [quietNode, Bool.and_eq_true, List.all_eq_true, decide_eq_true_eq] at h
  obtain ⟨⟨h1, h2⟩, h3⟩ := h
  refine ⟨fun x hx => by obtain ⟨a, b, c, d, e⟩ := h1 x hx; exact ⟨a, b, c, d, e⟩, ?_, ?_⟩
  · intro c hc
    have := h2 c hc
    cases hp : c.pc <;> rw [hp] at this <;> first | (cases this; done) | exact ⟨_, rfl⟩
  · intro q w hq
    rw [hq] at h3
    simp only [Bool.and_eq_true, List.all_eq_true, decide_eq_true_eq, Bool.not_eq_true'] at h3
    obtain ⟨⟨h3, h4⟩, h5⟩ := h3
    cases hw : q.workers[w]? with
    | none => exact ⟨by simp [Wk.step, hw], fun r => by simp [Wk.step, hw]⟩
    | some p =>
      have := h3 p (List.mem_of_getElem? hw)
      cases p with
      | idle => exact ⟨by simp [Wk.step, hw, h4, h5], fun r => by simp [Wk.step, hw]⟩
      | _ => cases this

/-- Before handler 0 of node 1 returns, it has answered. -/
def answersAt (s : Net.State Unit) : Option (Net.Action Unit) → Bool
  | some (.node 1 (.handlerReturn w none)) => match (s.nodes[1]?).bind Node.State.wk with
    | some q => match q.workers[w]? with
      | some (.inside k _) => (respondersOf k q.log).contains 0
      | _ => true
    | none => true
  | some (.node _ (.handlerReturn _ (some _))) => false
  | _ => true

theorem playAt_all {as : List (Net.Action Unit)} {s : Net.State Unit} (h : runs (Net.step cfg2) (.new 2) as = some s) (P : Net.State Unit → Option (Net.Action Unit) → Bool)
    (hP : (List.range (as.length + 1)).all (fun t => P (playAt cfg2 (.new 2) as t) as[t]?) = true) (t : Nat) : P (playAt cfg2 (.new 2) as t) as[t]? = true := by
  by_cases ht : t < as.length + 1
  · exact List.all_eq_true.1 hP t (List.mem_range.2 ht)
  · have := List.all_eq_true.1 hP as.length (List.mem_range.2 (by omega))
    rw [(playAt_exec h).2 _ (Nat.le_refl _), List.getElem?_eq_none (Nat.le_refl _)] at this
    rw [(playAt_exec h).2 t (by omega), List.getElem?_eq_none (by omega)]
    exact this

/-- What has been flushed has been read. -/
def quietWires (s : Net.State Unit) : Bool := s.wires.all fun w =>
  (match s.conn w.inn with | some y => decide ((flushedOf y.c.log).length ≤ w.readOut) | none => true) && (match s.conn w.out with | some y => decide ((flushedOf y.c.log).length ≤ w.readIn) | none => true)

theorem quietNet_of {s : Net.State Unit} (h : (s.nodes.all quietNode && quietWires s) = true) : QuietNet s := by
  simp only [Bool.and_eq_true, quietWires, List.all_eq_true] at h
  obtain ⟨h2, h3⟩ := h
  refine ⟨?_, ?_, ?_, ?_⟩
  · intro m X j x hX hx
    exact (quietNode_spec (h2 X (List.mem_of_getElem? hX))).1 x (List.mem_of_getElem? hx)
  · intro m X k c hX hc
    exact (quietNode_spec (h2 X (List.mem_of_getElem? hX))).2.1 c (List.mem_of_getElem? hc)
  · intro m X q w hX hq
    exact (quietNode_spec (h2 X (List.mem_of_getElem? hX))).2.2 q w hq
  · intro w hw
    have := h3 w hw
    constructor
    · intro y hy; rw [hy] at this; simpa using this.1
    · intro y hy; rw [hy] at this; simpa using this.2

theorem play_fair {as : List (Net.Action Unit)} (h : (runs (Net.step cfg2) (.new 2) as).map (fun s => s.nodes.all quietNode && quietWires s) = some true) :
    Net.FairRun cfg2 2 (playAt cfg2 (.new 2) as) (fun t => as[t]?) := by
  obtain ⟨s, h1, h2⟩ := Option.map_eq_some_iff.1 h
  exact net_fair_of_quiet h1 (quietNet_of h2)

/-- A connection is unbroken when nothing has failed anywhere. -/
theorem unbroken_of_ok {σ : Nat → Net.State Unit} {α : Nat → Option (Net.Action Unit)} {o i : End} (hl : ∃ t, Linked (σ t) o i) (ok : ∀ t X, X ∈ (σ t).nodes → okNode X = true) (hh : ∀ t m w e, α t ≠ some (.node m (.handlerReturn w (some e)))) :
    Unbroken σ α o i ∧ ∀ m k, Endless σ m k := by
  have conn : ∀ t e x, (σ t).conn e = some x → x.c.err = none ∧ x.c.once = .fresh ∧ x.c.calls.length < 2 := by
    intro t e x hx
    obtain ⟨X, hX, hx'⟩ := conn_split hx
    exact (okNode_spec (ok t X (List.mem_of_getElem? hX))).2.2.2.1 x (List.mem_of_getElem? hx')
  refine ⟨⟨hl, ?_, ?_, fun t m w e _ => hh t m w e, ?_⟩, ?_⟩
  · intro t e x _ hx
    exact ⟨(conn t e x hx).1, (conn t e x hx).2.1⟩
  · intro t m X _ hX
    have := okNode_spec (ok t X (List.mem_of_getElem? hX))
    exact ⟨this.1, this.2.1⟩
  · intro t x X hx hX hw
    have := (okNode_spec (ok t X (List.mem_of_getElem? hX))).2.2.1 hw
    rw [conn_join hX, this] at hx
    cases hx
  · rintro m k t c ⟨X, hX, hc⟩
    exact (okNode_spec (ok t X (List.mem_of_getElem? hX))).2.2.2.2 c (List.mem_of_getElem? hc)

theorem play_ok {as : List (Net.Action Unit)} (h : (runs (Net.step cfg2) (.new 2) as).map (fun s => s.wires.any fun w => decide (w.out = ⟨0, 0⟩) && decide (w.inn = ⟨1, 0⟩)) = some true)
    (hok : (List.range (as.length + 1)).all (fun t => (playAt cfg2 (.new 2) as t).nodes.all okNode) = true) (hans : (List.range (as.length + 1)).all (fun t => answersAt (playAt cfg2 (.new 2) as t) as[t]?) = true) :
    Unbroken (playAt cfg2 (.new 2) as) (fun t => as[t]?) ⟨0, 0⟩ ⟨1, 0⟩ ∧ Net.Answers (playAt cfg2 (.new 2) as) (fun t => as[t]?) ⟨1, 0⟩ 0 ∧
      (∀ t x, (playAt cfg2 (.new 2) as t).conn ⟨0, 0⟩ = some x → x.c.calls.length < 2 ^ 64 - 1) ∧ ∀ m k, Endless (playAt cfg2 (.new 2) as) m k := by
  obtain ⟨s, h1, h2⟩ := Option.map_eq_some_iff.1 h
  have ok : ∀ t X, X ∈ (playAt cfg2 (.new 2) as t).nodes → okNode X = true := by
    intro t X hX
    exact List.all_eq_true.1 (playAt_all h1 (fun s _ => s.nodes.all okNode) hok t) X hX
  have ans := playAt_all h1 answersAt hans
  have conn : ∀ t e x, (playAt cfg2 (.new 2) as t).conn e = some x → x.c.err = none ∧ x.c.once = .fresh ∧ x.c.calls.length < 2 := by
    intro t e x hx
    obtain ⟨X, hX, hx'⟩ := conn_split hx
    exact (okNode_spec (ok t X (List.mem_of_getElem? hX))).2.2.2.1 x (List.mem_of_getElem? hx')
  refine ⟨⟨?_, ?_, ?_, ?_, ?_⟩, ?_, ?_, ?_⟩
  · simp only [List.any_eq_true, Bool.and_eq_true, decide_eq_true_eq] at h2
    obtain ⟨w, hw, e⟩ := h2
    exact ⟨as.length, w, by rw [(playAt_exec h1).2 _ (Nat.le_refl _)]; exact hw, e.1, e.2⟩
  · intro t e x _ hx
    exact ⟨(conn t e x hx).1, (conn t e x hx).2.1⟩
  · intro t m X _ hX
    have := okNode_spec (ok t X (List.mem_of_getElem? hX))
    exact ⟨this.1, this.2.1⟩
  · intro t m w e _ hα
    have := ans t
    rw [hα] at this
    cases m with
    | zero => cases this
    | succ m => cases m <;> cases this
  · intro t x X hx hX hw
    have := (okNode_spec (ok t X (List.mem_of_getElem? hX))).2.2.1 hw
    rw [conn_join hX, this] at hx
    cases hx
  · intro t w k it X q hα hX hq hin _ _ _
    have := ans t
    have hX' : (playAt cfg2 (.new 2) as t).nodes[1]? = some X := hX
    simp only at hα
    rw [hα] at this
    simp only [answersAt, hX', Option.bind_some, hq, hin] at this
    simpa using this
  · intro t x hx
    have := (conn t _ x hx).2.2
    omega
  · rintro m k t c ⟨X, hX, hc⟩
    exact (okNode_spec (ok t X (List.mem_of_getElem? hX))).2.2.2.2 c (List.mem_of_getElem? hc)

theorem play_call {as : List (Net.Action Unit)} {t m k : Nat} {p : Node.Pc Unit × Node.Kind} (h : (((playAt cfg2 (.new 2) as t).nodes[m]?).bind fun X => (X.calls[k]?).map fun c => (c.pc, c.kind)) = some p) :
    ∃ c, CallAt (playAt cfg2 (.new 2) as) m k t c ∧ c.pc = p.1 ∧ c.kind = p.2 := by
  obtain ⟨X, hX, h⟩ := Option.bind_eq_some_iff.1 h
  obtain ⟨c, hc, rfl⟩ := Option.map_eq_some_iff.1 h
  exact ⟨c, ⟨X, hX, hc⟩, rfl, rfl⟩

theorem ask_fair : Net.FairRun cfg2 2 (playAt cfg2 (.new 2) (askAndWait ID.zero)) (fun t => (askAndWait ID.zero)[t]?) := play_fair (by decide +kernel)

/-- The hypotheses of C133 are met: the execution is fair, the connection is unbroken, node 1's only handler answers, and at time 4 node 0's call has got the connection. So the call returns. -/
example : ∃ t' m c', 4 ≤ t' ∧ CallAt (playAt cfg2 (.new 2) (askAndWait ID.zero)) 0 0 t' c' ∧ c'.pc = .returned (.response m) := by
  obtain ⟨u, hans, hb, hend⟩ := play_ok (as := askAndWait ID.zero) (by decide +kernel) (by decide +kernel) (by decide +kernel)
  obtain ⟨c, hc, hpc, hk⟩ := play_call (as := askAndWait ID.zero) (t := 4) (m := 0) (k := 0) (p := (.select 0, .request [1])) (by decide +kernel)
  exact C133_request_returns cfg2 2 _ _ ask_fair ⟨0, 0⟩ ⟨1, 0⟩ u (by decide) (by decide) 0 (by decide) hans hb 4 0 c hc (.inl hpc) [1] hk (hend 0 0)

/-- And the message, which has been submitted at time 55, is handled. -/
example : ∃ (t' : Nat) (I : Node.State Unit) (q : Wk.State Unit) (k w : Nat), (playAt cfg2 (.new 2) (askAndWait ID.zero) t').nodes[1]? = some I ∧ I.wk = some q ∧ q.items[k]? = some ⟨0, ⟨1, [1]⟩⟩ ∧
      ((q.items.take k).filter fun it => it.client = 0).length = 0 ∧ handlingOf k q.log = handledUpTo w k 1 := by
  obtain ⟨u, _⟩ := play_ok (as := askAndWait ID.zero) (by decide +kernel) (by decide +kernel) (by decide +kernel)
  have h : ((playAt cfg2 (.new 2) (askAndWait ID.zero) 55).conn ⟨0, 0⟩).map (fun x => submittedOf x.c.log) = some [⟨1, [1]⟩] := by decide +kernel
  obtain ⟨x, hx, hs⟩ := Option.map_eq_some_iff.1 h
  exact C133_sent_is_handled cfg2 2 _ _ ask_fair ⟨0, 0⟩ ⟨1, 0⟩ u (by decide) (by decide) 55 x hx 0 ⟨1, [1]⟩ (by rw [hs]; rfl)

/-- Node 0 sends a message to node 1. -/
def tellAndWait (n : ID) : List (Net.Action ε) :=
  atNode 0 ([.listen, .acceptStep, .call (.send [1]) ['b'], .callStep 0] ++ connDo 0 (connectOut n)) ++ atNode 1 ([.listen, .acceptStep, .acceptConn ['x'], .acceptStep] ++ connDo 0 (connectIn n))
    ++ [.connect ⟨0, 0⟩ ⟨1, 0⟩] ++ atNode 0 ([.select 0 .ready, .callStep 0] ++ connDo 0 [.writer, .writer, .writer, .writer, .writer, .writer])
    ++ atNode 1 (connDo 0 [.writer, .arrive, .readMsg ⟨0, [1]⟩, .main, .deliver, .main] ++ [.work 0, .work 0, .ctxSend 0 0 [2]] ++ connDo 0 [.writer, .writer, .writer, .writer, .writer] ++ [.handlerReturn 0 none, .work 0])
    ++ atNode 0 (connDo 0 [.arrive, .readMsg ⟨0, [2]⟩, .main, .deliver, .main] ++ [.work 0, .work 0, .handlerReturn 0 none, .work 0])

theorem tell_fair : Net.FairRun cfg2 2 (playAt cfg2 (.new 2) (tellAndWait ID.zero)) (fun t => (tellAndWait ID.zero)[t]?) := play_fair (by decide +kernel)

/-- `C133_send_is_handled` applies to it. -/
example : ∃ (t' : Nat) (I : Node.State Unit) (q : Wk.State Unit) (v w : Nat), (playAt cfg2 (.new 2) (tellAndWait ID.zero) t').nodes[1]? = some I ∧ I.wk = some q ∧ q.items[v]? = some ⟨0, ⟨0, [1]⟩⟩ ∧
      handlingOf v q.log = handledUpTo w v 1 := by
  obtain ⟨u, _, _, hend⟩ := play_ok (as := tellAndWait ID.zero) (by decide +kernel) (by decide +kernel) (by decide +kernel)
  obtain ⟨c, hc, hpc, hk⟩ := play_call (as := tellAndWait ID.zero) (t := 4) (m := 0) (k := 0) (p := (.select 0, .send [1])) (by decide +kernel)
  exact (C133_send_is_handled cfg2 2 _ _ tell_fair ⟨0, 0⟩ ⟨1, 0⟩ u (by decide) (by decide) 4 0 c hc (.inl hpc) [1] hk (hend 0 0)).2

end Noise
