import Verif.Proofs.Callbacks
import Verif.Proofs.ClientFifo
import Verif.Props.Client
/-! # Properties C96-C97: the message callbacks -/
namespace Noise
open Spec Cl
variable {ε : Type}

/-! ## C96 -/

/-- C96 is false for `OnMessageSent`: two messages are written and flushed, the writer waits for more, and the callback was called only once. -/
theorem C96_sent_callback_refuted (idB : ID) : ∃ s : State ε, Reachable .outbound s ∧ wroteOf s.log = [⟨0, [1]⟩, ⟨0, [2]⟩] ∧ s.writer = .wait ∧ s.writerBuf = [] ∧ sentCalls s.log = 1 :=
  ⟨_, ⟨connectOut idB ++ [.send ⟨0, [1]⟩, .send ⟨0, [2]⟩, .writer, .writer, .writer, .writer, .writer, .writer, .writer], rfl⟩, rfl, rfl, rfl, rfl⟩

theorem recv_count (l : List (Event ε)) : ∀ b : Bool, ∀ b' : Bool, l.foldl (fun p e => p.bind fun p => recvNext p e) (some b) = some b' →
    (deliveredOf l).length + (if b then 1 else 0) = recvCalls l + (if b' then 1 else 0) := by
  have none : ∀ l : List (Event ε), l.foldl (fun p e => p.bind fun p => recvNext p e) none = none := by
    intro l; induction l with
    | nil => rfl
    | cons e l ih => exact ih
  induction l with
  | nil => intro b b' h; injection h with h; subst h; rfl
  | cons e l ih =>
    intro b b' h
    rw [List.foldl_cons, Option.bind_some] at h
    cases e with
    | delivered m i x =>
      cases b with
      | true => cases h.symm.trans (none l)
      | false =>
        have := ih true b' h
        simp only [deliveredOf, recvCalls, List.filterMap_cons, List.countP_cons, List.length_cons] at this ⊢
        simp at this ⊢; omega
    | recvCb =>
      cases b with
      | false => cases h.symm.trans (none l)
      | true =>
        have := ih false b' h
        simp only [deliveredOf, recvCalls, List.filterMap_cons, List.countP_cons, List.length_cons] at this ⊢
        simp at this ⊢; omega
    | _ =>
      have := ih b b' h
      simpa [deliveredOf, recvCalls] using this

/-- C96 is false for `OnMessageRecv`: it is never called for responses. In every schedule, a connection on which a request has got its response has received more messages than it has called `OnMessageRecv`. -/
theorem C96_recv_callback_refuted (side : Side) (s : State ε) (h : Reachable side s) (m : Message) (hm : .processed m true ∈ s.log) : recvCalls s.log < (processedOf s.log).length := by
  have h1 := recv_count s.log false _ (CallInv.reach h).recv
  have h2 := handlers_reach h
  have h3 := congrArg List.length h2
  rw [List.length_append] at h3
  have h4 : (toHandlersOf s.log).length < (processedOf s.log).length := by
    clear h1 h2 h3
    generalize s.log = l at hm
    have hle : ∀ l : List (Event ε), (toHandlersOf l).length ≤ (processedOf l).length := by
      intro l
      induction l with
      | nil => exact Nat.le_refl _
      | cons e l ih =>
        unfold toHandlersOf processedOf at ih ⊢
        rw [List.filterMap_cons, List.filterMap_cons]
        cases e with
        | processed m b => cases b <;> simp <;> omega
        | _ => exact ih
    induction l with
    | nil => cases hm
    | cons e l ih =>
      rcases List.mem_cons.1 hm with rfl | hm
      · have := hle l
        unfold toHandlersOf processedOf at this ⊢
        rw [List.filterMap_cons, List.filterMap_cons]
        simp; omega
      · have := ih hm
        unfold toHandlersOf processedOf at this ⊢
        rw [List.filterMap_cons, List.filterMap_cons]
        cases e with
        | processed m b => cases b <;> simp <;> omega
        | _ => exact this
  simp only [Bool.false_eq_true, if_false] at h1
  omega

/-- A request that got its response. -/
theorem C96_recv_witness (idB : ID) : ∃ s : State ε, Reachable .outbound s ∧ .processed ⟨1, [2]⟩ true ∈ s.log ∧ recvCalls s.log = 0 :=
  ⟨_, ⟨connectOut idB ++ [.reqStart [1], .reqSend 0, .writer, .writer, .writer, .writer, .arrive, .readMsg ⟨1, [2]⟩, .main], rfl⟩,
    List.mem_append_right _ (List.mem_singleton.2 rfl), rfl⟩

/-- C96, what does hold: in every schedule the writes, flushes and calls of `OnMessageSent` come in rounds: one or more messages, then a successful flush, then one call (`outOf`); whenever the writer waits for messages,
everything it has written has been flushed and announced by a call. And every delivery to the handlers is followed by one call of `OnMessageRecv` before the next delivery (`recvOf`); there are no other calls. -/
theorem C96_callbacks_partial (side : Side) (s : State ε) (h : Reachable side s) :
    outOf s.log ≠ none ∧ (s.writer = .wait → outOf s.log = some .idle) ∧
    recvOf s.log ≠ none ∧ (deliveredOf s.log).length = recvCalls s.log + (if s.main = .recvCb then 1 else 0) := by
  have c := CallInv.reach h
  obtain ⟨p, h1, h2⟩ := c.out
  refine ⟨by rw [h1]; simp, ?_, by rw [c.recv]; simp, ?_⟩
  · intro hw
    rw [hw] at h2
    rw [h1, show p = .idle from h2]
  · have := recv_count s.log false _ c.recv
    simpa using this

/-- A run with both kinds of callbacks. -/
example (idB : ID) : ∃ s : State ε, Reachable .outbound s ∧ s.writer = .wait ∧ sentCalls s.log = 1 ∧ recvCalls s.log = 1 :=
  ⟨_, ⟨connectOut idB ++ [.send ⟨0, [1]⟩, .writer, .writer, .writer, .writer, .writer, .writer, .arrive, .readMsg ⟨0, [2]⟩, .main, .deliver, .main], rfl⟩, rfl, rfl, rfl⟩

/-! ## C97 -/

/-- C97 is false: `OnMessageSent` may be called after `OnPeerDisconnected`, because nothing waits for the writer. -/
theorem C97_sent_after_disconnect_refuted (idB : ID) (e : ε) : ∃ (s : State ε) (l : List (Event ε)), Reachable .outbound s ∧ s.log = l ++ [.disconnected, .sentCb] :=
  ⟨_, [.connected (some idB), .submitted ⟨0, [1]⟩, .wrote ⟨0, [1]⟩, .flushed, .reported e], ⟨connectOut idB ++ [.send ⟨0, [1]⟩, .writer, .writer, .writer, .writer, .readFail e, .main, .main, .closeConn, .main, .main, .writer], rfl⟩, rfl⟩

/-- C97 is false: on an outbound connection whose handshake failed, `OnMessageRecv` is called although `OnPeerConnected` was not and never will be. -/
theorem C97_recv_without_connect_refuted (e : ε) : ∃ s : State ε, Reachable .outbound s ∧ recvCalls s.log = 1 ∧ connectedOf s.log = [] ∧ s.main = .recv :=
  ⟨_, ⟨[.main, .dialOK, .hsFail e, .main, .main, .arrive, .readMsg ⟨0, [2]⟩, .main, .deliver, .main], rfl⟩, rfl, rfl, rfl⟩

/-- C97, what does hold, in every schedule: no message callback comes before `OnPeerConnected` if that is ever called, and `OnMessageRecv` is never called after `OnPeerDisconnected`. -/
theorem C97_callbacks_while_connected_partial (side : Side) (s : State ε) (h : Reachable side s) :
    (∀ l id l', s.log = l ++ .connected id :: l' → ∀ e ∈ l, messageCb e = false) ∧ ∀ l l', s.log = l ++ .disconnected :: l' → .recvCb ∉ l' :=
  ⟨(SpanInv.reach h).before, (SpanInv.reach h).after⟩

/-- A connection with callbacks from beginning to end. -/
example (idB : ID) (e : ε) : ∃ (s : State ε) (l : List (Event ε)), Reachable .outbound s ∧ recvCalls s.log = 1 ∧ connectedOf s.log = [some idB] ∧ s.log = l ++ [.disconnected] :=
  ⟨_, [.connected (some idB), .processed ⟨0, [2]⟩ false, .delivered ⟨0, [2]⟩ (some idB) true, .recvCb, .reported e], ⟨connectOut idB ++ [.arrive, .readMsg ⟨0, [2]⟩, .main, .deliver, .main, .readFail e, .main, .main, .closeConn, .main, .main], rfl⟩, rfl, rfl, rfl⟩

end Noise
