import Verif.Proofs.ClientCalls
import Verif.Props.Client2
/-! # Properties C78, C79: what a request sends, what becomes of a received message -/
namespace Noise
open Spec Cl
variable {ε : Type}

/-! ## C78 -/

/-- C78: a call of `Request` with some data that registers call `i` under nonce `n` (never 0) can always go on to its send, exactly once, and then submits the message of exactly this
data with exactly this nonce; it returns a response only after that. -/
theorem C78_request_submits (side : Side) (s s1 s2 : State ε) (h : Reachable side s) (data : Bytes) (i : Nat) (n : UInt64) (as : List (Action ε))
    (hstart : step s (.reqStart data) = some s1) (hreg : s1.log = s.log ++ [.registered i n]) (hrun : run s1 as = some s2) :
    n ≠ 0 ∧
    ((step s2 (.reqSend i)).isSome ↔ .reqSend i ∉ as) ∧
    (∀ s3, step s2 (.reqSend i) = some s3 → s3.log = s2.log ++ [.submitted ⟨n, data⟩]) ∧
    (.reqSend i ∈ as → ∃ as1 as2, as = as1 ++ .reqSend i :: as2 ∧ .reqSend i ∉ as1 ∧ .reqSend i ∉ as2) ∧
    ((∃ r, .returned i r ∈ s2.log) ∨ .reqSend i ∈ as → ∃ l1 l2, s2.log = s1.log ++ l1 ++ .submitted ⟨n, data⟩ :: l2) := by
  have h1 : Reachable side s1 := Reachable.step h hstart
  have h2 : Reachable side s2 := Reachable.trans h1 hrun
  have hc : s1.calls[i]? = some ⟨n, data, .registered, none⟩ := by
    simp only [step] at hstart
    split at hstart
    · injection hstart with hstart
      subst hstart
      have := List.append_cancel_left hreg
      simp only [List.cons.injEq, Event.registered.injEq, and_true] at this
      obtain ⟨rfl, rfl⟩ := this
      exact List.getElem?_concat_length
    · injection hstart with hstart
      subst hstart
      have := congrArg List.length hreg
      simp at this
  obtain ⟨c2, hc2, hn, hd, hr, -⟩ := call_run hc hrun
  simp only at hn hd hr
  have hnz : n ≠ 0 := (ReqsOK.reach h1).nz i _ hc
  rcases hr trivial with ⟨hst, hni⟩ | ⟨hst, hsplit, hlog⟩
  · refine ⟨hnz, ⟨fun _ => hni, fun _ => by simp [step, hc2, hst]⟩, ?_, fun hi => absurd hi hni, ?_⟩
    · intro s3 h3
      simp only [step, hc2, hst, if_true, Option.some.injEq] at h3
      subst h3
      simp [State.send, State.setCall, hn, hd]
    · rintro (⟨r, hm⟩ | hi)
      · obtain ⟨c, hc', hst'⟩ := ((ReqsOK.reach h2).ret i r).1 hm
        rw [hc2] at hc'; injection hc' with hc'; subst hc'
        rw [hst] at hst'; cases hst'
      · exact absurd hi hni
  · refine ⟨hnz, ⟨fun hs => ?_, fun hni => ?_⟩, ?_, fun _ => hsplit, fun _ => hlog⟩
    · simp [step, hc2, hst] at hs
    · obtain ⟨as1, as2, rfl, -, -⟩ := hsplit
      exact absurd (by simp) hni
    · intro s3 h3
      simp [step, hc2, hst] at h3

/-- Two requests of a connected client: the second one sends first. -/
example (id : ID) (d1 d2 : Bytes) : ∃ s s1 s2 : State Nat, client .outbound (connectOut id) = some s ∧ step s (.reqStart d1) = some s1 ∧
    s1.log = s.log ++ [.registered 0 1] ∧ run s1 [.reqStart d2, .reqSend 1, .reqSend 0] = some s2 ∧ submittedOf s2.log = [⟨2, d2⟩, ⟨1, d1⟩] :=
  ⟨_, _, _, rfl, rfl, rfl, rfl, rfl⟩

/-! ## C79 -/

/-- C79: nothing that a connection receives gets lost, duplicated or reordered on its way to the requests and the handlers. The messages processed are those read, in order, but for
the one in hand; those processed for the handlers are put on the work queue, in order, but for the one in hand; and there is at most one message in hand, none while the receive loop waits
for the next message or has ended. -/
theorem C79_receive_lossless (side : Side) (as : List (Action ε)) (s : State ε) (h : run (State.new side) as = some s) :
    ∃ u v, readsOf as = processedOf s.log ++ u ∧ toHandlersOf s.log = deliveredOf s.log ++ v ∧ u.length + v.length ≤ 1 ∧
      (u ≠ [] → ∃ m, s.main = .routing m) ∧ (v ≠ [] → ∃ m, s.main = .delivering m) := by
  obtain ⟨e1, e2⟩ := reads_run h rfl
  refine ⟨s.main.unrouted, s.main.undelivered, ?_, e2, ?_, ?_, ?_⟩
  · rw [e1]; simp [State.new, processedOf, MainPc.unrouted]
  · cases s.main <;> simp [MainPc.unrouted, MainPc.undelivered]
  · cases s.main <;> simp [MainPc.unrouted]
  · cases s.main <;> simp [MainPc.undelivered]

/-- C79, progress: a receive loop that waits and reads a message goes back to waiting, with nobody's help but for room on the work queue. The message has then been handed to
the request with its nonce, if one was registered under it and no message with that nonce was processed since; otherwise it was delivered to the handlers and `OnMessageRecv` was called. -/
theorem C79_receive_continues (side : Side) (s : State ε) (h : Reachable side s) (m : Message) (hm : s.main = .recv) (hb : 0 < s.rbuf) :
    ∃ s', s'.main = .recv ∧ s'.rbuf = s.rbuf - 1 ∧
      ((run s [.readMsg m, .main] = some s' ∧ s'.log = s.log ++ [.processed m true] ∧
          ∃ i l1 l2, s.log = l1 ++ .registered i m.nonce :: l2 ∧ ∀ m' b, .processed m' b ∈ l2 → m'.nonce ≠ m.nonce) ∨
       (run s [.readMsg m, .main, .deliver, .main] = some s' ∧ s'.log = s.log ++ [.processed m false, .delivered m s.id s.suite, .recvCb] ∧
          ¬ ∃ i l1 l2, s.log = l1 ++ .registered i m.nonce :: l2 ∧ ∀ m' b, .processed m' b ∈ l2 → m'.nonce ≠ m.nonce)) := by
  have key := (ReqsOK.reach h).entIff m.nonce
  cases he : s.reqs.entries m.nonce with
  | some i =>
    obtain ⟨l1, l2, e1, e2⟩ := (key i).1 he
    obtain ⟨s', h1, h2, h3, h4⟩ : ∃ s', run s [.readMsg m, .main] = some s' ∧ s'.main = .recv ∧ s'.rbuf = s.rbuf - 1 ∧ s'.log = s.log ++ [.processed m true] :=
      ⟨_, by simp only [run, step, hm, hb, and_self, if_true, State.mainStep, State.route, RequestMap.findRequest, he]; rfl, rfl, rfl, rfl⟩
    exact ⟨s', h2, h3, Or.inl ⟨h1, h4, i, l1, l2, e1, e2⟩⟩
  | none =>
    obtain ⟨s', h1, h2, h3, h4⟩ : ∃ s', run s [.readMsg m, .main, .deliver, .main] = some s' ∧ s'.main = .recv ∧ s'.rbuf = s.rbuf - 1 ∧
        s'.log = s.log ++ [.processed m false] ++ [.delivered m s.id s.suite] ++ [.recvCb] :=
      ⟨_, by simp only [run, step, hm, hb, and_self, if_true, State.mainStep, State.route, RequestMap.findRequest, he]; rfl, rfl, rfl, rfl⟩
    refine ⟨s', h2, h3, Or.inr ⟨h1, by simpa using h4, ?_⟩⟩
    rintro ⟨i, l1, l2, e1, e2⟩
    have := (key i).2 ⟨l1, l2, e1, e2⟩
    rw [he] at this; cases this

/-- A connected client with one request outstanding receives its response and another message. -/
example (id : ID) (d d' : Bytes) : ∃ s : State Nat, client .outbound (connectOut id ++ [.reqStart d, .arrive, .arrive, .readMsg ⟨1, d'⟩, .main, .readMsg ⟨0, d⟩, .main, .deliver, .main]) = some s ∧
    processedOf s.log = [⟨1, d'⟩, ⟨0, d⟩] ∧ deliveredOf s.log = [⟨0, d⟩] ∧ s.main = .recv := ⟨_, rfl, rfl, rfl, rfl⟩

end Noise
