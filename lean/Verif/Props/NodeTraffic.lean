import Verif.Proofs.NodeTraffic
import Verif.Props.NodeCalls
/-! # C131: whose messages a node handles, and what it sends over which connection -/
namespace Noise
open Spec Node
variable {ε : Type}

namespace Spec

/-- The messages from connection `j` for which the node calls its handlers, in this order. -/
def handledFrom (s : Node.State ε) (j : Nat) : List Message := match s.wk with
  | none => []
  | some q => (q.items.filter fun it => it.client = j).map Wk.Item.msg

/-- What handlers have sent through the contexts of messages from connection `j`, in this order. -/
def answeredOn (s : Node.State ε) (j : Nat) : List Message := match s.wk with
  | none => []
  | some q => q.log.filterMap fun
    | .sendOk k _ n d => (q.items[k]?).bind fun it => if it.client = j then some ⟨n, d⟩ else none
    | _ => none

/-- The call is a `Send` that has returned nil, or a `Request` that has been sent (it waits for the response, has it, or was given up waiting): the data. -/
def hasSent (c : Node.Call ε) : Option Bytes := match c.kind, c.pc with
  | .send data, .returned .sent => some data
  | .request data, .reqWait _ _ => some data
  | .request data, .returned (.response _) => some data
  | .request data, .returned .eof => some data
  | .request data, .returned .cancelled => some data
  | _, _ => none

/-- The number of calls that have sent `m` through connection `j`, if `via k` is the connection and the nonce of call `k`. -/
def callsSending (via : Nat → Nat × UInt64) (s : Node.State ε) (j : Nat) (m : Message) : Nat :=
  (List.range s.calls.length).countP fun k => decide (via k = (j, m.nonce) ∧ (s.calls[k]?).bind hasSent = some m.data)

end Spec

theorem Node.sent_data (c : Node.Call ε) : c.sent.map Sent.data = hasSent c := by
  unfold Call.sent hasSent
  cases c.kind <;> cases c.pc <;> try rfl
  all_goals (rename_i r; cases r <;> rfl)

theorem Node.handledFrom_eq (s : Node.State ε) (j : Nat) : handledFrom s j = (s.items.filter fun it => it.client = j).map Wk.Item.msg := by
  unfold handledFrom State.items
  cases s.wk <;> rfl

theorem Node.answeredOn_eq (s : Node.State ε) (j : Nat) : answeredOn s j = answersOn s.items s.answers j := by
  unfold answeredOn State.items State.answers answersOn
  cases s.wk with
  | none => rfl
  | some q =>
    simp only [sendsOf, List.filterMap_filterMap]
    congr 1
    funext e
    cases e <;> rfl

theorem Node.callsSending_eq (via : Nat → Nat × UInt64) (s : Node.State ε) (j : Nat) (m : Message) : callsSending via s j m = sentOn via s.sents j m := by
  unfold callsSending sentOn State.sents
  rw [List.length_map]
  congr 1
  funext k
  rw [List.getElem?_map]
  cases s.calls[k]? with
  | none => rfl
  | some c => simp [← sent_data]

/-- **C131 (messages are attributed to the connection they came over).** In every execution of a node, with any number of connections in both directions: the messages that the node's handlers are called for as messages of connection `j`
are exactly those that the receive loop of that connection has handed over, in their order; and each is a message of a connection that there is. -/
theorem C131_attribution {cfg : Cfg ε} {s : Node.State ε} (h : Node.Reachable cfg s) :
    (∀ (j : Nat) (x : Node.Conn ε), s.conns[j]? = some x → handledFrom s j = deliveredOf x.c.log) ∧ (∀ j, s.conns.length ≤ j → handledFrom s j = []) := by
  obtain ⟨via, t⟩ := Traffic.reach h
  refine ⟨fun j x hx => ?_, fun j hj => ?_⟩
  · rw [handledFrom_eq]
    exact (t.dl j x.view (views_get hx)).symm
  · rw [handledFrom_eq, List.map_eq_nil_iff, List.filter_eq_nil_iff]
    intro it hit
    have := t.src it hit
    simp only [State.views, List.length_map] at this
    simp only [decide_eq_true_iff]
    omega

/-- **C131 (what is sent).** In every execution of a node there is an assignment of a connection and a nonce to each call such that over each connection there have been sent, each exactly once, the answers of handlers to messages of this very connection,
in their order, and the messages of the calls of `Send` and `Request` that are assigned to it — nothing else; a call that has sent its message is assigned to a connection that the node has dialled at the address of the call, with nonce 0 if and only if it is a `Send`. -/
theorem C131_sent {cfg : Cfg ε} {s : Node.State ε} (h : Node.Reachable cfg s) :
    ∃ via : Nat → Nat × UInt64,
      (∀ (j : Nat) (x : Node.Conn ε), s.conns[j]? = some x → (answeredOn s j).Sublist (submittedOf x.c.log) ∧
        ∀ m, (submittedOf x.c.log).count m = (answeredOn s j).count m + callsSending via s j m) ∧
      (∀ (k : Nat) (c : Node.Call ε) (data : Bytes), s.calls[k]? = some c → hasSent c = some data →
        (∃ x, s.conns[(via k).1]? = some x ∧ x.c.side = .outbound ∧ x.addr = c.addr) ∧ ((via k).2 = 0 ↔ c.kind = .send data)) := by
  obtain ⟨via, t⟩ := Traffic.reach h
  refine ⟨via, fun j x hx => ⟨?_, fun m => ?_⟩, fun k c data hk hd => ?_⟩
  · rw [answeredOn_eq]; exact t.order j x.view (views_get hx)
  · rw [answeredOn_eq, callsSending_eq]; exact t.count j x.view m (views_get hx)
  · rw [← sent_data] at hd
    obtain ⟨p, hp, hpd⟩ := Option.map_eq_some_iff.1 hd
    obtain ⟨⟨v, h1, h2, h3⟩, h4⟩ := t.mine k p (by simp [State.sents, hk, hp])
    simp only [State.views, List.getElem?_map, Option.map_eq_some_iff] at h1
    obtain ⟨x, hx, rfl⟩ := h1
    have key : p.addr = c.addr ∧ (p.req = false ↔ c.kind = .send data) := by
      subst hpd
      unfold Call.sent at hp
      split at hp
      all_goals first | (cases hp; done) | (injection hp with hp; subst hp; simp_all)
    refine ⟨⟨x, hx, h2, h3.trans key.1⟩, ?_⟩
    rw [← key.2]
    by_cases hz : (via k).2 = 0
    · simp only [hz, ne_eq, not_true_eq_false, iff_false, Bool.not_eq_true] at h4
      simp [hz, h4]
    · have := h4.2 hz
      simp [hz, this]

/-- **C131 (inbound connections).** Over a connection that was accepted, the node sends exactly what its handlers answer to the messages of that connection, in the order of the answers, and each answer has the nonce of a message that came over that connection. -/
theorem C131_inbound {cfg : Cfg ε} {s : Node.State ε} (h : Node.Reachable cfg s) {j : Nat} {x : Node.Conn ε} (hx : s.conns[j]? = some x) (hin : x.c.side = .inbound) :
    submittedOf x.c.log = answeredOn s j ∧ ∀ m ∈ submittedOf x.c.log, ∃ m' ∈ deliveredOf x.c.log, m'.nonce = m.nonce := by
  obtain ⟨via, t⟩ := Traffic.reach h
  have hzero : ∀ m, sentOn via s.sents j m = 0 := by
    intro m
    unfold sentOn
    rw [List.countP_eq_zero]
    intro k _
    rw [decide_eq_true_iff]
    rintro ⟨h1, h2⟩
    cases hk : s.sents[k]? with
    | none => rw [hk] at h2; cases h2
    | some o =>
      cases o with
      | none => rw [hk] at h2; cases h2
      | some p =>
        obtain ⟨⟨v, h3, h4, _⟩, _⟩ := t.mine k p hk
        rw [h1] at h3
        rw [views_get hx] at h3
        cases h3
        have h4 : x.c.side = .outbound := h4
        rw [hin] at h4; cases h4
  have hperm : (submittedOf x.c.log).Perm (answersOn s.items s.answers j) := by
    rw [List.perm_iff_count]
    intro m
    have : (submittedOf x.c.log).count m = _ := t.count j x.view m (views_get hx)
    rw [this, hzero, Nat.add_zero]
  have heq : submittedOf x.c.log = answersOn s.items s.answers j := ((t.order j x.view (views_get hx)).eq_of_length hperm.length_eq.symm).symm
  refine ⟨by rw [answeredOn_eq]; exact heq, fun m hm => ?_⟩
  rw [heq] at hm
  unfold answersOn at hm
  obtain ⟨p, hp, hpm⟩ := List.mem_filterMap.1 hm
  obtain ⟨it, hit, hn⟩ := t.ans p hp
  rw [hit] at hpm
  simp only [Option.bind_some] at hpm
  split at hpm
  · next hc =>
    injection hpm with hpm
    refine ⟨it.msg, ?_, by rw [← hpm]; exact hn.symm⟩
    have : deliveredOf x.c.log = _ := t.dl j x.view (views_get hx)
    rw [this]
    exact List.mem_map.2 ⟨it, List.mem_filter.2 ⟨List.mem_of_getElem? hit, by simpa using hc⟩, rfl⟩
  · cases hpm

/-- Non-vacuity: a node that has dialled two peers and accepted one. A `Send` and a `Request` go to the first, a `Send` of the same data to the second; all three peers send, and the handler answers two of the messages. -/
def busyNode (n : ID) : List (Node.Action ε) :=
  [.listen, .acceptStep, .acceptConn ['c'], .acceptStep, .call (.send [1]) ['a'], .call (.request [1]) ['a'], .call (.send [1]) ['b'], .callStep 0, .callStep 1, .callStep 2]
    ++ connDo 0 (connectIn n) ++ connDo 1 (connectOut n) ++ connDo 2 (connectOut n)
    ++ [.select 0 .ready, .select 1 .ready, .select 2 .ready, .callStep 0, .callStep 1, .callStep 1, .callStep 2]
    ++ connDo 0 [.arrive, .readMsg ⟨0, [7]⟩, .main, .deliver, .main] ++ connDo 1 [.arrive, .readMsg ⟨5, [8]⟩, .main, .deliver, .main]
    ++ [.work 0, .work 0, .ctxSend 0 0 [70]] ++ connDo 0 [.arrive, .readMsg ⟨5, [9]⟩, .main, .deliver, .main] ++ [.work 1, .work 1, .ctxSend 1 0 [80]]

/-- In it the hypotheses of C131 are met, and all three theorems speak of something: the handler has messages of two connections, and three kinds of messages have been sent over connection 1. -/
example : ∃ s : Node.State Unit, Node.Reachable ⟨2, 3, 2, 1, fun _ => false⟩ s ∧ s.conns.map (fun x => (x.c.side, x.addr, submittedOf x.c.log)) =
      [(.inbound, ['c'], [⟨0, [70]⟩]), (.outbound, ['a'], [⟨0, [1]⟩, ⟨1, [1]⟩, ⟨5, [80]⟩]), (.outbound, ['b'], [⟨0, [1]⟩])] ∧
      handledFrom s 0 = [⟨0, [7]⟩, ⟨5, [9]⟩] ∧ handledFrom s 1 = [⟨5, [8]⟩] ∧ answeredOn s 0 = [⟨0, [70]⟩] ∧ answeredOn s 1 = [⟨5, [80]⟩] ∧ s.calls.map hasSent = [some [1], some [1], some [1]] := by
  have h : (runs (Node.step ⟨2, 3, 2, 1, fun _ => false⟩) (Node.State.new : Node.State Unit) (busyNode ID.zero)).map
      (fun s => (s.conns.map (fun x => (x.c.side, x.addr, submittedOf x.c.log)), [handledFrom s 0, handledFrom s 1, answeredOn s 0, answeredOn s 1])) =
    some ([(.inbound, ['c'], [⟨0, [70]⟩]), (.outbound, ['a'], [⟨0, [1]⟩, ⟨1, [1]⟩, ⟨5, [80]⟩]), (.outbound, ['b'], [⟨0, [1]⟩])],
      [[⟨0, [7]⟩, ⟨5, [9]⟩], [⟨5, [8]⟩], [⟨0, [70]⟩], [⟨5, [80]⟩]]) := by decide +kernel
  have h' : (runs (Node.step ⟨2, 3, 2, 1, fun _ => false⟩) (Node.State.new : Node.State Unit) (busyNode ID.zero)).map (fun s => s.calls.map hasSent) = some [some [1], some [1], some [1]] := by
    decide +kernel
  obtain ⟨s, h1, h2⟩ := Option.map_eq_some_iff.1 h
  rw [h1] at h'
  simp only [Prod.mk.injEq, List.cons.injEq, and_true] at h2
  obtain ⟨h2, h3, h4, h5, h6⟩ := h2
  exact ⟨s, ⟨_, h1⟩, h2, h3, h4, h5, h6, Option.some.inj h'⟩

end Noise
