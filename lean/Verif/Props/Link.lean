import Verif.Proofs.LinkOne
import Verif.Props.Client
/-! # Properties C80-C82: two nodes joined by a connection -/
namespace Noise
open Spec
variable {ε : Type}

/-! ## C80 -/

/-- C80: in every joint execution of the two nodes, the messages given to B's handlers are exactly the first ones that A's callers submitted on this connection (`Send`, `Request` or replies of A's handlers), in
order, unchanged, without gaps or duplicates; and what A processes is exactly the first ones that B's handlers sent back. -/
theorem C80_end_to_end_order (N H : Nat) (s : Link.State ε) (h : Link.Reachable N H s) :
    deliveredOf s.b.log <+: submittedOf s.a.log ∧ (s.w.items.filter fun it => it.client = 0).map Wk.Item.msg = deliveredOf s.b.log ∧
    processedOf s.a.log <+: submittedOf s.b.log := by
  have b := Link.Base.reach h
  exact ⟨b.deliveredB, b.items, (List.prefix_append _ _).trans b.readA_pre⟩

/-- A connects to B, and a message crosses in each direction. -/
def echo (idA idB : ID) (d r : Bytes) : List (Link.Action ε) :=
  (connectOut idB).map .a ++ (connectIn idA).map .b ++
  [.a (.reqStart d), .a (.reqSend 0), .a .writer, .a .writer, .a .writer, .a .writer,
   .b .arrive, .b (.readMsg ⟨1, d⟩), .b .main, .b .deliver, .w (.work 0), .w (.work 0), .w (.send 0 0 r), .b .writer, .b .writer, .b .writer, .b .writer,
   .a .arrive, .a (.readMsg ⟨1, r⟩), .a .main, .a (.reqTake 0)]

example (idA idB : ID) : ∃ s : Link.State Nat, runs Link.step (.new 1 1) (echo idA idB [1] [2]) = some s ∧ deliveredOf s.b.log = [⟨1, [1]⟩] ∧ submittedOf s.b.log = [⟨1, [2]⟩] ∧
    .returned 0 ⟨1, [2]⟩ ∈ s.a.log := by
  refine ⟨_, rfl, rfl, rfl, ?_⟩
  exact List.mem_append_right _ (List.mem_singleton.2 rfl)

/-! ## C81 -/

/-- C81: on a connection that has made fewer than 2^64 - 1 requests, whatever a call of `Request` with data `c.data` returns was sent by a handler of B through the context of a message with
exactly this data and this call's nonce, that is, in reply to this very request. -/
theorem C81_responses_answer_the_request (N H : Nat) (s : Link.State ε) (h : Link.Reachable N H s) (hb : s.a.calls.length < 2 ^ 64 - 1)
    (i : Nat) (c : Cl.Call) (hc : s.a.calls[i]? = some c) (m : Message) (hm : .returned i m ∈ s.a.log) :
    ∃ k j, s.w.items[k]? = some ⟨0, ⟨c.nonce, c.data⟩⟩ ∧ .started k j ∈ s.w.log ∧ .sendOk k j c.nonce m.data ∈ s.w.log := by
  have b := Link.Base.reach h
  have ok := Cl.ReqsOK.reach b.ra
  obtain ⟨c', hc', hst⟩ := (ok.ret i m).1 hm
  rw [hc] at hc'; injection hc' with hc'; subst hc'
  obtain ⟨p, hp⟩ := ok.retChan i c m hc hst
  obtain ⟨h1, h2, _⟩ := ok.chan i c m p hc hp
  obtain ⟨k, j, e1, e2⟩ := (Link.Rpc.reach h hb).resp m (List.mem_of_getElem? h1) i c hc h2.symm
  rw [h2] at e2
  exact ⟨k, j, e1, ((Wk.SendInv.reach b.rw).started k j _ _ e2).1, e2⟩

/-- The run above meets the hypotheses. -/
example (idA idB : ID) : ∃ (s : Link.State Nat) (c : Cl.Call), Link.Reachable 1 1 s ∧ s.a.calls.length < 2 ^ 64 - 1 ∧ s.a.calls[0]? = some c ∧ c.data = [1] ∧
    .returned 0 ⟨1, [2]⟩ ∈ s.a.log := by
  refine ⟨_, _, ⟨echo idA idB [1] [2], rfl⟩, ?_, rfl, rfl, ?_⟩
  · exact (by decide : 1 < 2 ^ 64 - 1)
  · exact List.mem_append_right _ (List.mem_singleton.2 rfl)

/-! ## C82 -/

/-- C82 is false: with two handlers that both answer, the second response to a request is given to the handlers of the node that asked, as if the peer had made a request. -/
theorem C82_stray_response_refuted (idA idB : ID) : ∃ (s : Link.State ε) (m : Message), Link.Reachable 1 2 s ∧ s.a.calls.length = 1 ∧ deliveredOf s.a.log = [m] ∧ m.isRequest = true :=
  ⟨_, ⟨1, [3]⟩, ⟨echo idA idB [1] [2] ++ [.w (.handlerReturn 0 none), .w (.work 0), .w (.send 0 1 [3]), .b .writer, .b .writer, .b .writer, .b .writer, .b .writer,
    .a .arrive, .a (.readMsg ⟨1, [3]⟩), .a .main, .a .deliver], rfl⟩, rfl, rfl, rfl⟩

/-- C82, what does hold: if B has only one handler, then no response ever goes astray: whatever is given to the handlers of A was sent by B's handler in reply to a plain message (not
a request), and B's handler never sees a nonce twice. -/
theorem C82_no_stray_partial (N H : Nat) (hH : H ≤ 1) (s : Link.State ε) (h : Link.Reachable N H s) (hb : s.a.calls.length < 2 ^ 64 - 1) :
    (∀ m ∈ deliveredOf s.a.log, m.isRequest = false) ∧ (deliveredOf s.b.log).Pairwise fun m m' => m.nonce = m'.nonce → m.isRequest = false := by
  have b := Link.Base.reach h
  have o := Link.One.reach hH h hb
  have hz : ∀ m : Message, m.nonce = 0 → m.isRequest = false := by intro m hm; unfold Message.isRequest; rw [hm]; rfl
  refine ⟨?_, ?_⟩
  · intro m hm
    exact hz m (o.zero m (by rw [Link.Cl_reach_hand b.ra]; exact List.mem_append_left _ hm))
  · exact (Link.Distinct.pre o.pw b.deliveredB).imp fun h e => hz _ (h e)

end Noise
