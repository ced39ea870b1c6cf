import Verif.Proofs.Queue
import Verif.Props.Client
/-! # Properties C98-C99: the work channel before `Listen` and after `Close` -/
namespace Noise
open Spec WorkQ
variable {ε : Type}

/-! ## C98 -/

/-- C98 is false: when the node has been closed, the next message (that is not a response) on any outbound connection that is still open makes the process panic; nothing closes these connections. -/
theorem C98_crash_after_close_refuted (cap : Nat) (s : WorkQ.State ε) (h : WorkQ.Reachable cap s) (hp : s.phase = .closed) (hc : s.crashed = false)
    (i : Nat) (x : WorkQ.Conn ε) (hx : s.conns[i]? = some x) (hm : x.c.main = .recv) (hr : 0 < x.c.rbuf) (m : Message) (hn : (x.c.reqs.findRequest m.nonce).2 = none) :
    ∃ s', runs WorkQ.step s [.conn i (.readMsg m), .conn i .main, .conn i .deliver] = some s' ∧ s'.crashed = true := by
  have hlt := (List.getElem?_eq_some_iff.1 hx).1
  have h1 : Cl.step x.c (.readMsg m) = some { x.c with main := .routing m, rbuf := x.c.rbuf - 1 } := by simp [Cl.step, hm, hr]
  have h2 : Cl.step { x.c with main := .routing m, rbuf := x.c.rbuf - 1 } .main
      = some { x.c with reqs := (x.c.reqs.findRequest m.nonce).1, main := .delivering m, rbuf := x.c.rbuf - 1, log := x.c.log ++ [.processed m false] } := by
    simp only [Cl.step, Cl.State.mainStep, Cl.State.route]
    split
    · rename_i hf; rw [hf] at hn; cases hn
    · rename_i hf; rw [hf]
  refine ⟨_, runs_step (step_other hc hx (by simp) h1) (runs_step (step_other hc (List.getElem?_set_self hlt) (by simp) h2)
    (runs_one (step_crash (m := m) hc (List.getElem?_set_self (by simpa using hlt)) rfl ?_ hp))), rfl⟩
  simp [sending, hp]

/-- The steps of connection number `i`. -/
def ofC (i : Nat) (l : List (Cl.Action ε)) : List (WorkQ.Action ε) := l.map (.conn i)

/-- A node that listened, connected to a peer, and was closed. -/
def closedNode (id : ID) : List (WorkQ.Action ε) := .listen :: .dial :: ofC 0 (connectOut id) ++ [.stop, .closeWork, .conn 0 .arrive]

/-- It meets the hypotheses of C98's refutation. -/
example (cap : Nat) (id : ID) : ∃ (s : WorkQ.State ε) (x : WorkQ.Conn ε), WorkQ.Reachable cap s ∧ s.phase = .closed ∧ s.crashed = false ∧ s.conns[0]? = some x ∧ x.c.main = .recv ∧ 0 < x.c.rbuf ∧
    ∀ m : Message, (x.c.reqs.findRequest m.nonce).2 = none :=
  ⟨_, _, ⟨closedNode id, rfl⟩, rfl, rfl, rfl, rfl, Nat.zero_lt_one, fun _ => rfl⟩

/-- C98, what does hold: if the process has panicked because of the work channel, then the channel had been closed and an outbound connection was delivering a message. So a node whose outbound
connections have ended before it is closed, or deliver nothing from then on, does not panic; inbound connections never make it panic. -/
theorem C98_no_crash_partial (cap : Nat) (s : WorkQ.State ε) (h : WorkQ.Reachable cap s) (hc : s.crashed = true) :
    s.phase = .closed ∧ ∃ (i : Nat) (x : WorkQ.Conn ε) (m : Message), s.conns[i]? = some x ∧ x.c.side = .outbound ∧ x.c.main = .delivering m := by
  obtain ⟨h1, i, x, h2, h3, h4⟩ := (Safe.reach h).crash hc
  obtain ⟨m, hm⟩ := sending_iff.1 h4
  exact ⟨h1, i, x, m, h2, h3, hm⟩

/-- It happens: a node that listened, connected to a peer, and was closed. -/
theorem C98_crash_happens_refuted (cap : Nat) (id : ID) (m : Message) : ∃ s : WorkQ.State ε, WorkQ.Reachable cap s ∧ s.crashed = true :=
  ⟨_, ⟨closedNode id ++ ofC 0 [.readMsg m, .main, .deliver], rfl⟩, rfl⟩

/-- It happens also with an inbound connection, which has delivered a message and was ended before the channel was closed. -/
example : ∃ s : WorkQ.State Nat, WorkQ.Reachable 1 s ∧ s.crashed = true ∧ s.conns.map (fun x => (x.c.side, deliveredOf x.c.log, decide (x.c.main = .done))) = [(.inbound, [⟨0, [1]⟩], true), (.outbound, [], false)] := by
  have h : (runs WorkQ.step (WorkQ.State.new 1 : WorkQ.State Nat) (.listen :: .accept :: .dial :: ofC 0 (connectIn ID.zero ++ [.arrive, .readMsg ⟨0, [1]⟩, .main, .deliver, .main, .readFail 7, .main, .main, .closeConn, .main, .main, .main])
      ++ ofC 1 (connectOut ID.zero) ++ [.stop, .closeWork] ++ ofC 1 [.arrive, .readMsg ⟨0, [2]⟩, .main, .deliver])).map
      (fun s => (s.crashed, s.conns.map fun x => (x.c.side, deliveredOf x.c.log, decide (x.c.main = .done)))) = some (true, [(.inbound, [⟨0, [1]⟩], true), (.outbound, [], false)]) := by decide +kernel
  obtain ⟨s, h1, h2⟩ := Option.map_eq_some_iff.1 h
  simp only [Prod.mk.injEq] at h2
  exact ⟨s, ⟨_, h1⟩, h2⟩

/-! ## C99 -/

/-- C99 is false: if a message that is not a response arrives on a connection before `Listen` has been called, the receive loop of this connection stops for ever, in every continuation, whether or not
`Listen` is called later: nothing that arrives on it is processed any more, and no call of `Request` on it that has not yet got its response returns one. -/
theorem C99_stuck_refuted (cap : Nat) (s : WorkQ.State ε) (h : WorkQ.Reachable cap s) (hp : s.phase = .idle) (i : Nat) (x : WorkQ.Conn ε) (m : Message) (hx : s.conns[i]? = some x)
    (hm : x.c.main = .delivering m) (s' : WorkQ.State ε) (h' : ReachFrom WorkQ.step s s') :
    ∃ x' : WorkQ.Conn ε, s'.conns[i]? = some x' ∧ x'.c.main = .delivering m ∧ processedOf x'.c.log = processedOf x.c.log ∧
      ∀ (k : Nat) (r : Cl.Call), x.c.calls[k]? = some r → r.st = .waiting → r.chan = none → unanswered x'.c k := by
  have hn := (Nil.reach h).idle hp i x hx (sending_iff.2 ⟨m, hm⟩)
  have h0 : Stuck i m (processedOf x.c.log) (fun k => ∃ r : Cl.Call, x.c.calls[k]? = some r ∧ r.st = .waiting ∧ r.chan = none) s :=
    ⟨x, hx, hm, hn, rfl, fun k ⟨r, h1, h2, h3⟩ => ⟨r, h1, h3, fun m' hm' => by rw [h2] at hm'; cases hm'⟩⟩
  obtain ⟨x', g1, g2, _, g3, g4⟩ := ReachFrom.inv (fun _ _ _ => Stuck.step) h' h0
  refine ⟨x', g1, g2, g3, fun k r hk hst hch => ?_⟩
  obtain ⟨r', e1, _, e2⟩ := g4 k ⟨r, hk, hst, hch⟩
  exact ⟨r', e1, e2⟩

/-- It happens: a node that does not listen makes a request, and the peer sends it a message; later it listens. -/
theorem C99_stuck_happens_refuted (cap : Nat) (id : ID) : ∃ (s : WorkQ.State ε) (x : WorkQ.Conn ε) (r : Cl.Call), WorkQ.Reachable cap s ∧ s.phase = .idle ∧ s.conns[0]? = some x ∧ x.c.main = .delivering ⟨0, [1]⟩ ∧
    x.c.calls[0]? = some r ∧ r.st = .waiting ∧ r.chan = none ∧ ∃ s' : WorkQ.State ε, ReachFrom WorkQ.step s s' ∧ s'.phase = .serving :=
  ⟨_, _, _, ⟨.dial :: ofC 0 (connectOut id ++ [.reqStart [7], .reqSend 0, .arrive, .readMsg ⟨0, [1]⟩, .main]), rfl⟩, rfl, rfl, rfl, rfl, rfl, rfl, _, ⟨[.listen], rfl⟩, rfl⟩

/-- C99, what does hold: once `Listen` has made the channel, every connection that is not stuck already (in the sense of the refutation) can deliver: until the channel is closed, the message that its receive
loop has for the handlers is put on the queue as soon as there is room. What the workers have received and what is in the queue from this connection is exactly what it delivered, in order. -/
theorem C99_delivers_partial (cap : Nat) (s : WorkQ.State ε) (h : WorkQ.Reachable cap s) (hp : s.phase ≠ .idle) (s' : WorkQ.State ε) (h' : ReachFrom WorkQ.step s s')
    (i : Nat) (x' : WorkQ.Conn ε) (hx' : s'.conns[i]? = some x') :
    ofConn i (s'.taken ++ s'.queue) = deliveredOf x'.c.log ∧
    ((∀ (x : WorkQ.Conn ε) (m : Message), s.conns[i]? = some x → x.c.main ≠ .delivering m) → ∀ m, x'.c.main = .delivering m → s'.phase ≠ .closed → s'.queue.length < s'.cap →
      ∃ s'', WorkQ.step s' (.conn i .deliver) = some s'' ∧ s''.queue = s'.queue ++ [(i, m)] ∧ s''.crashed = false) := by
  have hr : WorkQ.Reachable cap s' := h.trans h'
  refine ⟨(Kept.reach hr).1 i x' hx', ?_⟩
  intro hno m hm hcl hroom
  have hnew := ReachFrom.inv (P := NoNew s) (fun _ _ _ => NoNew.step) h' ⟨hp, fun j y hy hn => ⟨y, hy, hn⟩⟩
  have hnil : x'.nilChan = false := by
    cases hn : x'.nilChan with
    | false => rfl
    | true =>
      obtain ⟨y, hy, hny⟩ := hnew.2 i x' hx' hn
      obtain ⟨m', hm'⟩ := sending_iff.1 ((Nil.reach h).send i y hy hny)
      exact absurd hm' (hno y m' hy)
  have hcr : s'.crashed = false := by
    cases hc : s'.crashed with
    | false => rfl
    | true => exact absurd ((Safe.reach hr).crash hc).1 hcl
  exact step_put hcr hx' hm hnil hcl hnew.1 hroom

/-- A listening node with an outbound connection whose receive loop has a message for the handlers. -/
example (id : ID) : ∃ (s s' : WorkQ.State ε) (x' : WorkQ.Conn ε), WorkQ.Reachable 2 s ∧ s.phase ≠ .idle ∧ s.conns = [] ∧ ReachFrom WorkQ.step s s' ∧ s'.conns[0]? = some x' ∧ x'.c.main = .delivering ⟨0, [1]⟩ ∧
    s'.phase ≠ .closed ∧ s'.queue.length < s'.cap :=
  ⟨_, _, _, ⟨[.listen], rfl⟩, (by intro h; cases h), rfl, ⟨.dial :: ofC 0 (connectOut id ++ [.arrive, .readMsg ⟨0, [1]⟩, .main]), rfl⟩, rfl, rfl, (by intro h; cases h), by exact Nat.zero_lt_two⟩

end Noise
