import Verif.Proofs.Callers
import Verif.Props.KadNode
/-! # Properties C107, C108: contexts of calls that share a connection -/
set_option synthInstance.maxSize 2000
set_option synthInstance.maxHeartbeats 200000
namespace Noise
open Callers
variable {ε : Type}

/-- The connection is up, nothing has gone wrong on it, and nobody has begun to close it. -/
def Healthy (c : Cl.State ε) : Prop := c.ready = true ∧ c.conn = .open ∧ c.err = none ∧ c.writerClosed = false ∧ c.readerDone = false ∧ c.writerDone = false

/-- C107, what does hold: this node closes an outbound connection only if the application called `Close` on it, or an error was reported on it, or a call that found it in the pool had a context that ended.
Missing: that the end of a call's context leaves the connection to the others (`C107_healthy_connection_closed_refuted`). -/
theorem C107_close_justified_partial (max : Nat) (isCtx : ε → Bool) (s : Callers.State ε) (h : Callers.Reachable max isCtx s) (j : Nat) (x : Callers.Conn ε) (hx : s.conns[j]? = some x)
    (hc : x.c.conn = .closed ∨ x.c.writerClosed = true) :
    x.byApp = true ∨ x.c.err.isSome ∨ ∃ c ∈ s.calls, c.ended = true ∧ c.addr = x.addr ∧ j ∈ c.tried := by
  have hi := Inv.reach h
  have hn : x.c.once ≠ .fresh := by
    intro hf
    have := (hi.conn x (List.mem_of_getElem? hx)).fresh hf
    rcases hc with hc | hc
    · exact this.2 hc
    · rw [this.1] at hc; cases hc
  rcases hi.just j x hx hn with h1 | h1 | ⟨c, h1, h2, h3⟩
  · exact .inl h1
  · exact .inr (.inl h1)
  · obtain ⟨y, h4, h5⟩ := (hi.calls c h1).addr j h3
    rw [hx] at h4; cases h4
    exact .inr (.inr ⟨c, h1, h2, h5.symm, h3⟩)

/-- C108, what does hold: a call that returns an error although its own context has not ended has waited for connections to its own address only, on each of them an error was reported, and either it has used up all its attempts or one of
these errors wraps a context error. And a call returns a client only for its own address.
Missing: that these errors have nothing to do with the contexts of other calls (`C108_context_of_another_refuted`). -/
theorem C108_failures_partial (max : Nat) (isCtx : ε → Bool) (s : Callers.State ε) (h : Callers.Reachable max isCtx s) (c : Callers.Call ε) (hc : c ∈ s.calls) :
    (c.pc = .failed → c.ended = false →
      (∀ j ∈ c.tried, ∃ x : Callers.Conn ε, s.conns[j]? = some x ∧ x.addr = c.addr ∧ x.c.err.isSome) ∧
      (c.tried.length = max ∨ ∃ j ∈ c.tried, ∃ (x : Callers.Conn ε) (e : ε), s.conns[j]? = some x ∧ x.c.err = some e ∧ isCtx e = true)) ∧
    (∀ j, c.pc = .got j → ∃ x : Callers.Conn ε, s.conns[j]? = some x ∧ x.addr = c.addr) := by
  have hk := (Inv.reach h).calls c hc
  refine ⟨fun hp he => ⟨fun j hj => ?_, ?_⟩, fun j hj => hk.addr j (hk.sel j (.inr hj))⟩
  · obtain ⟨x, h1, h2⟩ := hk.addr j hj
    refine ⟨x, h1, h2, ?_⟩
    rcases hk.bad he j hj with h3 | h3 | h3
    · rw [errOf, h1] at h3; exact h3
    · rw [hp] at h3; cases h3
    · rw [hp] at h3; cases h3
  · rcases hk.fail (.inr hp) with h1 | h1 | ⟨j, h1, e, h2, h3⟩
    · rw [he] at h1; cases h1
    · have := hk.count
      exact .inl (by omega)
    · obtain ⟨x, h4, _⟩ := hk.addr j h1
      rw [errOf, h4] at h2
      exact .inr ⟨j, h1, x, e, h4, h2, h3⟩

/-! ## Refutations -/

def caddr : Text := ['a']

/-- The first caller connects and makes a request. -/
def cRequest : List (Callers.Action Unit) := [.call caddr, .step 0, .conn 0 .main, .conn 0 .dialOK, .conn 0 .arrive, .conn 0 .arrive, .conn 0 .hsKey, .conn 0 (.hsOK kpeer), .conn 0 .main, .conn 0 .main, .conn 0 .main,
  .select 0 .ready, .conn 0 (.reqStart [1]), .conn 0 (.reqSend 0), .conn 0 .writer, .conn 0 .writer, .conn 0 .writer, .conn 0 .writer]

/-- A second one calls with a context that has ended. -/
def cExpired : List (Callers.Action Unit) := [.call caddr, .expire 1, .step 1, .select 1 .ctxDone, .step 1, .conn 0 .closeConn]

/-- The reader notices that the connection is closed, and the second call returns. -/
def cAfter : List (Callers.Action Unit) := [.conn 0 (.readFail ()), .conn 0 .main, .conn 0 .main, .conn 0 .main, .conn 0 .main, .conn 0 .main, .step 1, .step 1, .step 1]

def connView (s : Callers.State Unit) : Option (Bool × Cl.Conn × Option Unit × Bool × Bool × Bool) × Option (List Cl.CallSt) × Option Bool × Option (Text × Bool) :=
  ((s.conns[0]?).map fun x => (x.c.ready, x.c.conn, x.c.err, x.c.writerClosed, x.c.readerDone, x.c.writerDone), (s.conns[0]?).map fun x => x.c.calls.map (·.st), (s.conns[0]?).map fun x => x.c.clientDone,
    (s.conns[0]?).map fun x => (x.addr, x.byApp))

abbrev ConnView := Option (Bool × Cl.Conn × Option Unit × Bool × Bool × Bool) × Option (List Cl.CallSt) × Option Bool × Option (Text × Bool)

def cView (s : Callers.State Unit) : ConnView × List (Callers.Pc Unit × Bool) × List Text := (connView s, s.calls.map (fun c => (c.pc, c.ended)), s.log)

/-- C107 fails: a connection is healthy and a request, whose context has not ended, waits on it for its answer. `Ping`, `Send` or `Request` is called for the same address with a context that has ended: it closes the connection, although no error has
been reported on it, and reports the peer as unreachable to the protocols. (The overlay network then removes the peer from the routing table, `OnPingFailed`.) -/
theorem C107_healthy_connection_closed_refuted :
    ∃ (s s' s'' : Callers.State Unit) (x x' x'' : Callers.Conn Unit), Callers.Reachable 3 (fun _ => false) s ∧ ReachFrom (Callers.step 3 fun _ => false) s s' ∧ ReachFrom (Callers.step 3 fun _ => false) s' s'' ∧
      s.conns[0]? = some x ∧ Healthy x.c ∧ (∃ r ∈ x.c.calls, r.st = .waiting) ∧ (∀ c ∈ s.calls, c.ended = false) ∧
      s'.conns[0]? = some x' ∧ x'.c.conn = .closed ∧ x'.c.err = none ∧ x'.byApp = false ∧
      s''.conns[0]? = some x'' ∧ x''.c.clientDone = true ∧ x''.addr ∈ s''.log ∧ s.log = [] := by
  have h1 : (runs (Callers.step 3 fun _ => false) Callers.State.new cRequest).map cView = some ((some (true, .open, none, false, false, false), some [.waiting], some false, some (caddr, false)), [(.got 0, false)], []) := by decide +kernel
  obtain ⟨s, hs, hv⟩ := witness h1
  have h2 : (runs (Callers.step 3 fun _ => false) Callers.State.new (cRequest ++ cExpired)).map cView =
      some ((some (true, .closed, none, true, false, false), some [.waiting], some false, some (caddr, false)), [(.got 0, false), (.closing 0 .context, true)], []) := by decide +kernel
  obtain ⟨s', hs', hv'⟩ := witness h2
  have h3 : (runs (Callers.step 3 fun _ => false) Callers.State.new ((cRequest ++ cExpired) ++ cAfter)).map cView =
      some ((some (true, .closed, some (), true, true, false), some [.waiting], some true, some (caddr, false)), [(.got 0, false), (.failed, true)], [caddr]) := by decide +kernel
  obtain ⟨s'', hs'', hv''⟩ := witness h3
  have t1 := hs'
  rw [runs_append, hs] at t1
  have t2 := hs''
  rw [runs_append, hs'] at t2
  simp only [cView, connView, Prod.mk.injEq, Option.map_eq_some_iff] at hv hv' hv''
  obtain ⟨⟨⟨x, hx, a1, a2, a3, a4, a5, a6⟩, ⟨y, hy, b1⟩, -, -⟩, c1, d1⟩ := hv
  obtain ⟨⟨⟨x', hx', a1', a2', a3', a4', a5', a6'⟩, -, -, ⟨z', hz', -, e1'⟩⟩, c1', d1'⟩ := hv'
  obtain ⟨⟨-, -, ⟨y'', hy'', b1''⟩, ⟨z'', hz'', e1'', -⟩⟩, c1'', d1''⟩ := hv''
  rw [hx] at hy; cases hy
  rw [hx'] at hz'; cases hz'
  rw [hy''] at hz''; cases hz''
  refine ⟨s, s', s'', x, x', y'', ⟨_, hs⟩, ⟨_, t1⟩, ⟨_, t2⟩, hx, ⟨a1, a2, a3, a4, a5, a6⟩, ?_, ?_, hx', a2', a3', e1', hy'', b1'', ?_, d1⟩
  · have : Cl.CallSt.waiting ∈ x.c.calls.map (·.st) := by rw [b1]; simp
    obtain ⟨r, hr, he⟩ := List.mem_map.1 this
    exact ⟨r, hr, he⟩
  · intro c hc
    have : (c.pc, c.ended) ∈ s.calls.map fun c => (c.pc, c.ended) := List.mem_map.2 ⟨c, hc, rfl⟩
    rw [c1] at this
    simp only [List.mem_singleton, Prod.mk.injEq] at this
    exact this.2
  · rw [d1'', e1'']; simp

/-- Two calls for the same address; the context of the first one ends while the connection is being dialed. -/
def cShared : List (Callers.Action Unit) := [.call caddr, .call caddr, .step 0, .step 1, .conn 0 .main, .expire 0, .conn 0 (.dialFail ()), .conn 0 .main, .conn 0 .main, .conn 0 .main, .select 1 .readerDone, .step 1, .conn 0 .closeConn,
  .conn 0 .main, .conn 0 .main, .step 1, .step 1, .step 1]

def sharedView (s : Callers.State Unit) : List (Callers.Pc Unit × Bool) × List (Nat × Option Unit) × List (List Nat × Nat) := (s.calls.map (fun c => (c.pc, c.ended)), s.conns.map (fun x => (x.owner, x.c.err)), s.calls.map (fun c => (c.tried, c.left)))

/-- C108 fails: a call fails at once, with attempts left, although its context has not ended: the connection that it shares was being dialed with the context of another call, which ended. -/
theorem C108_context_of_another_refuted :
    ∃ (s : Callers.State Unit) (c c0 : Callers.Call Unit) (x : Callers.Conn Unit), Callers.Reachable 3 (fun _ => true) s ∧ s.calls[1]? = some c ∧ c.pc = .failed ∧ c.ended = false ∧ c.left = 2 ∧ c.tried = [0] ∧
      s.conns[0]? = some x ∧ x.owner = 0 ∧ x.c.err = some () ∧ s.calls[0]? = some c0 ∧ c0.ended = true := by
  have h1 : (runs (Callers.step 3 fun _ => true) Callers.State.new cShared).map sharedView = some ([(.select 0, true), (.failed, false)], [(0, some ())], [([0], 2), ([0], 2)]) := by decide +kernel
  obtain ⟨s, hs, hv⟩ := witness h1
  simp only [sharedView, Prod.mk.injEq] at hv
  obtain ⟨a, b, d⟩ := hv
  have a0 := congrArg (·[0]?) a
  have a1 := congrArg (·[1]?) a
  have b0 := congrArg (·[0]?) b
  have d1 := congrArg (·[1]?) d
  simp only [List.getElem?_map, List.getElem?_cons_zero, List.getElem?_cons_succ, Option.map_eq_some_iff, Prod.mk.injEq] at a0 a1 b0 d1
  obtain ⟨c0, p1, p2, p3⟩ := a0
  obtain ⟨c, q1, q2, q3⟩ := a1
  obtain ⟨x, r1, r2, r3⟩ := b0
  obtain ⟨c', t1, t2, t3⟩ := d1
  rw [q1] at t1; cases t1
  exact ⟨s, c, c0, x, ⟨_, hs⟩, q1, q2, q3, t3, t2, r1, r2, r3, p1, p3⟩

/-! ## The hypotheses are met -/

/-- C107: the connection of `C107_healthy_connection_closed_refuted` is closed, not by the application and without an error. -/
example : ∃ (s : Callers.State Unit) (x : Callers.Conn Unit), Callers.Reachable 3 (fun _ => false) s ∧ s.conns[0]? = some x ∧ x.c.conn = .closed :=
  have ⟨_, s', _, _, x', _, h, h', _, _, _, _, _, hx, hc, _⟩ := C107_healthy_connection_closed_refuted
  ⟨s', x', h.trans h', hx, hc⟩

/-- C108: a call fails whose context has not ended. -/
example : ∃ (s : Callers.State Unit) (c : Callers.Call Unit), Callers.Reachable 3 (fun _ => true) s ∧ c ∈ s.calls ∧ c.pc = .failed ∧ c.ended = false :=
  have ⟨s, c, _, _, h, hc, hp, he, _⟩ := C108_context_of_another_refuted
  ⟨s, c, h, List.mem_of_getElem? hc, hp, he⟩

/-- C108: a call succeeds. -/
example : ((runs (Callers.step 3 fun _ => false) Callers.State.new cRequest).map fun s => s.calls.map (·.pc)) = some [.got 0] := by decide +kernel

end Noise
