import Verif.Model.Client
import Verif.Model.Worker
/-!
# Handlers that make requests: one outbound client of a node together with the node's work queue, workers and handlers

Composition of `Model/Client.lean` and `Model/Worker.lean` (client.go:204-247, 349-378, 515-640; node.go:178-197, 343-365). A handler may call `Node.Request` for the peer of this client (node.go:343-365
finds the live client in the pool and calls `request` on it, client.go:349) and is then blocked until the call ends. Items of this client have `client = 0`; other clients put items on the same queue.
Everything decided by the peer, by other clients and by users is arbitrary, as in the two components.
-/
namespace Noise.Nested
variable {ε : Type}

/-- msg.go:72-108 inside a handler, node.go:185-195: the workers of a node whose handlers make requests. -/
structure State (ε : Type) where
  c : Cl.State ε
  w : Wk.State ε
  /-- the `request` call that the handler on this worker made last -/
  call : Nat → Option Nat

/-- node.go:178-197. -/
def State.new (numWorkers numHandlers : Nat) : State ε := ⟨Cl.State.new .outbound, Wk.State.new numWorkers numHandlers, fun _ => none⟩

/-- client.go:365-375: the handler on worker `w` is inside a `request` call that has not returned. -/
def State.blocked (s : State ε) (w : Nat) : Bool :=
  match s.call w with
  | some i => match s.c.calls[i]? with
    | some c => c.st = .registered ∨ c.st = .waiting
    | none => false
  | none => false

/-- node.go:185-195, client.go:349-378, 541-548. -/
inductive Action (ε : Type) where
  /-- the client, its peer, or a user -/
  | c (act : Cl.Action ε)
  /-- client.go:548: the receive loop puts a message on the queue -/
  | deliver
  /-- the workers and handlers, or another client -/
  | w (act : Wk.Action ε)
  /-- the handler running on worker `w` calls `Request` -/
  | request (w : Nat) (data : Bytes)

/-- node.go:185-195, client.go:349-378, 541-548: one step; `none`: not enabled. -/
def step (s : State ε) : Action ε → Option (State ε)
  | .c act => match act with
    | .deliver => none
    | _ => (Cl.step s.c act).map fun c => { s with c := c }
  | .deliver => match s.c.main with
    | .delivering m => (Cl.step s.c .deliver).bind fun c => (Wk.step s.w (.enqueue ⟨0, m⟩)).map fun w => { s with c := c, w := w }
    | _ => none
  | .w act => match act with
    | .enqueue it => if it.client = 0 then none else (Wk.step s.w act).map fun w => { s with w := w }
    | .handlerReturn k r => if s.blocked k then none else (Wk.step s.w (.handlerReturn k r)).map fun w => { s with w := w }
    | _ => (Wk.step s.w act).map fun w => { s with w := w }
  | .request w data => match s.w.workers[w]? with
    | some (.inside _ _) =>
      if s.blocked w then none
      else (Cl.step s.c (.reqStart data)).map fun c =>
        -- client.go:352-355: without a nonce the call fails at once
        { s with c := c, call := if c.calls.length = s.c.calls.length then s.call else fun w' => if w' = w then some s.c.calls.length else s.call w' }
    | _ => none

/-- Not in the code: the states that any finite schedule can lead to, for the theorems. -/
abbrev Reachable (numWorkers numHandlers : Nat) (s : State ε) : Prop := ReachFrom step (State.new numWorkers numHandlers) s

end Noise.Nested
