import Verif.Model.Client
import Verif.Model.Worker
/-!
# Two nodes joined by one connection

Composition of the transition systems of `Model/Client.lean` and `Model/Worker.lean`: node A's outbound client, node B's inbound client, and node B's work queue, workers and
handlers (client.go:204-290, 515-640, node.go:178-236, 316-370, msg.go:76-82).

What is composed: the `i`-th message that a receive loop reads is the `i`-th message that the other end's writer put on the connection (TCP delivers in order; framing and encryption are
inverses by the codec properties, and tampering is treated in `Model/Symbolic.lean`); B's receive loop puts messages on B's queue; `Send` on a context of an item of this connection
calls `client.send` of B's client. B's inbound client is not used for `Send` or `Request` by B's user: those go through `dialIfNotExists` (node.go:316-370, 390), which
only returns outbound clients. A's user calls `Send` (nonce 0, node.go:322) and `Request`; A's handlers may call `Send` on contexts of messages that A delivered.
Other connections of B share its queue (`Item.client ≠ 0`). Everything else about both clients (failures, closing, timing) is as arbitrary as before.
-/
namespace Noise.Link
variable {ε : Type}

/-- client.go:47-86 at both ends of a connection. -/
structure State (ε : Type) where
  /-- A's outbound client -/
  a : Cl.State ε
  /-- B's inbound client -/
  b : Cl.State ε
  /-- B's queue and workers; this connection's items have `client = 0` -/
  w : Wk.State ε
  /-- how many messages A's, B's receive loop has read -/
  readA : Nat
  readB : Nat

/-- B runs `numWorkers` workers with `numHandlers` handlers. node.go:178-197. -/
def State.new (numWorkers numHandlers : Nat) : State ε := ⟨Cl.State.new .outbound, Cl.State.new .inbound, Wk.State.new numWorkers numHandlers, 0, 0⟩

/-- What the writer of a client has put on the connection so far. client.go:599-641. -/
def wire (c : Cl.State ε) : List Message := c.log.filterMap fun | .wrote m => some m | _ => none

/-- A's handlers hold a context of a message with this nonce. msg.go:37-41. -/
def hasContext (c : Cl.State ε) (n : UInt64) : Bool := c.log.any fun | .delivered m _ _ => m.nonce = n | _ => false

/-- client.go:340-378, 517-651 at both ends, node.go:185-195. -/
inductive Action (ε : Type) where
  /-- A's outbound client or its user acts -/
  | a (act : Cl.Action ε)
  /-- B's inbound client acts -/
  | b (act : Cl.Action ε)
  /-- B's workers and handlers act, or another connection of B uses the queue -/
  | w (act : Wk.Action ε)

/-- A step of A's client; see the head of this file. client.go:340-378, 517-651. -/
def stepA (s : State ε) (act : Cl.Action ε) : Option (State ε) :=
  match act with
  | .readMsg m => if (wire s.b)[s.readA]? = some m then (Cl.step s.a act).map fun a => { s with a := a, readA := s.readA + 1 } else none
  | .send m => if m.nonce = 0 ∨ hasContext s.a m.nonce then (Cl.step s.a act).map fun a => { s with a := a } else none
  | _ => (Cl.step s.a act).map fun a => { s with a := a }

/-- A step of B's client; client.go:548 for `deliver`. -/
def stepB (s : State ε) (act : Cl.Action ε) : Option (State ε) :=
  match act with
  | .readMsg m => if (wire s.a)[s.readB]? = some m then (Cl.step s.b act).map fun b => { s with b := b, readB := s.readB + 1 } else none
  | .send _ => none
  | .reqStart _ => none
  | .deliver => match s.b.main with
    | .delivering m => (Cl.step s.b act).bind fun b => (Wk.step s.w (.enqueue ⟨0, m⟩)).map fun w => { s with b := b, w := w }
    | _ => none
  | _ => (Cl.step s.b act).map fun b => { s with b := b }

/-- A step of B's workers; msg.go:76-82 for `send` on a context of this connection. -/
def stepW (s : State ε) (act : Wk.Action ε) : Option (State ε) :=
  match act with
  | .enqueue it => if it.client = 0 then none else (Wk.step s.w act).map fun w => { s with w := w }
  | .send k h data => match s.w.items[k]? with
    | some it =>
      if it.client = 0 ∧ (it.msg.isRequest = false ∨ s.w.sent k h = false) then
        (Wk.step s.w act).bind fun w => (Cl.step s.b (.send ⟨it.msg.nonce, data⟩)).map fun b => { s with b := b, w := w }
      else (Wk.step s.w act).map fun w => { s with w := w }
    | none => none
  | _ => (Wk.step s.w act).map fun w => { s with w := w }

/-- client.go:340-378, 517-651 and node.go:185-195: one step of an end; what one end writes the other reads. -/
def step (s : State ε) : Action ε → Option (State ε)
  | .a act => stepA s act
  | .b act => stepB s act
  | .w act => stepW s act

/-- Not in the code: the states that any finite schedule can lead to, for the theorems. -/
abbrev Reachable (numWorkers numHandlers : Nat) (s : State ε) : Prop := ReachFrom step (State.new numWorkers numHandlers) s

end Noise.Link
