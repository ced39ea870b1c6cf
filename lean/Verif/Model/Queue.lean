import Verif.Model.Client
import Verif.Model.TS
/-!
# node.go:54-55, 178-210, 226-231, client.go:548: the work channel during the life of a node

Composition of any number of connections (`Model/Client.lean`) with the node's field `work`: nil until `Listen` makes the channel (node.go:178), closed when the accept
goroutine ends (node.go:205). A receive loop evaluates the channel operand of `c.node.work <- ...` once, when it reaches the statement: a send on a nil channel blocks for ever, also if `Listen` is called
later, and a send on a closed channel panics, also if it was waiting for room when the channel was closed (Go specification, "Send statements"). A panic in a goroutine ends the process.

Simplified: what workers do after taking a message from the channel is in `Model/Worker.lean`; here taking is one step. The pool is left out: the accept goroutine closes the channel when all inbound
connections have left the pool (`release` waits for each of those that are in it, map.go:79-92; a client leaves it only after its receive loop, see `Model/Node.lean` for pool and
connections together), however they came to end. Sending on the
channel before the loop is entered, on a client whose dial failed, does not occur (client.go:219-226).
-/
namespace Noise.WorkQ

/-- The field `work`, and how far the accept goroutine is. node.go:178-210. -/
inductive Phase where
  /-- before `Listen`: nil -/
  | idle
  /-- node.go:178-231 -/
  | serving
  /-- node.go:203: the listener is closed, inbound connections are being closed and awaited -/
  | stopping
  /-- node.go:205 -/
  | closed
  deriving DecidableEq

/-- client.go:541-548: a connection and what it waits to send to the queue. -/
structure Conn (ε : Type) where
  c : Cl.State ε
  /-- the operand of the send that the receive loop is in (if it is in one) was nil -/
  nilChan : Bool

/-- node.go:178-210: the queue, the workers and the connections. -/
structure State (ε : Type) where
  /-- node.go:178 the capacity is `numWorkers` -/
  cap : Nat
  phase : Phase
  /-- what is in the channel: the number of the connection, and the message -/
  queue : List (Nat × Message)
  /-- what workers have received from it -/
  taken : List (Nat × Message)
  conns : List (Conn ε)
  /-- a goroutine has panicked -/
  crashed : Bool

variable {ε : Type}

/-- node.go:62-102. -/
def State.new (cap : Nat) : State ε := ⟨cap, .idle, [], [], [], false⟩

/-- node.go:178-233, client.go:541-548. -/
inductive Action (ε : Type) where
  /-- node.go:178 -/
  | listen
  /-- node.go:226-231 a connection is accepted -/
  | accept
  /-- node.go:395 an outbound connection is begun; possible at any time -/
  | dial
  /-- node.go:220-224 `Accept` fails, because of `Close` or otherwise -/
  | stop
  /-- node.go:203-205 -/
  | closeWork
  /-- node.go:185 a worker receives a message -/
  | take
  /-- connection number `i` does something -/
  | conn (i : Nat) (act : Cl.Action ε)

/-- In client.go:548. -/
def sending (c : Cl.State ε) : Bool := match c.main with | .delivering _ => true | _ => false

/-- client.go:548. -/
def State.put (s : State ε) (i : Nat) (x : Conn ε) : Option (State ε) :=
  match x.c.main with
  | .delivering m =>
    if x.nilChan then none
    else match s.phase with
      | .idle => none
      | .closed => some { s with crashed := true }
      | _ => if s.queue.length < s.cap then (Cl.step x.c .deliver).map fun c => { s with queue := s.queue ++ [(i, m)], conns := s.conns.set i { x with c := c } } else none
  | _ => none

/-- Any other step of a connection; the operand is evaluated on reaching the send. client.go:541-548. -/
def State.other (s : State ε) (i : Nat) (x : Conn ε) (act : Cl.Action ε) : Option (State ε) :=
  (Cl.step x.c act).map fun c => { s with conns := s.conns.set i ⟨c, if sending c ∧ sending x.c = false then decide (s.phase = .idle) else x.nilChan⟩ }

/-- The client has left the pool (client.go:213, 254): its receive loop has ended. -/
def ended (c : Cl.State ε) : Bool := match c.main with | .done | .finished => true | _ => false

/-- All inbound connections have ended, or at least left the pool: `release` waits for those that are in it. map.go:72-85, node.go:203. -/
def State.released (s : State ε) : Bool := s.conns.all fun x => decide (x.c.side = .outbound) || ended x.c

/-- node.go:178-233, client.go:541-548: one step; `none`: not enabled. -/
def step (s : State ε) (a : Action ε) : Option (State ε) :=
  if s.crashed then none else
  match a with
  | .listen => if s.phase = .idle then some { s with phase := .serving } else none
  | .accept => if s.phase = .serving then some { s with conns := s.conns ++ [⟨Cl.State.new .inbound, false⟩] } else none
  | .dial => some { s with conns := s.conns ++ [⟨Cl.State.new .outbound, false⟩] }
  | .stop => if s.phase = .serving then some { s with phase := .stopping } else none
  | .closeWork => if s.phase = .stopping ∧ s.released then some { s with phase := .closed } else none
  | .take => match s.queue with
    | it :: l => some { s with queue := l, taken := s.taken ++ [it] }
    | [] => none
  | .conn i act => match s.conns[i]? with
    | some x => match act with
      | .deliver => s.put i x
      | _ => s.other i x act
    | none => none

/-- Not in the code: the states that any finite schedule can lead to, for the theorems. -/
abbrev Reachable (cap : Nat) (s : State ε) : Prop := ReachFrom step (State.new cap) s

end Noise.WorkQ
