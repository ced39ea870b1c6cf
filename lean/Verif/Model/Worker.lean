import Verif.Model.Frame
import Verif.Model.TS
/-!
# node.go:178-197, msg.go:36-85: the work queue, the workers and the contexts given to handlers

A transition system. The handlers are arbitrary: each invocation may call `Send` on its context any number of times and from any goroutine (also after it
returned), and may return any outcome. `ε` is the type of errors. Items are numbered in the order in which they were put on the queue.
-/
namespace Noise.Wk

/-- client.go:548 / msg.go:36-40: what is put on the queue; `client` stands for the pointer. -/
structure Item where
  client : Nat
  msg : Message

/-- Program counter of one worker goroutine. node.go:182-196. -/
inductive Pc (ε : Type) where
  /-- node.go:185, receiving from `n.work` -/
  | idle
  /-- node.go:186, about to run handler number `h` on item `k` -/
  | next (k h : Nat)
  /-- node.go:187, inside the handler -/
  | inside (k h : Nat)
  /-- node.go:189 `reportError` -/
  | failing (k : Nat) (e : ε)
  /-- node.go:190 `close` -/
  | closing (k : Nat)
  /-- node.go:192 / 185: the goroutine has ended, after an error (`true`) or because the queue was closed -/
  | ended (err : Bool)

/-- node.go:185-195: what a worker does. -/
inductive Event (ε : Type) where
  /-- the item was received by worker `w` -/
  | taken (w k : Nat)
  /-- handler `h` was called for item `k` -/
  | started (k h : Nat)
  /-- it returned: `none` is success -/
  | finished (k h : Nat) (r : Option ε)
  /-- a call of `Send` on the context of that invocation: it returned nil and submitted the data to the client with this nonce -/
  | sendOk (k h : Nat) (nonce : UInt64) (data : Bytes)
  /-- a call of `Send` on the context of that invocation returned an error -/
  | sendErr (k h : Nat)
  /-- the error was reported on this client -/
  | reported (client : Nat) (e : ε)
  /-- this client was closed -/
  | closed (client : Nat)

/-- node.go:54-55, with the history of the queue; `n.numWorkers` and `len(n.handlers)` are fixed once the workers run. -/
structure State (ε : Type) where
  numWorkers : Nat
  numHandlers : Nat
  /-- everything ever put on the queue; those from `head` on are still there -/
  items : List Item
  head : Nat
  queueClosed : Bool
  workers : List (Pc ε)
  /-- msg.go:39 `sent`, one copy per invocation because handlers take the context by value (mod.go `Handler`) -/
  sent : Nat → Nat → Bool
  log : List (Event ε)

variable {ε : Type}

/-- node.go:178-184. -/
def State.new (numWorkers numHandlers : Nat) : State ε where
  numWorkers := numWorkers
  numHandlers := numHandlers
  items := []
  head := 0
  queueClosed := false
  workers := List.replicate numWorkers .idle
  sent := fun _ _ => false
  log := []

/-- node.go:182-206, client.go:548, msg.go:72-78. -/
inductive Action (ε : Type) where
  /-- client.go:548: a receive loop puts an item on the queue -/
  | enqueue (it : Item)
  /-- node.go:205 -/
  | closeQueue
  /-- worker `w` runs up to its next handler call, or up to its next receive -/
  | work (w : Nat)
  /-- the handler running on worker `w` returns -/
  | handlerReturn (w : Nat) (r : Option ε)
  /-- someone who has the context of handler `h`'s invocation for item `k` calls `Send` -/
  | send (k h : Nat) (data : Bytes)

/-- The context of this invocation exists. node.go:185. -/
def State.hasStarted (s : State ε) (k h : Nat) : Bool := s.log.any fun | .started k' h' => k' = k ∧ h' = h | _ => false

/-- Not in the code: replaces a worker. -/
def State.setWorker (s : State ε) (w : Nat) (p : Pc ε) (es : List (Event ε)) : State ε :=
  { s with workers := s.workers.set w p, log := s.log ++ es }

/-- msg.go:76-82 `Send`, for an item of the queue; the compare-and-swap is one step. `client.send` always returns nil (client.go:340-347). -/
def State.ctxSend (s : State ε) (k h : Nat) (it : Item) (data : Bytes) : State ε :=
  if it.msg.isRequest then
    if s.sent k h then { s with log := s.log ++ [.sendErr k h] }
    else { s with sent := fun k' h' => if k' = k ∧ h' = h then true else s.sent k' h', log := s.log ++ [.sendOk k h it.msg.nonce data] }
  else { s with log := s.log ++ [.sendOk k h it.msg.nonce data] }

/-- node.go:182-206, client.go:548, msg.go:72-78: one step; `none`: not enabled. -/
def step (s : State ε) : Action ε → Option (State ε)
  -- the channel has capacity `numWorkers`
  | .enqueue it =>
    if s.queueClosed then none
    else if s.items.length - s.head < s.numWorkers then some { s with items := s.items ++ [it] } else none
  | .closeQueue => if s.queueClosed then none else some { s with queueClosed := true }
  | .work w => match s.workers[w]? with
    | some .idle =>
      if s.head < s.items.length then some { s.setWorker w (.next s.head 0) [.taken w s.head] with head := s.head + 1 }
      else if s.queueClosed then some (s.setWorker w (.ended false) []) else none
    | some (.next k h) =>
      if h < s.numHandlers then some (s.setWorker w (.inside k h) [.started k h])
      else some (s.setWorker w .idle [])
    | some (.failing k e) => match s.items[k]? with
      | some it => some (s.setWorker w (.closing k) [.reported it.client e])
      | none => none
    | some (.closing k) => match s.items[k]? with
      | some it => some (s.setWorker w (.ended true) [.closed it.client])
      | none => none
    | _ => none
  | .handlerReturn w r => match s.workers[w]? with
    | some (.inside k h) => match r with
      | none => some (s.setWorker w (.next k (h + 1)) [.finished k h none])
      | some e => some (s.setWorker w (.failing k e) [.finished k h (some e)])
    | _ => none
  | .send k h data => match s.items[k]? with
    | some it => if s.hasStarted k h then some (s.ctxSend k h it data) else none
    | none => none

/-- States reachable from the start of the workers by any finite schedule. Not in the code. -/
abbrev Reachable (numWorkers numHandlers : Nat) (s : State ε) : Prop := ReachFrom step (State.new numWorkers numHandlers) s

end Noise.Wk
