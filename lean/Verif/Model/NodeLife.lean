import Verif.Model.TS
/-!
# node.go:109-236, 378-388, 449-469: `Listen`, the accept goroutine, `Close`, `Bind` and `Handle`

A transition system of one node: the goroutine that calls `Listen` (once, as the documentation demands), the accept goroutine it starts, any number of calls of
`Close`, and, as counters, the workers, the inbound and the outbound connections. The identity computed by `Listen` is in `Model/NodeCfg.lean`, the workers in
`Model/Worker.lean`, a connection in `Model/Client.lean`.
-/
namespace Noise.Life

/-- The accept goroutine (node.go:199-233). -/
inductive Accept where
  /-- not started -/
  | none
  /-- node.go:200, before `n.listening.Store(true)` -/
  | start
  /-- node.go:220, in `Accept` -/
  | loop
  /-- node.go:226-231: with a connection that `Accept` has returned, before it is in the pool -/
  | get
  /-- node.go:222, `n.listenerDone <- err` -/
  | report
  /-- node.go:203, `n.inbound.release()` -/
  | release
  /-- node.go:205 `close(n.work)` -/
  | closeWork
  /-- node.go:206 `n.workers.Wait()` -/
  | waitWorkers
  /-- node.go:208 -/
  | store
  /-- node.go:209 -/
  | closeDone
  | ended
  deriving DecidableEq

/-- A call of `Close` (node.go:378-388). -/
inductive Closer where
  /-- node.go:380, after a successful CAS, before the listener is closed -/
  | closing
  /-- node.go:385 `<-n.listenerDone` -/
  | waiting
  /-- returned after receiving the error of the accept loop -/
  | gotError
  /-- returned because `listenerDone` was closed -/
  | gotClosed
  deriving DecidableEq

/-- node.go:109-236, 378-388: `listening`, the listener, the accept goroutine, the workers and the calls of `Close`. -/
structure State where
  /-- `n.numWorkers` -/
  numWorkers : Nat
  /-- node.go:45 -/
  listening : Bool
  /-- a listener exists and is open -/
  listenerOpen : Bool
  accept : Accept
  /-- node.go:57 `listenerDone`, of capacity 1 (node.go:64): buffered values, and whether it is closed -/
  doneBuf : Nat
  doneClosed : Bool
  closers : List Closer
  /-- live inbound and outbound connections, running workers -/
  inbound : Nat
  outbound : Nat
  workers : Nat
  /-- node.go:51-52: registered protocols and handlers -/
  protocols : Nat
  handlers : Nat

/-- node.go:62-102. -/
def State.new (numWorkers : Nat) : State := ⟨numWorkers, false, false, .none, 0, false, [], 0, 0, 0, 0, 0⟩

/-- node.go:109-236, 378-388: the steps of the goroutines. -/
inductive Action where
  /-- `Listen` returns nil: node.go:178-199 -/
  | listen
  /-- `Bind` with one protocol, node.go:449-455 -/
  | bind
  /-- `Handle` with one handler, node.go:463-469 -/
  | handle
  /-- node.go:200 -/
  | acceptStart
  /-- node.go:220: a connection is accepted -/
  | acceptConn
  /-- node.go:226-231: the pool gets a client for it, or has one already; a full pool is in `Model/Node.lean` -/
  | acceptGet (new : Bool)
  /-- node.go:220-223: `Accept` fails because the listener was closed -/
  | acceptClosed
  /-- node.go:220-223: `Accept` fails for another reason -/
  | acceptError
  /-- the accept goroutine executes its next step after the loop -/
  | acceptStep
  | inboundEnds
  | outboundConn
  | outboundEnds
  | workerEnds
  /-- `Close` is called: node.go:379 -/
  | close
  /-- node.go:380 -/
  | closeListener (c : Nat)
  /-- node.go:385 -/
  | closeRecv (c : Nat)
  deriving DecidableEq

/-- One atomic step; `none`: not enabled. node.go:109-236, 378-388. -/
def step (s : State) : Action → Option State
  | .listen => match s.accept with
    | .none => some { s with listenerOpen := true, accept := .start, workers := s.numWorkers }
    | _ => none
  | .bind => some (if s.listening then s else { s with protocols := s.protocols + 1 })
  | .handle => some (if s.listening then s else { s with handlers := s.handlers + 1 })
  | .acceptStart => match s.accept with
    | .start => some { s with listening := true, accept := .loop }
    | _ => none
  | .acceptConn => match s.accept, s.listenerOpen with
    | .loop, true => some { s with accept := .get }
    | _, _ => none
  | .acceptGet new => match s.accept with
    | .get => some { s with accept := .loop, inbound := if new then s.inbound + 1 else s.inbound }
    | _ => none
  | .acceptClosed => match s.accept, s.listenerOpen with
    | .loop, false => some { s with accept := .report }
    | _, _ => none
  | .acceptError => match s.accept, s.listenerOpen with
    | .loop, true => some { s with accept := .report }
    | _, _ => none
  | .acceptStep => match s.accept with
    | .report => if s.doneBuf = 0 then some { s with accept := .release, doneBuf := 1 } else none
    | .release => if s.inbound = 0 then some { s with accept := .closeWork } else none
    | .closeWork => some { s with accept := .waitWorkers }
    | .waitWorkers => if s.workers = 0 then some { s with accept := .store } else none
    | .store => some { s with accept := .closeDone, listening := false }
    | .closeDone => some { s with accept := .ended, doneClosed := true }
    | _ => none
  | .inboundEnds => if 0 < s.inbound then some { s with inbound := s.inbound - 1 } else none
  | .outboundConn => some { s with outbound := s.outbound + 1 }
  | .outboundEnds => if 0 < s.outbound then some { s with outbound := s.outbound - 1 } else none
  | .workerEnds => if 0 < s.workers then some { s with workers := s.workers - 1 } else none
  | .close =>
    if s.listening then some { s with listening := false, closers := s.closers ++ [.closing] }
    else some { s with closers := s.closers ++ [.waiting] }
  | .closeListener c => match s.closers[c]? with
    | some .closing => some { s with listenerOpen := false, closers := s.closers.set c .waiting }
    | _ => none
  | .closeRecv c => match s.closers[c]? with
    | some .waiting =>
      if 0 < s.doneBuf then some { s with doneBuf := s.doneBuf - 1, closers := s.closers.set c .gotError }
      else if s.doneClosed then some { s with closers := s.closers.set c .gotClosed }
      else none
    | _ => none

/-- Not in the code: the states that any finite schedule can lead to, for the theorems. -/
def Reach (numWorkers : Nat) (s : State) : Prop := ReachFrom step (State.new numWorkers) s

end Noise.Life
