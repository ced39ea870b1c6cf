import Verif.Spec.Memory
/-!
# The memory accesses of a client

The fields of `Client` (client.go:47-86) that are read or written by several goroutines, and the operations on them of the goroutine of the connection (`outbound` or `inbound`, which runs `handshake` and `recvLoop`), of
`writeLoop`, and of the goroutines of the application and of the node that call methods of the client.

A goroutine's program is a list of operations, one for each path through the code; an execution interleaves the programs of all goroutines, subject to the mutexes, channels, `go` statement and `Once`.
Simplifications: the fields set by `newClient` (client.go:88-108) are not written afterwards and other goroutines obtain the client through the mutex of the connection pool, so neither is included; the channels of
single requests and the queue `work` of the node are left out. A worker that takes a message from the queue is thereby ordered after everything the connection did before; here it only `recv`s `ready`, which is less.
-/
namespace Noise.Race
open Noise.Spec (Op Ev)

/-- client.go:47-86. -/
inductive Var where
  | id
  | suite
  | conn
  /-- `addr` and `side` -/
  | addr
  /-- `reader` and the buffer behind it -/
  | reader
  | readerBuf
  /-- `writer` and the buffer behind it -/
  | writer
  | writerBuf
  | writerClosed
  | err
  | logger
  /-- the entries and the nonce of the `requestMap` -/
  | requests
  deriving DecidableEq

/-- client.go:56, 68, 72, 79 and map.go:102. -/
inductive Mutex where
  | err
  | logger
  | cond
  | requests
  deriving DecidableEq

/-- client.go:74-77. -/
inductive Chan where
  | ready
  | readerDone
  | writerDone
  | clientDone
  deriving DecidableEq

/-- Not in the code: an operation on the variables and objects of a client. -/
abbrev COp := Op Var Mutex Chan
/-- Not in the code: an operation and the goroutine that executes it. -/
abbrev CEv := Ev Var Mutex Chan
/-- Not in the code: what happens in an execution, in order. -/
abbrev CTrace := Noise.Spec.Trace Var Mutex Chan

/-- The goroutine of `outbound` or `inbound`. node.go:230, 396. -/
def main : Nat := 0
/-- The goroutine of `writeLoop`. client.go:234, 269. -/
def writer : Nat := 1

/-! ## Executions -/

/-- The state of the synchronisation objects. client.go:47-86. -/
structure Sync where
  holder : Mutex → Option Nat
  readers : Mutex → List Nat
  closed : Chan → Bool
  started : Nat → Bool
  /-- `closeOnce` (client.go:81): not called, running, done -/
  once : Option Bool

/-- client.go:88-108: nothing is locked, closed or started. -/
def Sync.init : Sync := ⟨fun _ => none, fun _ => [], fun _ => false, fun t => decide (t ≠ writer), none⟩

/-- The next event, if it can happen. A `Lock` waits until the mutex is free, an `RLock` until no writer has it; a receive waits until the channel is closed; a goroutine runs after it has been started. Unlocking what is not held and
closing twice panic, and no event follows (C31 shows that no channel is closed twice). No path takes an `RLock` twice. Go's semantics of the objects of client.go:47-86. -/
def exec (s : Sync) (e : CEv) : Option Sync :=
  if s.started e.tid then
    match e.op with
    | .rd _ => some s
    | .wr _ => some s
    | .lock m => if s.holder m = none ∧ s.readers m = [] then some { s with holder := fun n => if n = m then some e.tid else s.holder n } else none
    | .unlock m => if s.holder m = some e.tid then some { s with holder := fun n => if n = m then none else s.holder n } else none
    | .rlock m => if s.holder m = none ∧ e.tid ∉ s.readers m then some { s with readers := fun n => if n = m then e.tid :: s.readers m else s.readers n } else none
    | .runlock m => if e.tid ∈ s.readers m then some { s with readers := fun n => if n = m then (s.readers m).filter (· ≠ e.tid) else s.readers n } else none
    | .close c => if s.closed c then none else some { s with closed := fun d => if d = c then true else s.closed d }
    | .recv c => if s.closed c then some s else none
    | .go t => if s.started t then none else some { s with started := fun u => if u = t then true else s.started u }
    | .onceEnter => if s.once = none then some { s with once := some false } else none
    | .onceExit => if s.once = some false then some { s with once := some true } else none
    | .onceWait => if s.once = some true then some s else none
  else none

/-! ## Programs -/

/-- Calls of methods of a client by any goroutine. client.go:110-206, 340-378. -/
inductive Api where
  /-- client.go:110-116 `ID`; msg.go:43-46 -/
  | id
  /-- client.go:168-176 `Error` -/
  | error
  /-- client.go:178-185 `reportError` -/
  | report
  /-- client.go:118-126 `Logger` -/
  | logger
  /-- client.go:128-136 `SetLogger` -/
  | setLogger
  /-- client.go:138-143, 187-198 `Close`; `first`: this is the call that executes the function -/
  | close (first : Bool)
  /-- client.go:145-154, 200-202 `WaitUntilReady`, node.go:402: also `Ping` returning the client; and a handler called with a message from it -/
  | waitReady
  /-- node.go:404 -/
  | waitReader
  /-- node.go:406 -/
  | waitWriter
  /-- client.go:156-166, 204-206 `WaitUntilClosed` -/
  | waitClosed
  /-- client.go:340-347 `send` -/
  | send
  /-- client.go:349-356 and map.go:109-128: the nonce of a request; the message follows by `send` -/
  | nextNonce
  deriving DecidableEq

/-- client.go:110-206, 340-378: the accesses of a call, in order. -/
def Api.ops : Api → List COp
  | .id => [.rd .id]
  | .error => [.lock .err, .rd .err, .unlock .err]
  | .report => [.lock .err, .rd .err, .wr .err, .unlock .err]
  | .logger => [.rlock .logger, .rd .logger, .runlock .logger]
  | .setLogger => [.lock .logger, .wr .logger, .unlock .logger]
  | .close true => [.onceEnter, .lock .cond, .wr .writerClosed, .unlock .cond, .rd .conn, .onceExit]
  | .close false => [.onceWait]
  | .waitReady => [.recv .ready]
  | .waitReader => [.recv .readerDone]
  | .waitWriter => [.recv .writerDone]
  | .waitClosed => [.recv .clientDone]
  | .send => [.lock .cond, .rd .writerBuf, .wr .writerBuf, .unlock .cond]
  | .nextNonce => [.lock .requests, .rd .requests, .wr .requests, .unlock .requests]

/-- Several calls. Not in the code: the application's. -/
def calls (l : List Api) : List COp := l.flatMap Api.ops

/-- client.go:282-313 `read`. -/
def readOps : List COp := [.rd .conn, .wr .reader, .wr .readerBuf, .rd .suite, .rd .readerBuf]

/-- client.go:315-338 `write`. -/
def writeOps : List COp := [.rd .conn, .rd .suite, .rd .writer, .wr .writer]

/-- client.go:380-505: the steps of `handshake`. -/
def handshakeSteps : List (List COp) :=
  [writeOps, readOps, [.wr .suite], writeOps, readOps, [.wr .id], Api.ops .logger, [.rd .conn], Api.ops .setLogger, Api.ops .logger]

/-- client.go:380-515: `handshake` fails after some of its steps, or calls `OnPeerConnected` of the protocols (which may call methods of the client). -/
inductive IsHandshake : List COp → Prop
  | fail (k : Nat) : IsHandshake ((handshakeSteps.take k).flatten ++ Api.ops .report ++ [.close .ready])
  | ok (cb : List Api) : IsHandshake (handshakeSteps.flatten ++ calls cb ++ [.close .ready])

/-- client.go:521-557 and map.go:138-148: a message is received, and the request it answers is looked up or the protocols' `OnMessageRecv` is called. -/
def recvOps (cb : List Api) : List COp := readOps ++ [.lock .requests, .rd .requests, .wr .requests, .unlock .requests] ++ calls cb

/-- client.go:517-558 `recvLoop`. -/
def recvLoop (its : List (List Api)) (warn : Bool) : List COp :=
  its.flatMap recvOps ++ readOps ++ (if warn then Api.ops .logger else []) ++ Api.ops .report ++ [.close .readerDone]

/-- client.go:208-280: the programs of `outbound` and `inbound`. -/
inductive IsMain : List COp → Prop
  /-- client.go:220-227 -/
  | dialFailed : IsMain ([.wr .addr] ++ Api.ops .report ++ [.close .ready, .close .writerDone, .close .readerDone, .close .clientDone])
  /-- client.go:229-247; the handshake may have failed -/
  | outbound (h : List COp) (its : List (List Api)) (warn first : Bool) (cb : List Api) : IsHandshake h →
      IsMain ([.wr .addr, .wr .reader, .wr .writer, .wr .conn] ++ h ++ [.go writer] ++ recvLoop its warn ++ Api.ops (.close first) ++ Api.ops .logger ++ calls cb ++ [.close .clientDone])
  /-- client.go:258-267 -/
  | inboundFailed (h : List COp) (first : Bool) : IsHandshake h →
      IsMain ([.wr .addr, .wr .reader, .wr .writer, .wr .conn] ++ h ++ Api.ops .error ++ Api.ops (.close first) ++ [.close .clientDone])
  /-- client.go:258-280 -/
  | inbound (h : List COp) (its : List (List Api)) (warn first : Bool) (cb : List Api) : IsHandshake h →
      IsMain ([.wr .addr, .wr .reader, .wr .writer, .wr .conn] ++ h ++ Api.ops .error ++ [.go writer] ++ recvLoop its warn ++ Api.ops (.close first) ++ calls cb ++ [.close .clientDone])

/-- client.go:584-590: waiting for messages, `k` times woken up in vain. -/
def takeOps (k : Nat) : List COp :=
  [.lock .cond, .rd .writerBuf, .rd .writerClosed] ++ (List.replicate k [.unlock .cond, .lock .cond, .rd .writerBuf, .rd .writerClosed]).flatten ++ [.rd .writerBuf, .rd .writerClosed, .wr .writerBuf, .unlock .cond]

/-- client.go:596-629: `n` messages. -/
def msgOps (n : Nat) : List COp := (List.replicate n [.rd .suite, .rd .writer, .wr .writer]).flatten

/-- client.go:567-650: one round of `writeLoop`. -/
def roundOps (k n : Nat) (cb : List Api) : List COp := [.rd .conn] ++ takeOps k ++ msgOps n ++ [.rd .writer, .wr .writer] ++ calls cb

/-- How `writeLoop` ends. client.go:560-651. -/
inductive WEnd where
  /-- client.go:565-569: `readerDone`, or `clientDone`, is closed -/
  | done (reader : Bool)
  /-- client.go:573-580 -/
  | deadline (warn : Bool)
  /-- client.go:592-594 -/
  | closed (k : Nat)
  /-- client.go:596-639: encrypting, writing or flushing fails after `n` messages -/
  | failed (k n : Nat) (wrote warn : Bool)

/-- client.go:560-651: the accesses at the end, in order. -/
def WEnd.ops : WEnd → List COp
  | .done reader => [.recv (if reader then .readerDone else .clientDone)]
  | .deadline warn => [.rd .conn] ++ (if warn then Api.ops .logger else []) ++ Api.ops .report
  | .closed k => [.rd .conn] ++ takeOps k
  | .failed k n wrote warn => [.rd .conn] ++ takeOps k ++ msgOps n ++ [.rd .suite] ++ (if wrote then [.rd .writer, .wr .writer] else []) ++ (if warn then Api.ops .logger else []) ++ Api.ops .report

/-- client.go:560-651 `writeLoop`. -/
inductive IsWriter : List COp → Prop
  | mk (rounds : List (Nat × Nat × List Api)) (e : WEnd) : IsWriter (rounds.flatMap (fun r => roundOps r.1 r.2.1 r.2.2) ++ e.ops ++ [.close .writerDone])

/-- The operations of goroutine `t`, in order. Not in the code. -/
def opsOf (t : Nat) (tr : CTrace) : List COp := (tr.filter fun e => e.tid = t).map Ev.op

/-- `tr` is an execution of a connection in which the goroutines `2, 3, …` call methods of the client, as listed by `api`. client.go:208-280, 517-651. -/
structure Execution (api : Nat → List Api) (tr : CTrace) : Prop where
  run : ∃ s, runs exec Sync.init tr = some s
  main : ∃ p, IsMain p ∧ opsOf main tr <+: p
  writer : ∃ p, IsWriter p ∧ opsOf writer tr <+: p
  user : ∀ t, 2 ≤ t → opsOf t tr <+: calls (api t)

end Noise.Race
