import Verif.Model.Requests
import Verif.Model.Ident
/-!
# client.go: one pooled connection, as a transition system

The goroutines are: the *main* goroutine (`outbound`/`inbound`, which runs the handshake and then `recvLoop`), the *writer* (`writeLoop`), and any
number of outside callers (`Send`, `Request`, `Close`, workers, the pool). An action is one atomic section of one of them. Everything decided by the
network, the peer or the user is an argument of the action, so that quantifying over action sequences quantifies over all of them.

Simplifications: `ε` is the type of error values; what a successful `read` returns is decided by the peer (framing and decryption are in
`Model/Frame.lean`, the handshake messages in `Model/Handshake.lean`); `written` messages are those handed to the `bufio.Writer` (their bytes reach
the connection in that order, the last ones only with the next successful `Flush`); the queue to the workers is outside (`deliver` is enabled by the
environment); logging is dropped. Sections in which no shared variable is touched are merged with their neighbours.
-/
namespace Noise.Cl

/-- client.go:19-24. The side as seen by the pool: `outbound` runs `(*Client).outbound`. -/
inductive Side where
  | inbound
  | outbound
  deriving DecidableEq

/-- Program counter of the main goroutine. client.go:208-280, 380-558. -/
inductive MainPc where
  /-- created by `clientMap.get` (map.go:49), goroutine not yet running -/
  | init
  /-- client.go:219 `DialContext` -/
  | dialing
  /-- client.go:222 `close(c.ready)` after a dial failure -/
  | dialErr1
  /-- client.go:223 `close(c.writerDone)` -/
  | dialErr2
  /-- client.go:224 `close(c.readerDone)` -/
  | dialErr3
  /-- client.go:380-495 inside the handshake -/
  | hs
  /-- client.go:508-514 the `OnPeerConnected` callbacks -/
  | hsVerified
  /-- client.go:381 the deferred `close(c.ready)` -/
  | hsEnd
  /-- client.go:234 / 264-270 after the handshake -/
  | afterHs
  /-- client.go:521 `c.read()` in `recvLoop` -/
  | recv
  /-- client.go:541 about to call `findRequest` -/
  | routing (m : Message)
  /-- client.go:548 sending to `node.work` -/
  | delivering (m : Message)
  /-- client.go:550-556 the `OnMessageRecv` callbacks -/
  | recvCb
  /-- client.go:518 the deferred `close(c.readerDone)` -/
  | recvEnd
  /-- client.go:236/271 (`true`) or 265 (`false`): in `c.close()` -/
  | closing (disc : Bool)
  /-- client.go:240-246 / 273-279 the `OnPeerDisconnected` callbacks -/
  | disc
  /-- client.go:213 / 254 the deferred removal from the pool -/
  | remove
  /-- client.go:214 / 255 the deferred `close(c.clientDone)` -/
  | done
  | finished
  deriving DecidableEq

/-- Program counter of the writer goroutine. client.go:560-651. -/
inductive WriterPc where
  | notStarted
  /-- client.go:568-574 the non-blocking `select` -/
  | check
  /-- client.go:576-593 deadline, then waiting on `writerCond` -/
  | wait
  /-- client.go:599-641: the messages still to be written, then `Flush` -/
  | batch (l : List Message)
  /-- client.go:643-649 the `OnMessageSent` callbacks -/
  | cb
  /-- client.go:561 the deferred `close(c.writerDone)` -/
  | ending
  | ended
  deriving DecidableEq

/-- client.go:62 `conn`: nil, open, or closed by this side. -/
inductive Conn where
  | none
  | «open»
  | closed
  deriving DecidableEq

/-- client.go:85 `closeOnce`: not called, the function is running, or it has returned. -/
inductive Once where
  | fresh
  | running
  | done
  deriving DecidableEq

/-- State of one `request` call (client.go:349-378). -/
inductive CallSt where
  /-- has its nonce, has not called `send` yet -/
  | registered
  /-- blocked in the `select` -/
  | waiting
  /-- returned the message -/
  | returned (m : Message)
  /-- returned `io.EOF` -/
  | eof
  /-- returned `ctx.Err()` -/
  | cancelled
  deriving DecidableEq

/-- client.go:349-378: a call of `request`. -/
structure Call where
  nonce : UInt64
  data : Bytes
  st : CallSt
  /-- content of the call's channel (capacity 1), with the position in the log at which it was put there -/
  chan : Option (Message × Nat)

/-- What happens on a connection, as visible from outside or by name in the API documentation. client.go:208-280, 517-651. -/
inductive Event (ε : Type) where
  /-- some goroutine reported this error -/
  | reported (e : ε)
  /-- `send` was called (by `Send`, `Request` or a handler) -/
  | submitted (m : Message)
  /-- the writer handed the message to the buffered connection -/
  | wrote (m : Message)
  /-- the writer flushed successfully -/
  | flushed
  /-- `OnMessageSent` -/
  | sentCb
  /-- `request` call number `i` obtained nonce `n` -/
  | registered (i : Nat) (n : UInt64)
  /-- a received message was processed; `toRequest`: handed to a request of this node, otherwise bound for the handlers -/
  | processed (m : Message) (toRequest : Bool)
  /-- the message was put on the work queue; the context's `ID()` and whether the session key was in force -/
  | delivered (m : Message) (id : Option ID) (sealed : Bool)
  /-- `OnMessageRecv` -/
  | recvCb
  /-- `OnPeerConnected`, with the client's ID -/
  | connected (id : Option ID)
  /-- `OnPeerDisconnected` -/
  | disconnected
  /-- `request` call number `i` returned this message -/
  | returned (i : Nat) (m : Message)

/-- client.go:47-86 `Client`, with the program counters, the outstanding `request` calls and a log of events. -/
structure State (ε : Type) where
  side : Side
  main : MainPc
  writer : WriterPc
  conn : Conn
  /-- `suite != nil` -/
  suite : Bool
  /-- `none` is the zero `ID{}` -/
  id : Option ID
  ready : Bool
  readerDone : Bool
  writerDone : Bool
  clientDone : Bool
  /-- a closed channel was closed again (a panic) -/
  crashed : Bool
  err : Option ε
  once : Once
  writerClosed : Bool
  writerBuf : List Message
  reqs : RequestMap
  calls : List Call
  /-- complete frames waiting in the `bufio.Reader` -/
  rbuf : Nat
  /-- this client is the pool's entry for its address -/
  inPool : Bool
  log : List (Event ε)

variable {ε : Type}

/-- client.go:88-108 `newClient`, already entered in the pool by `clientMap.get` (map.go:48-51). -/
def State.new (side : Side) : State ε where
  side := side
  main := .init
  writer := .notStarted
  conn := .none
  suite := false
  id := none
  ready := false
  readerDone := false
  writerDone := false
  clientDone := false
  crashed := false
  err := none
  once := .fresh
  writerClosed := false
  writerBuf := []
  reqs := .new
  calls := []
  rbuf := 0
  inPool := true
  log := []

/-- client.go:178-185 `reportError`. -/
def State.report (s : State ε) (e : ε) : State ε :=
  { s with err := match s.err with | none => some e | some e' => some e', log := s.log ++ [.reported e] }

/-- `close(c.ready)`. client.go:222, 381. -/
def State.closeReady (s : State ε) : State ε := { s with ready := true, crashed := s.crashed || s.ready }
/-- `close(c.readerDone)`. client.go:224, 518. -/
def State.closeReaderDone (s : State ε) : State ε := { s with readerDone := true, crashed := s.crashed || s.readerDone }
/-- `close(c.writerDone)`. client.go:223, 561. -/
def State.closeWriterDone (s : State ε) : State ε := { s with writerDone := true, crashed := s.crashed || s.writerDone }
/-- `close(c.clientDone)`. client.go:214, 255. -/
def State.closeClientDone (s : State ε) : State ε := { s with clientDone := true, crashed := s.crashed || s.clientDone }

/-- client.go:340-347 `send`: always succeeds. -/
def State.send (s : State ε) (m : Message) : State ε :=
  { s with writerBuf := s.writerBuf ++ [m], log := s.log ++ [.submitted m] }

/-- client.go:188-192: the first caller of `close()` marks the writer closed. -/
def State.closeBegin (s : State ε) : Option (State ε) :=
  if s.once = .fresh then some { s with once := .running, writerClosed := true } else none

/-- client.go:194-196: it then closes the connection, if there is one *now*. -/
def State.closeConn (s : State ε) : Option (State ε) :=
  if s.once = .running then some { s with once := .done, conn := if s.conn = .none then .none else .closed } else none

/-- client.go:541-548: `findRequest`, then `ch <- msg; close(ch)` (the channel has room and no other user: merged) or on to the work queue. -/
def State.route (s : State ε) (m : Message) : State ε :=
  match s.reqs.findRequest m.nonce with
  | (r, some i) =>
    { s with reqs := r, main := .recv, calls := s.calls.modify i (fun c => { c with chan := some (m, s.log.length) }),
             log := s.log ++ [.processed m true] }
  | (r, none) => { s with reqs := r, main := .delivering m, log := s.log ++ [.processed m false] }

/-- The next section of the main goroutine, where it is determined by the client alone. client.go:208-280, 517-558. -/
def State.mainStep (s : State ε) : Option (State ε) :=
  match s.main with
  -- client.go:208-217, 249-260
  | .init => match s.side with
    | .outbound => some { s with main := .dialing }
    | .inbound => some { s with main := .hs, conn := .open }
  | .dialErr1 => some { s.closeReady with main := .dialErr2 }
  | .dialErr2 => some { s.closeWriterDone with main := .dialErr3 }
  | .dialErr3 => some { s.closeReaderDone with main := .remove }
  | .hsVerified => some { s with main := .hsEnd, log := s.log ++ [.connected s.id] }
  | .hsEnd => some { s.closeReady with main := .afterHs }
  -- client.go:264-270; `outbound` (client.go:232-235) has no such check
  | .afterHs =>
    if s.side = .inbound ∧ s.err.isSome then some { s with main := .closing false }
    else some { s with main := .recv, writer := .check }
  | .routing m => some (s.route m)
  | .recvCb => some { s with main := .recv, log := s.log ++ [.recvCb] }
  | .recvEnd => some { s.closeReaderDone with main := .closing true }
  | .closing b => match s.once with
    | .fresh => s.closeBegin
    | .running => none
    | .done => some { s with main := if b then .disc else .remove }
  | .disc => some { s with main := .remove, log := s.log ++ [.disconnected] }
  | .remove => some { s with main := .done, inPool := false }
  | .done => some { s.closeClientDone with main := .finished }
  | _ => none

/-- The next section of the writer goroutine, unless something fails. client.go:560-651. -/
def State.writerStep (s : State ε) : Option (State ε) :=
  match s.writer with
  | .check => some { s with writer := if s.readerDone || s.clientDone then .ending else .wait }
  -- client.go:587-597
  | .wait =>
    if s.writerClosed then some { s with writer := .ending, writerBuf := [] }
    else if s.writerBuf = [] then none
    else some { s with writer := .batch s.writerBuf, writerBuf := [] }
  -- client.go:600-631
  | .batch (m :: l) => some { s with writer := .batch l, log := s.log ++ [.wrote m] }
  -- client.go:634; flushing to a closed connection fails
  | .batch [] => if s.conn = .closed then none else some { s with writer := .cb, log := s.log ++ [.flushed] }
  | .cb => some { s with writer := .check, log := s.log ++ [.sentCb] }
  | .ending => some { s.closeWriterDone with writer := .ended }
  | _ => none

/-- Actions: the atomic sections, with the choices of the environment. client.go:141-378, 517-651. -/
inductive Action (ε : Type) where
  /-- the main goroutine runs -/
  | main
  /-- the writer goroutine runs -/
  | writer
  /-- client.go:219-226: the dial succeeds / fails -/
  | dialOK
  | dialFail (e : ε)
  /-- client.go:402-451: the first handshake message is read and establishes the session key -/
  | hsKey
  /-- client.go:385-494: a step of the handshake fails -/
  | hsFail (e : ε)
  /-- client.go:466-497: the second handshake message is read and the peer's ID in it verified -/
  | hsOK (id : ID)
  /-- the network delivers a frame into the read buffer -/
  | arrive
  /-- client.go:521-539: a message is read -/
  | readMsg (m : Message)
  /-- client.go:522-537: reading fails, or the payload is malformed -/
  | readFail (e : ε)
  /-- client.go:548: the work queue accepts the message -/
  | deliver
  /-- client.go:577-640: setting the deadline, encrypting, writing or flushing fails -/
  | writerFail (e : ε)
  /-- `Send`, or `HandlerContext.Send` with the nonce of the request -/
  | send (m : Message)
  /-- client.go:352: a `request` call starts -/
  | reqStart (data : Bytes)
  /-- client.go:359: it sends -/
  | reqSend (i : Nat)
  /-- client.go:369-372: it receives from its channel -/
  | reqTake (i : Nat)
  /-- client.go:373-374: its context ends -/
  | reqCancel (i : Nat)
  /-- node.go:189: a handler of a delivered message returned an error -/
  | handlerErr (e : ε)
  /-- `Close`, `dialIfNotExists`, a worker, or the pool calls `close()` -/
  | closeBegin
  | closeConn
  /-- map.go:38-42, 75-77: the pool drops the client (eviction, release) -/
  | poolDrop

/-- A message of this connection has been put on the work queue. client.go:548. -/
def State.hasDelivered (s : State ε) : Bool := s.log.any fun | .delivered _ _ _ => true | _ => false

/-- Replace a call. Not in the code. -/
def State.setCall (s : State ε) (i : Nat) (c : Call) : State ε := { s with calls := s.calls.set i c }

/-- The transition function; `none`: not enabled. client.go:141-378, 517-651. -/
def step (s : State ε) : Action ε → Option (State ε)
  | .main => s.mainStep
  | .writer => s.writerStep
  | .dialOK => if s.main = .dialing then some { s with main := .hs, conn := .open } else none
  | .dialFail e => if s.main = .dialing then some { s.report e with main := .dialErr1 } else none
  | .hsKey => if s.main = .hs ∧ s.suite = false ∧ 0 < s.rbuf then some { s with suite := true, rbuf := s.rbuf - 1 } else none
  | .hsFail e => if s.main = .hs then some { s.report e with main := .hsEnd } else none
  | .hsOK id => if s.main = .hs ∧ s.suite = true ∧ 0 < s.rbuf then some { s with id := some id, main := .hsVerified, rbuf := s.rbuf - 1 } else none
  | .arrive => if s.conn = .open then some { s with rbuf := s.rbuf + 1 } else none
  | .readMsg m => if s.main = .recv ∧ 0 < s.rbuf then some { s with main := .routing m, rbuf := s.rbuf - 1 } else none
  | .readFail e => if s.main = .recv then some { s.report e with main := .recvEnd } else none
  | .deliver => match s.main with
    | .delivering m => some { s with main := .recvCb, log := s.log ++ [.delivered m s.id s.suite] }
    | _ => none
  | .writerFail e => match s.writer with
    | .wait => some { s.report e with writer := .ending }
    | .batch _ => some { s.report e with writer := .ending }
    | _ => none
  | .send m => some (s.send m)
  | .reqStart data =>
    match s.reqs.nextNonce s.calls.length with
    | (r, some n) => some { s with reqs := r, calls := s.calls ++ [⟨n, data, .registered, none⟩], log := s.log ++ [.registered s.calls.length n] }
    | (r, none) => some { s with reqs := r }
  | .reqSend i => match s.calls[i]? with
    | some c => if c.st = .registered then some ((s.send ⟨c.nonce, c.data⟩).setCall i { c with st := .waiting }) else none
    | none => none
  | .reqTake i => match s.calls[i]? with
    | some c => if c.st = .waiting then
        match c.chan with
        -- the channel is closed after the message was put in, and its zero value would be the nonce 0
        | some (m, _) =>
          if m.nonce = 0 then some (s.setCall i { c with st := .eof })
          else some { s.setCall i { c with st := .returned m } with log := s.log ++ [.returned i m] }
        | none => none
      else none
    | none => none
  | .reqCancel i => match s.calls[i]? with
    | some c => if c.st = .waiting then some (s.setCall i { c with st := .cancelled }) else none
    | none => none
  | .handlerErr e => if s.hasDelivered then some (s.report e) else none
  | .closeBegin => s.closeBegin
  | .closeConn => s.closeConn
  | .poolDrop => if s.inPool then some { s with inPool := false } else none

/-- Run a sequence of actions; `none` if one of them is not enabled. Not in the code. -/
def run (s : State ε) : List (Action ε) → Option (State ε)
  | [] => some s
  | a :: as => match step s a with
    | some s' => run s' as
    | none => none

/-- States reachable from a new client by any finite schedule. Not in the code. -/
def Reachable (side : Side) (s : State ε) : Prop := ∃ as, run (State.new side) as = some s

end Noise.Cl
