import Verif.Model.Worker
import Verif.Model.Callers
import Verif.Model.Queue
/-!
# A whole node: node.go:44-58, 109-236, 319-441, map.go:15-95, client.go:187-281

Composition of everything that runs in a node: the application's calls of `Listen`, `Close`, `Ping`, `Send`, `Request`, `Inbound`, `Outbound` and `(*Client).Close`; the accept goroutine; both connection pools with their mutexes and
with eviction; every connection, inbound and outbound (`Model/Client.lean`); the work channel, the workers and the contexts of handlers (`Model/Worker.lean`).

Simplified: the callbacks of protocols return (`Model/Reent.lean`, `Model/KadNode.lean`); handlers registered while `Listen` runs are left out (`Model/Register.lean`), failures of `Listen` (`Model/NodeCfg.lean`) and of closing
the listener; a context ends at any time after the call; whether an error of a connection wraps a context error is decided by `isCtx`.
-/
namespace Noise.Node
variable {ε : Type}

/-- node.go:29-43, mod.go:30-50 the configuration. -/
structure Cfg (ε : Type) where
  /-- `maxInboundConnections`, which bounds both pools (map.go:37) -/
  max : Nat
  /-- `maxDialAttempts` -/
  attempts : Nat
  numWorkers : Nat
  numHandlers : Nat
  /-- node.go:417: `errors.Is` a context error -/
  isCtx : ε → Bool

/-- A client (client.go:47-86), its address, and whether the receive loop is sending on the nil channel (`Model/Queue.lean`). -/
structure Conn (ε : Type) where
  addr : Text
  c : Cl.State ε
  nilChan : Bool

/-- A goroutine that holds the mutex of a pool while it waits (map.go:45). -/
inductive Tid where
  | accept
  | call (k : Nat)
  deriving DecidableEq

/-- map.go:15-21: the holder of the mutex, and address and client of the entries, most recently used first (C36 relates this to list and map). -/
structure Pool where
  lock : Option Tid
  entries : List (Text × Nat)

/-- The accept goroutine (node.go:199-233). -/
inductive Accept where
  | none
  /-- node.go:200 -/
  | start
  /-- node.go:220 -/
  | loop
  /-- map.go:32: a connection from this address was accepted; waiting for the mutex -/
  | get (a : Text)
  /-- map.go:44 (`false`: in `close`) or map.go:45 (`true`: in `waitUntilClosed`) of client `v`, holding the mutex -/
  | evict (v : Nat) (closed : Bool) (a : Text)
  /-- node.go:222 -/
  | report
  /-- node.go:203, map.go:71 -/
  | release
  /-- map.go:79-82: the clients still to be closed and awaited; the first is closed already, or not -/
  | releasing (l : List Nat) (closed : Bool)
  /-- node.go:205 -/
  | closeWork
  /-- node.go:206 -/
  | waitWorkers
  /-- node.go:208 -/
  | store
  /-- node.go:209 -/
  | closeDone
  | ended
  deriving DecidableEq

/-- A call of `Close` (node.go:378-388). -/
inductive Closer where
  /-- node.go:380 -/
  | closing
  /-- node.go:385 -/
  | waiting
  /-- returned, having received the error of the accept loop -/
  | gotError
  /-- returned, because `listenerDone` was closed -/
  | gotClosed
  deriving DecidableEq

/-- What the application has called. node.go:316-371. -/
inductive Kind where
  | ping
  | send (data : Bytes)
  | request (data : Bytes)
  deriving DecidableEq

/-- What a call returns. node.go:316-371. -/
inductive Result where
  /-- `Ping`: the client -/
  | client (j : Nat)
  /-- `Send`: nil -/
  | sent
  /-- `Request`: the data of this message -/
  | response (m : Message)
  /-- an error of `dialIfNotExists` -/
  | dialFailed
  /-- client.go:352: no nonce left -/
  | noNonce
  /-- client.go:371 -/
  | eof
  /-- client.go:374 -/
  | cancelled
  deriving DecidableEq

/-- Where a call is. node.go:316-371, 390-441. -/
inductive Pc (ε : Type) where
  /-- node.go:393-394, map.go:32 -/
  | get
  /-- map.go:44-45, as in `Accept.evict` -/
  | evict (v : Nat) (closed : Bool)
  /-- node.go:399 -/
  | select (j : Nat)
  /-- node.go:414 -/
  | closing (j : Nat) (w : Callers.Why ε)
  /-- node.go:415 -/
  | wait (j : Nat) (w : Callers.Why ε)
  /-- node.go:418-424, 432-438 -/
  | failing
  /-- node.go:411: `dialIfNotExists` has returned client `j` -/
  | got (j : Nat)
  /-- client.go:359, request number `i` of the client -/
  | reqSend (j i : Nat)
  /-- client.go:368 -/
  | reqWait (j i : Nat)
  | returned (r : Result)
  deriving DecidableEq

/-- A call of `Ping`, `Send` or `Request`. node.go:316-371. -/
structure Call (ε : Type) where
  kind : Kind
  addr : Text
  /-- attempts left -/
  left : Nat
  pc : Pc ε
  /-- its context has ended -/
  ended : Bool

/-- client.go:508-514, 273-279, node.go:418-438 and what calls return. -/
inductive Event where
  /-- node.go:228-230: a connection from this address was accepted, and is served by client `j` -/
  | accepted (a : Text) (j : Nat)
  /-- node.go:228-231: a connection from this address was accepted; the pool had a client for the address already -/
  | ignored (a : Text)
  /-- `Inbound()` or `Outbound()` returned these clients -/
  | listed (side : Cl.Side) (l : List Nat)
  /-- `OnPingFailed` -/
  | pingFailed (a : Text)
  deriving DecidableEq

/-- node.go:24-58: a node with all its connections and calls. -/
structure State (ε : Type) where
  /-- every client ever created -/
  conns : List (Conn ε)
  /-- node.go:49-50 -/
  pool : Cl.Side → Pool
  /-- node.go:53-55: the channel (`none` is nil) and the workers -/
  wk : Option (Wk.State ε)
  /-- node.go:45 -/
  listening : Bool
  /-- a listener exists and is open -/
  listenerOpen : Bool
  accept : Accept
  /-- node.go:57 `listenerDone`, of capacity 1 -/
  doneBuf : Nat
  doneClosed : Bool
  closers : List Closer
  calls : List (Call ε)
  log : List Event
  /-- a goroutine has panicked -/
  crashed : Bool

/-- node.go:62-102. -/
def State.new : State ε where
  conns := []
  pool := fun _ => ⟨none, []⟩
  wk := none
  listening := false
  listenerOpen := false
  accept := .none
  doneBuf := 0
  doneClosed := false
  closers := []
  calls := []
  log := []
  crashed := false

/-- node.go:109-441, map.go:31-97, client.go:141-280: the steps of the goroutines, with the choices of the environment. -/
inductive Action (ε : Type) where
  /-- `Listen` returns nil (node.go:178-199) -/
  | listen
  /-- node.go:220: `Accept` returns a connection from this address -/
  | acceptConn (a : Text)
  /-- node.go:220-224: `Accept` returns an error -/
  | acceptFail
  /-- the accept goroutine goes on -/
  | acceptStep
  /-- map.go:71-77: `release` takes the clients, to be closed in this order (that of a Go map) -/
  | acceptRelease (l : List Nat)
  /-- `Close` is called (node.go:379) -/
  | close
  /-- node.go:380 -/
  | closeListener (c : Nat)
  /-- node.go:385 -/
  | closeRecv (c : Nat)
  /-- `Inbound()` or `Outbound()` (node.go:479-488, map.go:85-95) -/
  | list (side : Cl.Side)
  /-- `(*Client).Close()` -/
  | appClose (j : Nat)
  /-- `Ping`, `Send` or `Request` is called -/
  | call (kind : Kind) (addr : Text)
  /-- the context of call `k` ends -/
  | expire (k : Nat)
  /-- call `k` goes on -/
  | callStep (k : Nat)
  /-- call `k` goes on, by this branch of the `select` of node.go:399 -/
  | select (k : Nat) (b : Callers.Branch)
  /-- call `k` receives from the channel of its request (client.go:369) -/
  | take (k : Nat)
  /-- call `k` finds its context ended (client.go:373) -/
  | cancel (k : Nat)
  /-- a goroutine of client `j`, the network or the peer does something; or the goroutine that is in the function of its `closeOnce` goes on -/
  | conn (j : Nat) (act : Cl.Action ε)
  /-- worker `w` goes on -/
  | work (w : Nat)
  /-- the handler running on worker `w` returns -/
  | handlerReturn (w : Nat) (r : Option ε)
  /-- someone who has the context of the invocation of handler `h` for item `k` calls `Send` on it -/
  | ctxSend (k h : Nat) (data : Bytes)

/-- Not in the code: replaces a call. -/
def State.setCall (s : State ε) (k : Nat) (c : Call ε) : State ε := { s with calls := s.calls.set k c }
/-- Not in the code: replaces the outbound or the inbound pool. -/
def State.setPool (s : State ε) (side : Cl.Side) (p : Pool) : State ε := { s with pool := fun d => if d = side then p else s.pool d }

/-- Client `j` takes a step. client.go:208-280. -/
def State.stepConn (s : State ε) (j : Nat) (act : Cl.Action ε) : Option (State ε) := match s.conns[j]? with
  | some x => (Cl.step x.c act).map fun c => { s with conns := s.conns.set j { x with c := c } }
  | none => none

/-- The pool has no entry for client `j` any more. map.go:59-85. -/
def State.drop (s : State ε) (j : Nat) : State ε := (s.stepConn j .poolDrop).getD s

/-- client.go:187-198 `close()` of client `j` by some goroutine, which then is in `s'` (after the function of `closeOnce` has returned; its second half, client.go:194-196, is the action `closeConn` of the client). -/
def State.closeClient (s : State ε) (j : Nat) (s' : State ε) : Option (State ε) := match s.conns[j]? with
  | some x => match x.c.once with
    | .fresh => s.stepConn j .closeBegin
    | .running => none
    | .done => some s'
  | none => none

/-- client.go:200-206. -/
def State.isDone (s : State ε) (j : Nat) : Bool := match s.conns[j]? with
  | some x => x.c.clientDone
  | none => false

/-- map.go:48-51: a new client at the front. -/
def State.push (s : State ε) (side : Cl.Side) (a : Text) : State ε :=
  let p := s.pool side
  ({ s with conns := s.conns ++ [⟨a, Cl.State.new side, false⟩] } : State ε).setPool side { p with entries := (a, s.conns.length) :: p.entries }

/-- map.go:31-54 `get`, up to its return, or up to the `close` of the client that it evicts; `found`, `added` and `evicts` are what the caller does next. -/
def State.get (max : Nat) (s : State ε) (side : Cl.Side) (t : Tid) (a : Text) (found added evicts : State ε → Nat → State ε) : Option (State ε) :=
  let p := s.pool side
  if p.lock ≠ none then none
  else match p.entries.find? (fun e => e.1 = a) with
  | some e => some (found (s.setPool side { p with entries := e :: p.entries.filter (fun q => q.1 ≠ a) }) e.2)
  | none =>
    if p.entries.length = max then match p.entries.getLast? with
      | some e => some (evicts ((s.setPool side ⟨some t, p.entries.dropLast⟩).drop e.2) e.2)
      -- map.go:38-39: `Remove` of a nil element panics
      | none => some { s with crashed := true }
    else some (added (s.push side a) s.conns.length)

/-- map.go:45-54: the client that it evicts has ended; `get` adds the new one and returns. -/
def State.evicted (s : State ε) (side : Cl.Side) (a : Text) : State ε :=
  s.setPool side { s.pool side with lock := none } |>.push side a

/-- client.go:213, 254, map.go:56-68: client `j` removes the entry for its address, whoever's it is. -/
def State.remove (s : State ε) (j : Nat) (x : Conn ε) : Option (State ε) :=
  let p := s.pool x.c.side
  if p.lock ≠ none then none
  else match s.stepConn j .main with
    | some s' =>
      let s' := s'.setPool x.c.side { p with entries := p.entries.filter (fun q => q.1 ≠ x.addr) }
      match p.entries.find? (fun e => e.1 = x.addr) with
      | some e => some (s'.drop e.2)
      | none => some s'
    | none => none

/-- client.go:548: client `j` sends to the work channel. -/
def State.deliver (s : State ε) (j : Nat) (x : Conn ε) : Option (State ε) := match x.c.main with
  | .delivering m =>
    if x.nilChan then none
    else match s.wk with
      | none => none
      | some w =>
        if w.queueClosed then some { s with crashed := true }
        else match Wk.step w (.enqueue ⟨j, m⟩) with
          | some w' => (s.stepConn j .deliver).map fun s' => { s' with wk := some w' }
          | none => none
  | _ => none

/-- client.go:541-548: the operand of the send is evaluated on reaching it. -/
def State.route (s : State ε) (j : Nat) (x : Conn ε) : Option (State ε) :=
  (Cl.step x.c .main).map fun c => { s with conns := s.conns.set j { x with c := c, nilChan := if WorkQ.sending c then s.wk.isNone else x.nilChan } }

/-- A step of the goroutines of client `j`, of its peer or of the network. The other actions of a client are done through the node. client.go:208-280, 517-651. -/
def State.connStep (s : State ε) (j : Nat) (act : Cl.Action ε) : Option (State ε) := match s.conns[j]? with
  | some x => match act with
    | .main => match x.c.main with
      | .remove => s.remove j x
      | .routing _ => s.route j x
      | _ => s.stepConn j .main
    | .deliver => s.deliver j x
    | .send _ | .reqStart _ | .reqSend _ | .reqTake _ | .reqCancel _ | .handlerErr _ | .closeBegin | .poolDrop => none
    | act => s.stepConn j act
  | none => none

/-- The next section of the accept goroutine, where it is determined by the node alone. node.go:199-233. -/
def State.acceptStep (cfg : Cfg ε) (s : State ε) : Option (State ε) := match s.accept with
  | .start => some { s with listening := true, accept := .loop }
  | .get a => s.get cfg.max .inbound .accept a
      (fun s _ => { s with accept := .loop, log := s.log ++ [.ignored a] })
      (fun s j => { s with accept := .loop, log := s.log ++ [.accepted a j] })
      (fun s v => { s with accept := .evict v false a })
  | .evict v false a => s.closeClient v { s with accept := .evict v true a }
  | .evict v true a => if s.isDone v then some { s.evicted .inbound a with accept := .loop, log := s.log ++ [.accepted a s.conns.length] } else none
  | .report => if s.doneBuf = 0 then some { s with accept := .release, doneBuf := 1 } else none
  | .releasing [] _ => some { s with accept := .closeWork }
  | .releasing (j :: l) false => s.closeClient j { s with accept := .releasing (j :: l) true }
  | .releasing (j :: l) true => if s.isDone j then some { s with accept := .releasing l false } else none
  | .closeWork => match s.wk with
    | some w => (Wk.step w .closeQueue).map fun w' => { s with wk := some w', accept := .waitWorkers }
    | none => none
  | .waitWorkers => match s.wk with
    | some w => if w.workers.all (fun p => match p with | .ended _ => true | _ => false) then some { s with accept := .store } else none
    | none => none
  | .store => some { s with accept := .closeDone, listening := false }
  | .closeDone => some { s with accept := .ended, doneClosed := true }
  | _ => none

/-- The next section of call `k`, where it is determined by the node alone. node.go:390-441. -/
def State.callStep (cfg : Cfg ε) (s : State ε) (k : Nat) (c : Call ε) : Option (State ε) := match c.pc with
  | .get => match c.left with
    | 0 => some (s.setCall k { c with pc := .failing })
    | n + 1 => s.get cfg.max .outbound (.call k) c.addr
        (fun s j => s.setCall k { c with left := n, pc := .select j })
        (fun s j => s.setCall k { c with left := n, pc := .select j })
        (fun s v => s.setCall k { c with left := n, pc := .evict v false })
  | .evict v false => s.closeClient v (s.setCall k { c with pc := .evict v true })
  | .evict v true => if s.isDone v then some ((s.evicted .outbound c.addr).setCall k { c with pc := .select s.conns.length }) else none
  | .closing j w => s.closeClient j (s.setCall k { c with pc := .wait j w })
  | .wait j w => if s.isDone j then some (s.setCall k { c with pc := if w.isCtx cfg.isCtx then .failing else .get }) else none
  | .failing => some { s.setCall k { c with pc := .returned .dialFailed } with log := s.log ++ [.pingFailed c.addr] }
  | .got j => match c.kind with
    | .ping => some (s.setCall k { c with pc := .returned (.client j) })
    | .send data => (s.stepConn j (.send ⟨0, data⟩)).map fun s => s.setCall k { c with pc := .returned .sent }
    | .request data => match s.conns[j]? with
      | some x => (s.stepConn j (.reqStart data)).map fun s' =>
          match (x.c.reqs.nextNonce x.c.calls.length).2 with
          | some _ => s'.setCall k { c with pc := .reqSend j x.c.calls.length }
          | none => s'.setCall k { c with pc := .returned .noNonce }
      | none => none
  | .reqSend j i => (s.stepConn j (.reqSend i)).map fun s => s.setCall k { c with pc := .reqWait j i }
  | _ => none

/-- Worker `w` goes on: node.go:185-192. -/
def State.workStep (s : State ε) (w : Nat) : Option (State ε) := match s.wk with
  | some q =>
    let next := (Wk.step q (.work w)).map fun q' => { s with wk := some q' }
    match q.workers[w]? with
    | some (.failing k e) => match q.items[k]?, next with
      | some it, some s' => s'.stepConn it.client (.handlerErr e)
      | _, _ => none
    | some (.closing k) => match q.items[k]?, next with
      | some it, some s' => s.closeClient it.client s'
      | _, _ => none
    | _ => next
  | none => none

/-- msg.go:76-82 `Send` on the context of an invocation. -/
def State.ctxSend (s : State ε) (k h : Nat) (data : Bytes) : Option (State ε) := match s.wk with
  | some q => match Wk.step q (.send k h data), q.items[k]? with
    | some q', some it =>
      if it.msg.isRequest && q.sent k h then some { s with wk := some q' }
      else ({ s with wk := some q' } : State ε).stepConn it.client (.send ⟨it.msg.nonce, data⟩)
    | _, _ => none
  | none => none

/-- node.go:109-441, map.go:31-97, client.go:141-280: one atomic step; `none`: not enabled. -/
def step (cfg : Cfg ε) (s : State ε) (act : Action ε) : Option (State ε) :=
  if s.crashed then none else
  match act with
  | .listen => match s.accept with
    | .none => some { s with listenerOpen := true, accept := .start, wk := some (Wk.State.new cfg.numWorkers cfg.numHandlers) }
    | _ => none
  | .acceptConn a => match s.accept, s.listenerOpen with
    | .loop, true => some { s with accept := .get a }
    | _, _ => none
  | .acceptFail => match s.accept with
    | .loop => some { s with accept := .report }
    | _ => none
  | .acceptStep => s.acceptStep cfg
  | .acceptRelease l => match s.accept with
    | .release =>
      let p := s.pool .inbound
      if p.lock = none ∧ l.Perm (p.entries.map Prod.snd) then
        some { (l.foldl State.drop s).setPool .inbound ⟨none, []⟩ with accept := .releasing l false }
      else none
    | _ => none
  | .close =>
    if s.listening then some { s with listening := false, closers := s.closers ++ [.closing] }
    else some { s with closers := s.closers ++ [.waiting] }
  | .closeListener c => match s.closers[c]? with
    | some .closing => some { s with listenerOpen := false, closers := s.closers.set c .waiting }
    | _ => none
  | .closeRecv c => match s.closers[c]? with
    | some .waiting =>
      if 0 < s.doneBuf then some { s with doneBuf := s.doneBuf - 1, closers := s.closers.set c .gotError }
      else if s.doneClosed then some { s with closers := s.closers.set c .gotClosed }
      else none
    | _ => none
  | .list side => if (s.pool side).lock = none then some { s with log := s.log ++ [.listed side ((s.pool side).entries.map Prod.snd)] } else none
  | .appClose j => s.stepConn j .closeBegin
  | .call kind addr => some { s with calls := s.calls ++ [⟨kind, addr, cfg.attempts, .get, false⟩] }
  | .expire k => (s.calls[k]?).map fun c => s.setCall k { c with ended := true }
  | .callStep k => match s.calls[k]? with
    | some c => s.callStep cfg k c
    | none => none
  | .select k b => match s.calls[k]? with
    | some c => match c.pc with
      | .select j => match s.conns[j]? with
        | some x => if b.enabled c.ended x.c then
            match b.error x.c with
            | none => some (s.setCall k { c with pc := .got j })
            | some w => some (s.setCall k { c with pc := .closing j w })
          else none
        | none => none
      | _ => none
    | none => none
  | .take k => match s.calls[k]? with
    | some c => match c.pc with
      | .reqWait j i => match s.stepConn j (.reqTake i) with
        | some s' => match s'.conns[j]? with
          | some x => match x.c.calls[i]? with
            | some ⟨_, _, .returned m, _⟩ => some (s'.setCall k { c with pc := .returned (.response m) })
            | _ => some (s'.setCall k { c with pc := .returned .eof })
          | none => none
        | none => none
      | _ => none
    | none => none
  | .cancel k => match s.calls[k]? with
    | some c => match c.pc with
      | .reqWait j i => if c.ended then (s.stepConn j (.reqCancel i)).map fun s => s.setCall k { c with pc := .returned .cancelled } else none
      | _ => none
    | none => none
  | .conn j act => s.connStep j act
  | .work w => s.workStep w
  | .handlerReturn w r => match s.wk with
    | some q => (Wk.step q (.handlerReturn w r)).map fun q' => { s with wk := some q' }
    | none => none
  | .ctxSend k h data => s.ctxSend k h data

/-- Not in the code: the states that any finite schedule can lead to, for the theorems. -/
abbrev Reachable (cfg : Cfg ε) (s : State ε) : Prop := ReachFrom (step cfg) State.new s

end Noise.Node
