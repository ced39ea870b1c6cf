import Verif.Model.Table
import Verif.Model.KadMsg
import Verif.Model.TS
/-! # kademlia/protocol.go and kademlia/events.go -/
namespace Noise.Kad

/-- kademlia/events.go:8-19: the callbacks, as events of a log. -/
inductive Event where
  | admitted (e : ID)
  | activity (e : ID)
  | evicted (e : ID)
  deriving DecidableEq

/-- What came of the ping at kademlia/protocol.go:109: a `Pong`; another message; an error, of a dial (then the node has called `OnPingFailed` for the address, node.go:438) or of
something else (a timeout, a dropped connection). -/
inductive Ping where
  | pong
  | other
  | dialFailed
  | failed
  deriving DecidableEq

/-- kademlia/protocol.go:193-201 `OnPingFailed`. -/
def onPingFailed (t : Table) (addr : Text) : Table × List Event :=
  match t.deleteByAddress addr with
  | (t', e, true) => (t', [.evicted e])
  | (t', _, false) => (t', [])

/-- kademlia/protocol.go:113-123, 128-138: delete and report. -/
def evict (t : Table) (k : PublicKey) : Table × List Event :=
  match t.delete k with
  | (t', e, true) => (t', [.evicted e])
  | (t', _, false) => (t', [])

/-- kademlia/protocol.go:82-153 `Ack`, while nothing else changes the table: at most `fuel` rounds of the loop, `ping n x` being the outcome of the ping to `x` in round `n`.
`none`: more rounds are needed. -/
def ack (ping : Nat → ID → Ping) (e : ID) : (fuel round : Nat) → Table → List Event → Option (Res (Table × List Event))
  | 0, _, _, _ => none
  | fuel + 1, round, t, log =>
    match t.update e with
    | (t, .ok inserted) => some (.ok (t, log ++ [if inserted then .admitted e else .activity e]))
    | (t, .error _) =>
      match t.last e.id with
      | .panic => some .panic
      | .err x => some (.err x)
      | .ok last =>
        match ping round last with
        | .pong => some (.ok (t, log ++ [.evicted e]))
        | .other | .failed => let (t, ev) := evict t last.id; ack ping e fuel (round + 1) t (log ++ ev)
        | .dialFailed =>
          let (t, ev) := onPingFailed t last.address
          let (t, ev') := evict t last.id
          ack ping e fuel (round + 1) t (log ++ ev ++ ev')

/-! ## Concurrent executions

Every call of `Ack` (from `OnPeerConnected`, `OnMessageSent`, `OnMessageRecv`, kademlia/protocol.go:188-213, in any goroutine) and of `OnPingFailed` is a thread. Calls of the table
are atomic (its mutex); between them, and before the callback is called, anything may happen. -/

/-- kademlia/protocol.go:82-153, 193-201: where a call is. -/
inductive Pc where
  /-- kademlia/protocol.go:84 -/
  | update
  /-- kademlia/protocol.go:106 -/
  | last
  /-- kademlia/protocol.go:109, pinging this peer -/
  | ping (x : ID)
  /-- kademlia/protocol.go:113, 128 -/
  | delete (x : ID)
  /-- about to call a callback; `again`: then back to the head of the loop, otherwise return -/
  | emit (ev : Event) (again : Bool)
  /-- kademlia/protocol.go:194 -/
  | deleteAddress (a : Text)
  | done
  deriving DecidableEq

/-- kademlia/protocol.go:82-153, 193-201: a call of `Ack` or `OnPingFailed`. -/
structure Thread where
  /-- the argument of `Ack` -/
  id : ID
  pc : Pc
  deriving DecidableEq

/-- kademlia/protocol.go:23-31 and the calls under way. -/
structure State where
  table : Table
  threads : List Thread
  /-- callbacks called, in order -/
  log : List Event
  /-- the process has crashed -/
  crashed : Bool

/-- kademlia/protocol.go:82-201: the steps of the calls, with the choices of the environment. -/
inductive Action where
  /-- `Ack(e)` is called -/
  | ack (e : ID)
  /-- `OnPingFailed(a)` is called -/
  | pingFailed (a : Text)
  /-- thread `i` executes its next step -/
  | step (i : Nat)
  /-- the ping of thread `i` ends, successfully or not -/
  | pinged (i : Nat) (pong : Bool)
  /-- the user calls a method of `Table()` -/
  | table (op : TableOp)

/-- Not in the code: replaces a call. -/
def State.set (s : State) (i : Nat) (id : ID) (pc : Pc) : State := { s with threads := s.threads.set i ⟨id, pc⟩ }

/-- The next step of a thread. kademlia/protocol.go:82-153, 193-201. -/
def threadStep (s : State) (i : Nat) (id : ID) : Pc → Option State
  | .update =>
    match s.table.update id with
    | (t, .ok true) => some ({ s with table := t }.set i id (.emit (.admitted id) false))
    | (t, .ok false) => some ({ s with table := t }.set i id (.emit (.activity id) false))
    | (t, .error _) => some ({ s with table := t }.set i id .last)
  | .last =>
    match s.table.last id.id with
    | .ok x => some (s.set i id (.ping x))
    | _ => some { s with crashed := true }
  | .ping _ => none
  | .delete x =>
    match s.table.delete x.id with
    | (t, y, true) => some ({ s with table := t }.set i id (.emit (.evicted y) true))
    | (t, _, false) => some ({ s with table := t }.set i id .update)
  | .emit ev again => some ({ s with log := s.log ++ [ev] }.set i id (if again then .update else .done))
  | .deleteAddress a =>
    match s.table.deleteByAddress a with
    | (t, y, true) => some ({ s with table := t }.set i id (.emit (.evicted y) false))
    | (t, _, false) => some ({ s with table := t }.set i id .done)
  | .done => none

/-- One atomic step of the node. kademlia/protocol.go:82-201. -/
def step (s : State) (a : Action) : Option State :=
  if s.crashed then none
  else match a with
  | .ack e => some { s with threads := s.threads ++ [⟨e, .update⟩] }
  | .pingFailed a => some { s with threads := s.threads ++ [⟨ID.zero, .deleteAddress a⟩] }
  | .table op => some { s with table := s.table.apply op }
  | .pinged i pong =>
    match s.threads[i]? with
    | some ⟨id, .ping x⟩ => some (s.set i id (if pong then .emit (.evicted id) false else .delete x))
    | _ => none
  | .step i =>
    match s.threads[i]? with
    | some ⟨id, pc⟩ => threadStep s i id pc
    | none => none

/-- kademlia/protocol.go:168-184 `Bind`: a fresh table. -/
def State.new (t : Table) : State := ⟨t, [], [], false⟩

/-! ## Handle -/

/-- kademlia/protocol.go:176-179: the opcodes that the node's codec gave to the four messages; by C16 they are different. -/
structure Opcodes where
  ping : UInt16
  pong : UInt16
  request : UInt16
  response : UInt16
  distinct : [ping, pong, request, response].Nodup

/-- A message as `Handle` sees it after `DecodeMessage` (kademlia/protocol.go:217-235). -/
inductive Msg where
  | ping
  | findNode (k : PublicKey)
  | other
  /-- it does not decode -/
  | undecodable

/-- codec.go:79-102 restricted to the messages `Handle` distinguishes; every other opcode, registered or not, is `other`, which `Handle` treats like an error. -/
def decode (o : Opcodes) (data : Bytes) : Msg :=
  if data.length < 2 then .undecodable
  else match get16 (data.take 2) with
  | .ok op =>
    if op = o.ping then .ping
    else if op = o.request then
      match unmarshalFindNodeRequest (data.drop 2) with
      | .ok k => .findNode k
      | _ => .undecodable
    else .other
  | _ => .undecodable

/-- What a handler does: the messages sent back with their nonces, and its error. kademlia/protocol.go:216-236. -/
structure Handled where
  sent : List (UInt64 × Bytes)
  failed : Bool
  deriving DecidableEq

/-- kademlia/protocol.go:216-236 `Handle`, for a message with this nonce (0: not a request). The context is fresh, so its single response is not refused (msg.go:73). -/
def handle (S : Sorter) (o : Opcodes) (t : Table) (nonce : UInt64) (data : Bytes) : Res Handled :=
  match decode o data with
  | .undecodable | .other => .ok ⟨[], false⟩
  | .ping => if nonce > 0 then .ok ⟨[(nonce, put16 o.pong ++ marshalPing)], false⟩ else .ok ⟨[], true⟩
  | .findNode k =>
    if nonce > 0 then
      match t.findClosest S k bucketSize with
      | .ok l => .ok ⟨[(nonce, put16 o.response ++ marshalFindNodeResponse l)], false⟩
      | .err x => .err x
      | .panic => .panic
    else .ok ⟨[], true⟩

end Noise.Kad
