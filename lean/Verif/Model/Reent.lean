import Verif.Model.Kad
/-!
# Connecting while the kademlia protocol is bound

`handshake` (client.go:380-511) calls `OnPeerConnected` of every protocol before it closes `ready`. Kademlia's `OnPeerConnected` is `Ack` (kademlia/protocol.go:188-190), which pings the last peer of a full bucket, that is,
calls `dialIfNotExists` (node.go:390-441) in the goroutine of the connection that is being set up. This file composes the goroutines of outbound connections, the routing table, and calls of `Ping`, `Send` or `Request` by
the application up to the point where they have a connection.

Simplifications: eviction from the pool (`Model/Pool.lean`) and `Ack` in the callbacks of messages and of inbound connections are left out; the events of `Ack` are in `Model/Kad.lean`.
-/
namespace Noise.Reent

/-- Where `dialIfNotExists` is. node.go:390-441. -/
inductive DPc where
  /-- node.go:394, with `n + 1` attempts left -/
  | get (n : Nat)
  /-- node.go:399-408, waiting for connection `j` -/
  | select (n j : Nat)
  /-- node.go:414-415: connection `j` has been closed, waiting for its end; `ctx`: because the context ended -/
  | wait (n j : Nat) (ctx : Bool)
  deriving DecidableEq

/-- Where `Ack` is (kademlia/protocol.go:82-153). -/
inductive APc where
  | update
  | last
  /-- pinging `x`, in `dialIfNotExists` -/
  | dial (x : ID) (p : DPc)
  /-- pinging `x`, waiting for the response on connection `j` (client.go:366-375) -/
  | request (x : ID) (j : Nat)
  /-- node.go:417-424, 432-438: `OnPingFailed` for the address of `x` -/
  | pingFailed (x : ID)
  | delete (x : ID)
  deriving DecidableEq

/-- Where the goroutine of an outbound connection is. client.go:208-247, 508-514. -/
inductive CPc where
  /-- client.go:210-230, 380-495: dialling and handshake -/
  | dialing
  /-- client.go:507-511: in `OnPeerConnected`, for the peer `e` -/
  | callback (e : ID) (p : APc)
  /-- client.go:232-248: `ready` is closed, the loops run -/
  | live
  /-- client.go:206-209: removed from the pool, `clientDone` is closed -/
  | ended
  deriving DecidableEq

/-- client.go:47-86: an outbound connection. -/
structure Conn where
  addr : Text
  pc : CPc
  deriving DecidableEq

/-- A call by the application; `none`: it has returned. node.go:316-371. -/
structure User where
  addr : Text
  pc : Option DPc
  deriving DecidableEq

/-- node.go:24-58: the outbound pool, the connections and the calls. -/
structure State where
  table : Table
  conns : List Conn
  /-- node.go:52 `outbound` -/
  pool : Text → Option Nat
  users : List User

/-- node.go:62-102. -/
def State.new (t : Table) : State := ⟨t, [], fun _ => none, []⟩

/-- Who executes `dialIfNotExists`. node.go:390-441. -/
inductive Who where
  | conn (i : Nat)
  | user (u : Nat)
  deriving DecidableEq

/-- node.go:390-441, client.go:208-247, kademlia/protocol.go:82-153: the steps of the goroutines. -/
inductive Action where
  /-- the application calls `Ping`, `Send` or `Request` -/
  | call (addr : Text)
  /-- client.go:219-226, 385-494: dialling or the handshake fails -/
  | fail (i : Nat)
  /-- the handshake succeeds, with the peer `e` -/
  | handshake (i : Nat) (e : ID)
  /-- the callback runs -/
  | ack (i : Nat)
  /-- the peer answers the ping of connection `i`'s callback -/
  | pong (i : Nat)
  /-- the ping times out or its connection is lost -/
  | lost (i : Nat)
  /-- a step of `dialIfNotExists` -/
  | dial (w : Who)
  /-- the context of this call ends -/
  | expire (w : Who)
  /-- client.go:234-248: the loops end -/
  | close (i : Nat)

/-- Not in the code: replaces a connection. -/
def State.setConn (s : State) (i : Nat) (c : Conn) (pc : CPc) : State := { s with conns := s.conns.set i { c with pc := pc } }

/-- map.go:23-57 and node.go:394-397: the pooled connection, or a new one whose goroutine is started. -/
def State.get (s : State) (addr : Text) : State × Nat := match s.pool addr with
  | some j => (s, j)
  | none => ({ s with conns := s.conns ++ [⟨addr, .dialing⟩], pool := fun a => if a = addr then some s.conns.length else s.pool a }, s.conns.length)

/-- The result of a step of `dialIfNotExists`. node.go:390-441. -/
inductive DRes where
  /-- still in it -/
  | more (p : DPc)
  /-- it returns connection `j` -/
  | conn (j : Nat)
  /-- it fails -/
  | failed

/-- A step of `dialIfNotExists`; `none`: blocked. node.go:390-441. -/
def State.dialStep (s : State) (addr : Text) : DPc → Option (State × DRes)
  | .get n => let (s, j) := s.get addr; some (s, .more (.select n j))
  | .select n j => match s.conns[j]? with
    | some c => match c.pc with
      | .live => some (s, .conn j)
      -- `ready`, `readerDone` and `writerDone` are closed, and there was an error
      | .ended => some (s, .more (.wait n j false))
      | _ => none
    | none => none
  | .wait n j ctx => match s.conns[j]? with
    | some c => match c.pc with
      | .ended => match ctx, n with
        | false, n + 1 => some (s, .more (.get n))
        | _, _ => some (s, .failed)
      | _ => none
    | none => none

/-- The context ends: only the `select` looks at it. node.go:399-401. -/
def expired : DPc → Option DPc
  | .select n j => some (.wait n j true)
  | _ => none

/-- Attempts left after the first one: `maxDialAttempts - 1` (node.go:393). -/
structure Params where
  retries : Nat

/-- A step of `Ack`, except for what waits. kademlia/protocol.go:82-153. -/
def State.ackStep (p : Params) (s : State) (i : Nat) (c : Conn) (e : ID) : APc → Option State
  | .update => match s.table.update e with
    | (t, .ok _) => some ({ s with table := t }.setConn i c .live)
    | (t, .error _) => some ({ s with table := t }.setConn i c (.callback e .last))
  | .last => match s.table.last e.id with
    | .ok x => some (s.setConn i c (.callback e (.dial x (.get p.retries))))
    | _ => none
  | .pingFailed x => some ({ s with table := (s.table.deleteByAddress x.address).1 }.setConn i c (.callback e (.delete x)))
  | .delete x => some ({ s with table := (s.table.delete x.id).1 }.setConn i c (.callback e .update))
  | _ => none

/-- node.go:390-441, client.go:208-247, kademlia/protocol.go:82-153: one step; `none`: not enabled. -/
def step (p : Params) (s : State) : Action → Option State
  | .call addr => some { s with users := s.users ++ [⟨addr, some (.get p.retries)⟩] }
  | .fail i => match s.conns[i]? with
    | some c => if c.pc = .dialing then some { s.setConn i c .ended with pool := fun a => if a = c.addr then none else s.pool a } else none
    | none => none
  | .handshake i e => match s.conns[i]? with
    | some c => if c.pc = .dialing then some (s.setConn i c (.callback e .update)) else none
    | none => none
  | .ack i => match s.conns[i]? with
    | some c => match c.pc with
      | .callback e q => s.ackStep p i c e q
      | _ => none
    | none => none
  | .pong i => match s.conns[i]? with
    | some c => match c.pc with
      -- the bucket stays as it is (kademlia/protocol.go:143-152)
      | .callback _ (.request _ _) => some (s.setConn i c .live)
      | _ => none
    | none => none
  | .lost i => match s.conns[i]? with
    | some c => match c.pc with
      | .callback e (.request x _) => some (s.setConn i c (.callback e (.delete x)))
      | _ => none
    | none => none
  | .dial (.conn i) => match s.conns[i]? with
    | some c => match c.pc with
      | .callback e (.dial x q) => (s.dialStep x.address q).map fun (s, r) => s.setConn i c (.callback e (match r with
        | .more q => .dial x q
        | .conn j => .request x j
        | .failed => .pingFailed x))
      | _ => none
    | none => none
  | .dial (.user u) => match s.users[u]? with
    | some ⟨addr, some q⟩ => (s.dialStep addr q).map fun (s, r) => match r with
      | .more q => { s with users := s.users.set u ⟨addr, some q⟩ }
      | .conn _ => { s with users := s.users.set u ⟨addr, none⟩ }
      -- node.go:417-424, 432-438, kademlia/protocol.go:194
      | .failed => { s with users := s.users.set u ⟨addr, none⟩, table := (s.table.deleteByAddress addr).1 }
    | _ => none
  | .expire (.conn i) => match s.conns[i]? with
    | some c => match c.pc with
      | .callback e (.dial x q) => (expired q).map fun q => s.setConn i c (.callback e (.dial x q))
      | _ => none
    | none => none
  | .expire (.user u) => match s.users[u]? with
    | some ⟨addr, some q⟩ => (expired q).map fun q => { s with users := s.users.set u ⟨addr, some q⟩ }
    | _ => none
  | .close i => match s.conns[i]? with
    | some c => if c.pc = .live then some { s.setConn i c .ended with pool := fun a => if a = c.addr then none else s.pool a } else none
    | none => none

/-- Not in the code: the states that any finite schedule can lead to, for the theorems. -/
abbrev Reachable (p : Params) (t : Table) (s : State) : Prop := ReachFrom (step p) (State.new t) s

end Noise.Reent
