import Verif.Model.TS
import Verif.Model.Client
/-!
# Several calls that share connections: node.go:319-376, 390-441, map.go:31-68 and client.go:208-247

Composition of any number of calls of `Ping`, `Send` and `Request` (up to the point where they have a client), each with its own context, with the outbound connections (`Model/Client.lean`) that they start or find in the pool.
Calls for the same address share a connection. What is done with the client afterwards (`send`, `request`) are actions of the connection.

Simplified: no eviction from the pool and no `release` (`Model/Pool.lean`, `Model/PoolLock.lean`); the callbacks of protocols do not block (`Model/Reent.lean`).
-/
namespace Noise.Callers
variable {ε : Type}

/-- An outbound connection. client.go:47-86, 208-247. -/
structure Conn (ε : Type) where
  addr : Text
  /-- the call whose context is passed to the dialer (node.go:396, client.go:219) -/
  owner : Nat
  /-- the application has called `Close` on it -/
  byApp : Bool
  c : Cl.State ε

/-- node.go:399-408: why an attempt has failed. -/
inductive Why (ε : Type) where
  /-- `ctx.Err()` -/
  | context
  /-- `client.Error()` -/
  | error (e : ε)
  deriving DecidableEq

/-- Where a call is. node.go:316-355, 390-441; client.go:349-378. -/
inductive Pc (ε : Type) where
  /-- node.go:393-397 -/
  | get
  /-- node.go:399-408, waiting for connection `j` -/
  | select (j : Nat)
  /-- node.go:414, in `close()` (client.go:187-198). The second half of the function of `closeOnce`, after the writer has been marked closed, is the action `closeConn` of the connection, whoever began it. -/
  | closing (j : Nat) (w : Why ε)
  /-- node.go:415 -/
  | wait (j : Nat) (w : Why ε)
  /-- node.go:418-424, 432-438 -/
  | failing
  /-- it has returned an error -/
  | failed
  /-- it has returned connection `j` -/
  | got (j : Nat)
  deriving DecidableEq

/-- node.go:316-355: one call and where it is. -/
structure Call (ε : Type) where
  addr : Text
  /-- attempts left -/
  left : Nat
  pc : Pc ε
  /-- its context has ended -/
  ended : Bool
  /-- the connections it has waited for -/
  tried : List Nat

/-- node.go:24-58: all calls and connections of a node. -/
structure State (ε : Type) where
  conns : List (Conn ε)
  /-- node.go:52 `outbound` -/
  pool : Text → Option Nat
  calls : List (Call ε)
  /-- the addresses for which `OnPingFailed` was called -/
  log : List Text

/-- node.go:62-102: no calls, no connections. -/
def State.new : State ε := ⟨[], fun _ => none, [], []⟩

/-- The branches of the `select` (node.go:399-408). -/
inductive Branch where
  | ctxDone
  | ready
  | readerDone
  | writerDone
  deriving DecidableEq

/-- node.go:316-355, 390-441: the steps of calls, connections and contexts. -/
inductive Action (ε : Type) where
  /-- `Ping`, `Send` or `Request` is called -/
  | call (addr : Text)
  /-- the context of call `k` is cancelled or its deadline passes -/
  | expire (k : Nat)
  /-- call `k` goes on -/
  | step (k : Nat)
  /-- call `k` goes on, by this branch of the `select` -/
  | select (k : Nat) (b : Branch)
  /-- connection `j`, its peer, or somebody who uses it does something -/
  | conn (j : Nat) (act : Cl.Action ε)
  /-- the application calls `Close` on client `j` -/
  | appClose (j : Nat)

/-- Not in the code: replaces a call. -/
def State.setCall (s : State ε) (k : Nat) (c : Call ε) : State ε := { s with calls := s.calls.set k c }
/-- Not in the code: replaces a connection. -/
def State.setConn (s : State ε) (j : Nat) (x : Conn ε) (c : Cl.State ε) : State ε := { s with conns := s.conns.set j { x with c := c } }

/-- map.go:31-54 and node.go:394-397: the pooled connection, or a new one whose goroutine is started with the context of call `k`. -/
def State.get (s : State ε) (k : Nat) (addr : Text) : State ε × Nat := match s.pool addr with
  | some j => (s, j)
  | none => ({ s with conns := s.conns ++ [⟨addr, k, false, Cl.State.new .outbound⟩], pool := fun a => if a = addr then some s.conns.length else s.pool a }, s.conns.length)

/-- node.go:399-408: the branch can be taken. -/
def Branch.enabled (b : Branch) (ended : Bool) (c : Cl.State ε) : Bool := match b with
  | .ctxDone => ended
  | .ready => c.ready
  | .readerDone => c.readerDone
  | .writerDone => c.writerDone

/-- node.go:399-412: the error after the `select`. -/
def Branch.error (b : Branch) (c : Cl.State ε) : Option (Why ε) := match b with
  | .ctxDone => some .context
  | _ => c.err.map .error

/-- node.go:417: `errors.Is` a context error. -/
def Why.isCtx (isCtx : ε → Bool) : Why ε → Bool
  | .context => true
  | .error e => isCtx e

/-- A step of `dialIfNotExists` other than the `select`. node.go:390-441, client.go:349-378. -/
def State.callStep (isCtx : ε → Bool) (s : State ε) (k : Nat) (c : Call ε) : Option (State ε) := match c.pc with
  | .get => match c.left with
    -- node.go:430
    | 0 => some (s.setCall k { c with pc := .failing })
    | n + 1 =>
      let (s, j) := s.get k c.addr
      some (s.setCall k { c with left := n, pc := .select j, tried := c.tried ++ [j] })
  | .closing j w => match s.conns[j]? with
    | some x => match x.c.once with
      | .fresh => (Cl.step x.c .closeBegin).map fun d => s.setConn j x d
      -- `Once.Do` returns after the function has returned
      | .running => none
      | .done => some (s.setCall k { c with pc := .wait j w })
    | none => none
  | .wait j w => match s.conns[j]? with
    | some x => if x.c.clientDone then some (s.setCall k { c with pc := if w.isCtx isCtx then .failing else .get }) else none
    | none => none
  | .failing => some { s.setCall k { c with pc := .failed } with log := s.log ++ [c.addr] }
  | _ => none

/-- Dropping the connection from the pool is not among the actions `conn`; nor is beginning a `close()` from outside, except for a worker's after it has reported the error of a handler (node.go:189-190). -/
def ordinary (c : Cl.State ε) : Cl.Action ε → Bool
  | .closeBegin => c.err.isSome
  | .poolDrop => false
  | _ => true

/-- node.go:316-355, 390-441 and client.go:208-247, 349-378: one atomic step; `none`: not enabled. -/
def step (max : Nat) (isCtx : ε → Bool) (s : State ε) : Action ε → Option (State ε)
  | .call addr => some { s with calls := s.calls ++ [⟨addr, max, .get, false, []⟩] }
  | .expire k => (s.calls[k]?).map fun c => s.setCall k { c with ended := true }
  | .step k => match s.calls[k]? with
    | some c => s.callStep isCtx k c
    | none => none
  | .select k b => match s.calls[k]? with
    | some c => match c.pc with
      | .select j => match s.conns[j]? with
        | some x => if b.enabled c.ended x.c then
            match b.error x.c with
            | none => some (s.setCall k { c with pc := .got j })
            | some w => some (s.setCall k { c with pc := .closing j w })
          else none
        | none => none
      | _ => none
    | none => none
  | .conn j act => match s.conns[j]? with
    | some x => if ordinary x.c act then
        (Cl.step x.c act).map fun d =>
          -- client.go:213, map.go:56-68: the connection has removed the entry of its address from the pool
          { s.setConn j x d with pool := if x.c.inPool && !d.inPool then fun a => if a = x.addr then none else s.pool a else s.pool }
      else none
    | none => none
  | .appClose j => match s.conns[j]? with
    | some x => (Cl.step x.c .closeBegin).map fun d => s.setConn j { x with byApp := true } d
    | none => none

/-- Not in the code: the states that any finite schedule can lead to, for the theorems. -/
abbrev Reachable (max : Nat) (isCtx : ε → Bool) (s : State ε) : Prop := ReachFrom (step max isCtx) State.new s

end Noise.Callers
