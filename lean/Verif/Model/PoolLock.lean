import Verif.Model.TS
/-!
# map.go:31-95 with client.go:186-258: the pool's mutex, eviction, and the end of the evicted client

A transition system of the goroutines that use one pool: those calling `get` (the accept loop or callers of `dialIfNotExists`), those listing it, and one
goroutine per client that ends with `pool.remove(addr); close(clientDone)` (client.go:190-193 and 233-236). The sequential behaviour of the pool is that of
`Model/Pool.lean`, simplified here to the list of pooled (address, client) pairs, most recently used first (C36 proves that the two agree).
-/
namespace Noise.PoolLock

/-- A client's goroutine (client.go:186-258). -/
inductive ClientPc where
  /-- anywhere before the deferred function -/
  | live
  /-- client.go:191 / 234, about to call `remove(addr)` -/
  | removing
  /-- client.go:192 / 235, about to close `clientDone` -/
  | finishing
  /-- `clientDone` is closed -/
  | done
  deriving DecidableEq

/-- A goroutine calling `get` (node.go:228 and node.go:394). -/
inductive Caller where
  | idle
  /-- map.go:32, waiting for the mutex -/
  | want (a : Nat)
  /-- map.go:45, in `waitUntilClosed` of the evicted client, holding the mutex -/
  | evicting (victim a : Nat)
  deriving DecidableEq

/-- What the users of the pool observe. map.go:31-85. -/
inductive Event where
  /-- `get(a)` returned this client -/
  | got (t a client : Nat)
  /-- `slice()` returned -/
  | listed (clients : List Nat)
  /-- `remove(a)` returned to the goroutine of this client -/
  | dropped (client : Nat)
  /-- `release` emptied the pool -/
  | released
  deriving DecidableEq

/-- map.go:15-21 with its mutex and the calls under way. -/
structure State where
  /-- `n.maxInboundConnections` -/
  max : Nat
  /-- map.go:16 -/
  lock : Option Nat
  /-- map.go:19-20, most recently used first: address, client -/
  pool : List (Nat × Nat)
  /-- every client ever created: address and program counter -/
  clients : List (Nat × ClientPc)
  callers : Nat → Caller
  log : List Event

/-- map.go:23-29. -/
def State.new (max : Nat) : State := ⟨max, none, [], [], fun _ => .idle, []⟩

/-- Not in the code: replaces a call. -/
def State.setCaller (s : State) (t : Nat) (p : Caller) : State := { s with callers := fun u => if u = t then p else s.callers u }

/-- map.go:48-51: a new client at the front. -/
def State.push (s : State) (t a : Nat) : State :=
  { s with pool := (a, s.clients.length) :: s.pool, clients := s.clients ++ [(a, .live)], log := s.log ++ [.got t a s.clients.length] }

/-- map.go:31-85: the steps of the calls and of the clients. -/
inductive Action where
  /-- a goroutine calls `get(a)` -/
  | call (t a : Nat)
  /-- it acquires the mutex and runs until it returns or waits for the evicted client -/
  | get (t : Nat)
  /-- `waitUntilClosed` returns -/
  | evicted (t : Nat)
  /-- the client's goroutine reaches its deferred function, for whatever reason (also: it was closed) -/
  | clientEnds (c : Nat)
  | clientRemoves (c : Nat)
  | clientDone (c : Nat)
  /-- map.go:85-96 -/
  | slice
  /-- map.go:70-77 -/
  | release

/-- One atomic step; `none`: not enabled. map.go:31-85. -/
def step (s : State) : Action → Option State
  | .call t a => match s.callers t with
    | .idle => some (s.setCaller t (.want a))
    | _ => none
  | .get t => match s.callers t, s.lock with
    | .want a, none => match s.pool.find? (fun p => p.1 = a) with
      | some p => some { s.setCaller t .idle with pool := p :: s.pool.filter (fun q => q.1 ≠ a), log := s.log ++ [.got t a p.2] }
      | none =>
        if s.pool.length = s.max then match s.pool.getLast? with
          | some v => some { s.setCaller t (.evicting v.2 a) with pool := s.pool.dropLast, lock := some t }
          | none => none
        else some ((s.setCaller t .idle).push t a)
    | _, _ => none
  | .evicted t => match s.callers t with
    | .evicting v a => match s.clients[v]? with
      | some (_, .done) => some { (s.setCaller t .idle).push t a with lock := none }
      | _ => none
    | _ => none
  | .clientEnds c => match s.clients[c]? with
    | some (a, .live) => some { s with clients := s.clients.set c (a, .removing) }
    | _ => none
  | .clientRemoves c => match s.clients[c]?, s.lock with
    | some (a, .removing), none =>
      some { s with clients := s.clients.set c (a, .finishing), pool := s.pool.filter (fun q => q.1 ≠ a), log := s.log ++ [.dropped c] }
    | _, _ => none
  | .clientDone c => match s.clients[c]? with
    | some (a, .finishing) => some { s with clients := s.clients.set c (a, .done) }
    | _ => none
  | .slice => match s.lock with
    | none => some { s with log := s.log ++ [.listed (s.pool.map Prod.snd)] }
    | some _ => none
  | .release => match s.lock with
    | none => some { s with pool := [], log := s.log ++ [.released] }
    | some _ => none

/-- Not in the code: the states that any finite schedule can lead to, for the theorems. -/
def Reach (max : Nat) (s : State) : Prop := ReachFrom step (State.new max) s

end Noise.PoolLock
