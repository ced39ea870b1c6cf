import Verif.Model.Ident
import Verif.Model.TS
/-! # gossip/protocol.go

Not modelled: the eviction of old cache entries when the 32 MB of fastcache are full (gossip/protocol.go:27); statements are about executions in which entries are kept. Modelled,
from the contract of the library (its source is not in /repo): `Set` silently ignores entries whose key, value (here empty) and header of 4 bytes do not fit
its chunks of 64 KB, that is keys of 65532 bytes or more; `Has` compares whole keys. -/
namespace Noise.Gossip

/-- gossip/protocol.go:127-129 `hash`. -/
def hash (k : PublicKey) (data : Bytes) : Bytes := k.1 ++ data

/-- `fastcache.Cache.Set` with an empty value. gossip/protocol.go:62, 83, 106, 114. -/
def cacheSet (cache : List Bytes) (key : Bytes) : List Bytes := if key.length < 65532 then key :: cache else cache

/-- `fastcache.Cache.Has`. gossip/protocol.go:75, 110. -/
def cacheHas (cache : List Bytes) (key : Bytes) : Bool := decide (key ∈ cache)

/-! ## Sequential executions -/

/-- gossip/protocol.go:69-85: the loop over the peers, one goroutine after the other; `ok id`: the send to this peer succeeds. Returns the cache and the peers sent to. -/
def pushLoop (ok : ID → Bool) (data : Bytes) : List ID → List Bytes → List ID → List Bytes × List ID
  | [], cache, sent => (cache, sent)
  | id :: peers, cache, sent =>
    if cacheHas cache (hash id.id data) then pushLoop ok data peers cache sent
    else if ok id then pushLoop ok data peers (cacheSet cache (hash id.id data)) (sent ++ [id])
    else pushLoop ok data peers cache sent

/-- gossip/protocol.go:61-88 `Push`. -/
def push (ok : ID → Bool) (self : PublicKey) (peers : List ID) (data : Bytes) (cache : List Bytes) : List Bytes × List ID :=
  pushLoop ok data peers (cacheSet cache (hash self data)) []

/-- gossip/protocol.go:106-124: `Handle`, for a gossip message that is not a request. Returns the cache, the peers sent to and whether `OnGossipReceived` was called; it returns nil
if `accept`. -/
def handle (ok : ID → Bool) (accept : Bool) (self : PublicKey) (peers : List ID) (sender : PublicKey) (data : Bytes) (cache : List Bytes) : List Bytes × List ID × Bool :=
  let cache := cacheSet cache (hash sender data)
  if cacheHas cache (hash self data) then (cache, [], false)
  else
    let cache := cacheSet cache (hash self data)
    if accept then
      let (cache, sent) := push ok self peers data cache
      (cache, sent, true)
    else (cache, [], true)

/-! ## Concurrent executions on one node -/

/-- Where a call of `Handle` is. gossip/protocol.go:91-125. -/
inductive HPc where
  /-- 106 -/
  | sender
  /-- 110 -/
  | check
  /-- 114 -/
  | mark
  /-- 116-120 -/
  | callback
  /-- 122 -/
  | push
  /-- in `Push`, number `k` -/
  | pushing (k : Nat)
  | done
  deriving DecidableEq

/-- gossip/protocol.go:91-125: a call of `Handle`. -/
structure Handler where
  sender : ID
  data : Bytes
  pc : HPc
  deriving DecidableEq

/-- Where a goroutine of `Push` (gossip/protocol.go:72-84) is. -/
inductive GPc where
  /-- 75 -/
  | check
  /-- 79 -/
  | send
  /-- 83 -/
  | set
  | done
  deriving DecidableEq

/-- gossip/protocol.go:72-84: a goroutine of `Push`. -/
structure Gor where
  peer : ID
  pc : GPc
  deriving DecidableEq

/-- Where a call of `Push` is. gossip/protocol.go:61-88. -/
inductive PPc where
  /-- 62 -/
  | mark
  /-- 64 -/
  | entries
  /-- 87: the goroutines run -/
  | running
  | done
  deriving DecidableEq

/-- gossip/protocol.go:61-88: a call of `Push`. -/
structure Pushing where
  data : Bytes
  pc : PPc
  gors : List Gor
  deriving DecidableEq

/-- gossip/protocol.go:15-21 and the calls under way. -/
structure State where
  cache : List Bytes
  handlers : List Handler
  pushes : List Pushing
  /-- calls of `OnGossipReceived` -/
  delivered : List (ID × Bytes)
  /-- messages sent successfully -/
  sent : List (ID × Bytes)
  deriving DecidableEq

/-- gossip/protocol.go:24-35. -/
def State.new : State := ⟨[], [], [], [], []⟩

/-- Own identity; the number of workers, which bounds the number of handlers that run at the same time (node.go:178-199); a bound on the number of pushes that run at the
same time, not part of the code: it selects the executions a statement is about. -/
structure Cfg where
  self : PublicKey
  workers : Nat
  pushes : Nat

/-- gossip/protocol.go:61-125: the steps of the calls, with the choices of the environment. -/
inductive Action where
  /-- a worker starts to handle a gossip message -/
  | receive (sender : ID) (data : Bytes)
  | handler (i : Nat)
  /-- `OnGossipReceived` returns -/
  | callback (i : Nat) (accept : Bool)
  /-- the user calls `Push` -/
  | push (data : Bytes)
  /-- the next step of push `k`, if it reads the table then with these entries -/
  | pushing (k : Nat) (entries : List ID)
  | gor (k j : Nat)
  /-- `SendMessage` of a goroutine returns -/
  | sent (k j : Nat) (ok : Bool)

/-- node.go:185-195: the workers that are in `Handle`. -/
def running (l : List Handler) : Nat := l.countP fun h => decide (h.pc ≠ .done)
/-- gossip/protocol.go:61-88: the calls of `Push` under way. -/
def runningPushes (l : List Pushing) : Nat := l.countP fun p => decide (p.pc ≠ .done)

/-- Not in the code: replaces a call of `Handle`. -/
def State.setH (s : State) (i : Nat) (h : Handler) (pc : HPc) : State := { s with handlers := s.handlers.set i { h with pc := pc } }
/-- Not in the code: replaces a call of `Push`. -/
def State.setP (s : State) (k : Nat) (p : Pushing) : State := { s with pushes := s.pushes.set k p }

/-- One atomic step; calls of the cache are atomic (it locks its buckets). The entries of a table have different keys (C48). gossip/protocol.go:61-125. -/
def step (c : Cfg) (s : State) : Action → Option State
  | .receive sender data => if running s.handlers < c.workers then some { s with handlers := s.handlers ++ [⟨sender, data, .sender⟩] } else none
  | .handler i =>
    match s.handlers[i]? with
    | none => none
    | some h =>
      match h.pc with
      | .sender => some ({ s with cache := cacheSet s.cache (hash h.sender.id h.data) }.setH i h .check)
      | .check => some (s.setH i h (if cacheHas s.cache (hash c.self h.data) then .done else .mark))
      | .mark => some ({ s with cache := cacheSet s.cache (hash c.self h.data) }.setH i h .callback)
      | .push =>
        if runningPushes s.pushes < c.pushes then some ({ s with pushes := s.pushes ++ [Pushing.mk h.data .mark []] }.setH i h (.pushing s.pushes.length)) else none
      | .pushing k =>
        match s.pushes[k]? with
        | some p => if p.pc = .done then some (s.setH i h .done) else none
        | none => none
      | .callback | .done => none
  | .callback i accept =>
    match s.handlers[i]? with
    | some h => if h.pc = .callback then some ({ s with delivered := s.delivered ++ [(h.sender, h.data)] }.setH i h (if accept then .push else .done)) else none
    | none => none
  | .push data => if runningPushes s.pushes < c.pushes then some { s with pushes := s.pushes ++ [⟨data, .mark, []⟩] } else none
  | .pushing k entries =>
    match s.pushes[k]? with
    | none => none
    | some p =>
      match p.pc with
      | .mark => some ({ s with cache := cacheSet s.cache (hash c.self p.data) }.setP k { p with pc := .entries })
      | .entries => if (entries.map ID.id).Nodup then some (s.setP k { p with pc := .running, gors := entries.map fun e => ⟨e, .check⟩ }) else none
      | .running => if p.gors.all (·.pc = .done) then some (s.setP k { p with pc := .done }) else none
      | .done => none
  | .gor k j =>
    match s.pushes[k]? with
    | none => none
    | some p =>
      match p.gors[j]? with
      | none => none
      | some g =>
        match g.pc with
        | .check => some (s.setP k { p with gors := p.gors.set j { g with pc := if cacheHas s.cache (hash g.peer.id p.data) then .done else .send } })
        | .set => some ({ s with cache := cacheSet s.cache (hash g.peer.id p.data) }.setP k { p with gors := p.gors.set j { g with pc := .done } })
        | .send | .done => none
  | .sent k j ok =>
    match s.pushes[k]? with
    | none => none
    | some p =>
      match p.gors[j]? with
      | none => none
      | some g =>
        if g.pc = .send then
          if ok then some ({ s with sent := s.sent ++ [(g.peer, p.data)] }.setP k { p with gors := p.gors.set j { g with pc := .set } })
          else some (s.setP k { p with gors := p.gors.set j { g with pc := .done } })
        else none

end Noise.Gossip
