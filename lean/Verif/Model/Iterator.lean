import Verif.Model.Table
import Verif.Model.TS
/-! # kademlia/iterator.go

`Find` as a transition system: the goroutine that called it, the goroutine of `iterate`, one goroutine per lookup and `numParallelRequestsPerLookup` workers per lookup.
Not modelled: negative values of the options (`make` panics), the logger, and time: a request ends at any moment, with any outcome. -/
namespace Noise.Iter

/-- kademlia/iterator_options.go and kademlia/iterator.go:39-41: the options that matter for `Find`, the key of the node and the target. -/
structure Cfg where
  self : PublicKey
  target : PublicKey
  /-- `numParallelRequestsPerLookup` -/
  requests : Nat
  /-- `maxNumResults` -/
  max : Int

/-- Where a worker (kademlia/iterator.go:155-180) is. -/
inductive Worker where
  /-- 156: waiting for an id -/
  | idle
  /-- 165: waiting for the answer of this peer -/
  | request (id : ID)
  /-- 177: about to send the id to `it.results` -/
  | result (id : ID) (res : List ID)
  /-- 167, 173, 179: about to send the answer to the lookup -/
  | out (res : List ID)
  | exited
  deriving DecidableEq

/-- Where the goroutine of a lookup (kademlia/iterator.go:123-152) is. -/
inductive Main where
  /-- 124 -/
  | fill
  /-- 136 -/
  | recv
  /-- 138: has received this answer -/
  | merge (ids : List ID)
  /-- 150 -/
  | closing
  /-- 151: the queue is closed -/
  | waiting
  | done
  deriving DecidableEq

/-- The state of `processLookupBucket(i)`. kademlia/iterator.go:108-153. -/
structure Lookup where
  bucket : List ID
  /-- channel of capacity `numParallelRequestsPerLookup` -/
  queue : List ID
  /-- channel of capacity `numParallelRequestsPerLookup` -/
  results : List (List ID)
  pending : Nat
  workers : List Worker
  main : Main
  deriving DecidableEq

/-- A request that has ended: the identity that was asked for it, the key of whoever was connected at its address, and the answer (`none`: an error, a timeout or another
message). Only for the statements of theorems; the code does not look at `who`. kademlia/iterator.go:165-175. -/
structure Reply where
  peer : ID
  who : PublicKey
  answer : Option (List ID)
  deriving DecidableEq

/-- What the lookups share. kademlia/iterator.go:13-29. -/
structure Shared where
  /-- the keys of the map `visited` -/
  visited : List PublicKey
  /-- the channel `it.results`, capacity 1 -/
  chan : List ID
  /-- history: the requests sent, to whom and for which target -/
  asked : List (ID × PublicKey)
  /-- history: the requests ended -/
  replies : List Reply
  deriving DecidableEq

/-- kademlia/iterator.go:108-180: a step of a lookup or of one of its workers. -/
inductive LAction where
  /-- the next step of the lookup's goroutine -/
  | main
  /-- the next step of worker `j`, which is not waiting for an answer -/
  | worker (j : Nat)
  /-- the request of worker `j` ends -/
  | answer (j : Nat) (who : PublicKey) (r : Option (List ID))

/-- kademlia/iterator.go:139-144: the loop over an answer. -/
def mergeIds : List ID → List PublicKey → List ID → List PublicKey × List ID
  | [], visited, bucket => (visited, bucket)
  | id :: ids, visited, bucket =>
    if id.id ∈ visited then mergeIds ids visited bucket else mergeIds ids (id.id :: visited) (bucket ++ [id])

/-- One step of the goroutine of a lookup. The check and the push of the loop at 124-130 are one step: no one else pushes. The loop at 138-145 is one step: it holds the
lock. kademlia/iterator.go:108-153. -/
def mainStep (c : Cfg) (sh : Shared) (l : Lookup) : Option (Shared × Lookup) :=
  match l.main with
  | .fill =>
    match l.bucket with
    | popped :: rest =>
      if l.queue.length < c.requests then some (sh, { l with bucket := rest, queue := l.queue ++ [popped], pending := l.pending + 1 })
      else some (sh, { l with main := if l.pending = 0 then .closing else .recv })
    | [] => some (sh, { l with main := if l.pending = 0 then .closing else .recv })
  | .recv =>
    match l.results with
    | ids :: rest => some (sh, { l with results := rest, main := .merge ids })
    | [] => none
  | .merge ids =>
    let (visited, bucket) := mergeIds ids sh.visited l.bucket
    some ({ sh with visited := visited }, { l with bucket := bucket, pending := l.pending - 1, main := .fill })
  | .closing => some (sh, { l with main := .waiting })
  | .waiting => if l.workers.all (· = .exited) then some (sh, { l with main := .done }) else none
  | .done => none

/-- kademlia/iterator.go:150: `close(queue)` has been executed. -/
def Lookup.closed (l : Lookup) : Bool := match l.main with
  | .waiting | .done => true
  | _ => false

/-- One step of a worker. kademlia/iterator.go:155-180. -/
def workerStep (c : Cfg) (sh : Shared) (l : Lookup) (j : Nat) : Worker → Option (Shared × Lookup)
  | .idle =>
    match l.queue with
    | id :: rest => some ({ sh with asked := sh.asked ++ [(id, id.id)] }, { l with queue := rest, workers := l.workers.set j (.request id) })
    | [] => if l.closed then some (sh, { l with workers := l.workers.set j .exited }) else none
  | .request _ => none
  | .result id res => if sh.chan.length < 1 then some ({ sh with chan := sh.chan ++ [id] }, { l with workers := l.workers.set j (.out res) }) else none
  | .out res => if l.results.length < c.requests then some (sh, { l with results := l.results ++ [res], workers := l.workers.set j .idle }) else none
  | .exited => none

/-- One step of a lookup. kademlia/iterator.go:108-180. -/
def lookupStep (c : Cfg) (sh : Shared) (l : Lookup) : LAction → Option (Shared × Lookup)
  | .main => mainStep c sh l
  | .worker j =>
    match l.workers[j]? with
    | some w => workerStep c sh l j w
    | none => none
  | .answer j who r =>
    match l.workers[j]? with
    | some (.request id) =>
      some ({ sh with replies := sh.replies ++ [⟨id, who, r⟩] }, { l with workers := l.workers.set j (match r with | some res => .result id res | none => .out []) })
    | _ => none

/-- kademlia/iterator.go:13-29, 55-72: an iterator during a call of `Find`. -/
structure State where
  shared : Shared
  lookups : List Lookup
  /-- `it.results` is closed -/
  closed : Bool
  /-- `closest` of `Find` -/
  collected : List ID
  /-- what `Find` returned -/
  returned : Option (Res (List ID))
  deriving DecidableEq

/-- kademlia/iterator.go:55-180: the steps of the goroutines. -/
inductive Action where
  | lookup (i : Nat) (a : LAction)
  /-- kademlia/iterator.go:103-105 -/
  | close
  /-- kademlia/iterator.go:61-63 -/
  | collect
  /-- kademlia/iterator.go:65-71 -/
  | finish

/-- kademlia/iterator.go:67-71; slicing with a negative bound panics. -/
def truncate (max : Int) (l : List ID) : Res (List ID) :=
  if (l.length : Int) > max then (if max < 0 then .panic else .ok (l.take max.toNat)) else .ok l

/-- kademlia/iterator.go:55-180: one atomic step; `none`: not enabled. -/
def step (S : Sorter) (c : Cfg) (s : State) : Action → Option State
  | .lookup i a =>
    match s.lookups[i]? with
    | some l =>
      match lookupStep c s.shared l a with
      | some (sh, l') => some { s with shared := sh, lookups := s.lookups.set i l' }
      | none => none
    | none => none
  | .close => if s.closed = false ∧ s.lookups.all (·.main = .done) then some { s with closed := true } else none
  | .collect =>
    match s.shared.chan with
    | id :: rest => some { s with shared := { s.shared with chan := rest }, collected := s.collected ++ [id] }
    | [] => none
  | .finish =>
    if s.closed ∧ s.shared.chan = [] ∧ s.returned = none then some { s with returned := some (truncate c.max (sortByDistance S c.target s.collected)) } else none

/-- kademlia/iterator.go:84-87: the initial peers, dealt out to the lookups; `i` is the index of the first one. -/
def deal (n : Nat) : Nat → List ID → List (List ID) → List (List ID)
  | _, [], buckets => buckets
  | i, id :: ids, buckets => deal n (i + 1) ids (buckets.modify (i % n) (· ++ [id]))

/-- kademlia/iterator.go:108-123. -/
def Lookup.new (requests : Nat) (bucket : List ID) : Lookup := ⟨bucket, [], [], 0, List.replicate requests .idle, .fill⟩

/-- kademlia/iterator.go:74-88 `init`, for `n` lookups and the result of `it.table.Peers()`. `i % 0` panics. -/
def init (c : Cfg) (n : Nat) (peers : List ID) : Res State :=
  if n = 0 ∧ peers ≠ [] then .panic
  else .ok ⟨⟨peers.map ID.id ++ [c.self, c.target], [], [], []⟩, (deal n 0 peers (List.replicate n [])).map (Lookup.new c.requests), false, [], none⟩

end Noise.Iter
