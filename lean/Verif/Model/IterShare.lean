import Verif.Model.Iterator
/-! # One iterator, several calls of `Find`

kademlia/iterator.go: `NewIterator` is exported, and `Find` may be called more than once on its result. `init` overwrites the fields `results`, `visited` and `buckets`; the goroutines of a call
look the fields up whenever they use them. A call on its own is `Model/Iterator`.
Simplified: `init` (74-88) is one step; a worker looks `it.results` up (177) when the channel takes the id, not when it begins to wait. -/
namespace Noise.Iter.Reuse

/-- kademlia/iterator_options.go and kademlia/iterator.go:39-41: the options of the iterator, and the key of its node. -/
structure Opts where
  self : PublicKey
  /-- `numParallelLookups` -/
  lookups : Nat
  /-- `numParallelRequestsPerLookup` -/
  requests : Nat
  /-- `maxNumResults` -/
  max : Int

/-- kademlia/iterator.go:55: the options and the target of a call. -/
def Opts.cfg (o : Opts) (target : PublicKey) : Cfg := ⟨o.self, target, o.requests, o.max⟩

/-- kademlia/iterator.go:75: a channel of capacity 1. -/
structure Chan where
  buf : List ID
  closed : Bool
  deriving DecidableEq

/-- kademlia/iterator.go:55-106: a call of `Find` with its goroutines. -/
structure Call where
  target : PublicKey
  /-- what `it.table.Peers()` returned in `init` -/
  peers : List ID
  /-- the lookups; their field `bucket` is not used: the buckets are in the iterator -/
  lookups : List Lookup
  /-- history: the requests sent -/
  asked : List (ID × PublicKey)
  /-- history: the requests ended -/
  replies : List Reply
  /-- `iterate` is over -/
  ended : Bool
  /-- the channel over which 61 ranges, once it has looked it up -/
  chan : Option Nat
  /-- `closest` -/
  collected : List ID
  returned : Option (Res (List ID))
  deriving DecidableEq

/-- kademlia/iterator.go:13-29: the iterator, the channels made so far and the calls. -/
structure State where
  chans : List Chan
  /-- `it.results`, as an index of `chans` -/
  results : Nat
  visited : List PublicKey
  buckets : List (List ID)
  calls : List Call
  /-- a goroutine of the iterator panicked: the process is gone -/
  crashed : Bool
  deriving DecidableEq

/-- kademlia/iterator.go:33-51. Before the first call the fields are nil; nobody looks. -/
def State.new : State := ⟨[], 0, [], [], [], false⟩

/-- kademlia/iterator.go:55-180: the steps of the goroutines. -/
inductive Action where
  /-- 55-59: `Find` is called and executes `init`; `peers` is what `it.table.Peers()` returns -/
  | find (target : PublicKey) (peers : List ID)
  /-- 108-180: lookup `i` of call `k` -/
  | lookup (k i : Nat) (a : LAction)
  /-- 103-105 of call `k` -/
  | close (k : Nat)
  /-- 61: call `k` looks up `it.results` -/
  | range (k : Nat)
  /-- 61-63 of call `k` -/
  | collect (k : Nat)
  /-- 65-71 of call `k` -/
  | finish (k : Nat)

/-- kademlia/iterator.go:177: this step is a worker's send to `it.results`. -/
def sends (l : Lookup) : LAction → Bool
  | .worker j => match l.workers[j]? with
    | some (.result _ _) => true
    | _ => false
  | _ => false

/-- kademlia/iterator.go:75-82: `init` overwrites the fields; the call `c` begins. -/
def State.start (s : State) (visited : List PublicKey) (buckets : List (List ID)) (c : Call) : State :=
  { s with chans := s.chans ++ [⟨[], false⟩], results := s.chans.length, visited := visited, buckets := buckets, calls := s.calls ++ [c] }

/-- kademlia/iterator.go:55-180: one atomic step; `none`: not enabled. To send on a closed channel and to close it again are panics. -/
def step (S : Sorter) (o : Opts) (s : State) (a : Action) : Option State :=
  if s.crashed then none else
  match a with
  | .find target peers =>
    match init (o.cfg target) o.lookups peers with
    | .ok t => some (s.start t.shared.visited (t.lookups.map Lookup.bucket) ⟨target, peers, t.lookups, [], [], false, none, [], none⟩)
    | _ => some (s.start (peers.map ID.id ++ [o.self, target]) [] ⟨target, peers, [], [], [], true, none, [], some .panic⟩)
  | .lookup k i a =>
    match s.calls[k]?, s.chans[s.results]? with
    | some c, some ch =>
      match c.lookups[i]?, s.buckets[i]? with
      | some l, some b =>
        match lookupStep (o.cfg c.target) ⟨s.visited, ch.buf, c.asked, c.replies⟩ { l with bucket := b } a with
        | some (sh, l') =>
          if sends l a ∧ ch.closed then some { s with crashed := true }
          else some { s with chans := s.chans.set s.results { ch with buf := sh.chan }, visited := sh.visited, buckets := s.buckets.set i l'.bucket, calls := s.calls.set k { c with lookups := c.lookups.set i l', asked := sh.asked, replies := sh.replies } }
        | none => none
      | _, _ => none
    | _, _ => none
  | .close k =>
    match s.calls[k]?, s.chans[s.results]? with
    | some c, some ch =>
      if c.ended = false ∧ c.lookups.all (·.main = .done) then
        if ch.closed then some { s with crashed := true }
        else some { s with chans := s.chans.set s.results { ch with closed := true }, calls := s.calls.set k { c with ended := true } }
      else none
    | _, _ => none
  | .range k =>
    match s.calls[k]? with
    | some c => if c.chan = none ∧ c.returned = none then some { s with calls := s.calls.set k { c with chan := some s.results } } else none
    | none => none
  | .collect k =>
    match s.calls[k]? with
    | some c =>
      match c.chan with
      | some n =>
        match s.chans[n]? with
        | some ch =>
          match ch.buf with
          | id :: rest => some { s with chans := s.chans.set n { ch with buf := rest }, calls := s.calls.set k { c with collected := c.collected ++ [id] } }
          | [] => none
        | none => none
      | none => none
    | none => none
  | .finish k =>
    match s.calls[k]? with
    | some c =>
      match c.chan with
      | some n =>
        match s.chans[n]? with
        | some ch =>
          if ch.closed ∧ ch.buf = [] ∧ c.returned = none then
            some { s with calls := s.calls.set k { c with returned := some (truncate o.max (sortByDistance S c.target c.collected)) } }
          else none
        | none => none
      | none => none
    | none => none

end Noise.Iter.Reuse
