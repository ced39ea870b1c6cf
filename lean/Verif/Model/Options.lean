import Verif.Model.Iterator
/-!
# kademlia/iterator_options.go, kademlia/protocol_options.go, gossip/events.go and the constructors

Loggers are identified by numbers; `none` is nil. The callbacks of an event listener are an unspecified type `ε`, with `none` for no listener. Durations are in nanoseconds, `int` and `time.Duration` are integers (nothing here can overflow).
-/
namespace Noise.Opt

/-- kademlia/iterator_options.go:8-49: one `IteratorOption` per constructor, with its argument. -/
inductive IterOption where
  /-- kademlia/iterator_options.go:14-18 `WithIteratorLogger` -/
  | logger (l : Option Nat)
  /-- kademlia/iterator_options.go:22-26 `WithIteratorMaxNumResults` -/
  | maxNumResults (n : Int)
  /-- kademlia/iterator_options.go:30-34 `WithIteratorNumParallelLookups` -/
  | numParallelLookups (n : Int)
  /-- kademlia/iterator_options.go:38-42 `WithIteratorNumParallelRequestsPerLookup` -/
  | numParallelRequestsPerLookup (n : Int)
  /-- kademlia/iterator_options.go:46-50 `WithIteratorLookupTimeout` -/
  | lookupTimeout (d : Int)

/-- kademlia/iterator.go:13-29: the settings of an iterator. -/
structure Iterator where
  logger : Option Nat
  maxNumResults : Int
  numParallelLookups : Int
  numParallelRequestsPerLookup : Int
  lookupTimeout : Int
  deriving DecidableEq

/-- The effect of an option. kademlia/iterator_options.go:14-50. -/
def IterOption.apply (it : Iterator) : IterOption → Iterator
  | .logger l => { it with logger := l }
  | .maxNumResults n => { it with maxNumResults := n }
  | .numParallelLookups n => { it with numParallelLookups := n }
  | .numParallelRequestsPerLookup n => { it with numParallelRequestsPerLookup := n }
  | .lookupTimeout d => { it with lookupTimeout := d }

/-- kademlia/iterator.go:33-51 `NewIterator`, for a node with this logger. -/
def newIterator (nodeLogger : Nat) (opts : List IterOption) : Iterator :=
  opts.foldl IterOption.apply ⟨some nodeLogger, 16, 3, 8, 3 * 1000000000⟩

/-- kademlia/protocol_options.go:9-33 `ProtocolOption`. -/
inductive ProtocolOption (ε : Type) where
  /-- kademlia/protocol_options.go:12-16 `WithProtocolEvents` -/
  | events (e : ε)
  /-- kademlia/protocol_options.go:20-24 `WithProtocolLogger` -/
  | logger (l : Option Nat)
  /-- kademlia/protocol_options.go:29-33 `WithProtocolPingTimeout` -/
  | pingTimeout (d : Int)

/-- kademlia/protocol.go:23-31: the settings of a kademlia protocol, and the ID of the node whose table it has (`none`: not bound). -/
structure Protocol (ε : Type) where
  logger : Option Nat
  events : Option ε
  pingTimeout : Int
  table : Option ID

/-- The effect of an option. kademlia/protocol_options.go:12-33. -/
def ProtocolOption.apply {ε : Type} (p : Protocol ε) : ProtocolOption ε → Protocol ε
  | .events e => { p with events := some e }
  | .logger l => { p with logger := l }
  | .pingTimeout d => { p with pingTimeout := d }

/-- kademlia/protocol.go:34-44 `New`. -/
def newProtocol {ε : Type} (opts : List (ProtocolOption ε)) : Protocol ε := opts.foldl ProtocolOption.apply ⟨none, none, 3 * 1000000000, none⟩

/-- kademlia/protocol.go:168-184 `Bind`, to a node with this ID and logger (the messages and the handler are in `Model/Register.lean`). -/
def Protocol.bind {ε : Type} (p : Protocol ε) (self : ID) (nodeLogger : Nat) : Protocol ε :=
  { p with table := some self, logger := match p.logger with
    | none => some nodeLogger
    | some l => some l }

/-- gossip/protocol.go:14-22 and gossip/events.go:14-20: a gossip protocol over the overlay `overlay`. -/
structure Gossip (ο ε : Type) where
  overlay : ο
  events : Option ε
  /-- size of the cache, in bytes -/
  cache : Nat

/-- gossip/events.go:14-20: the only `Option`, `WithEvents`. -/
inductive GossipOption (ε : Type) where
  | events (e : ε)

/-- gossip/events.go:16-20. -/
def GossipOption.apply {ο ε : Type} (p : Gossip ο ε) : GossipOption ε → Gossip ο ε
  | .events e => { p with events := some e }

/-- gossip/protocol.go:25-36 `New`. -/
def newGossip {ο ε : Type} (overlay : ο) (opts : List (GossipOption ε)) : Gossip ο ε := opts.foldl GossipOption.apply ⟨overlay, none, 32 * 2 ^ 20⟩

/-- kademlia/iterator.go:74-123: `Find` up to the point where its goroutines run; `peers` is what `it.table.Peers()` returns. `make` of a slice (82) and of a channel (109-110) panic for a negative size, the latter in a goroutine of each lookup,
which ends the process as well; so does `i % 0` (86). Simplified: sizes too large for the memory, for which `make` panics too, are not modelled. -/
def Iterator.start (it : Iterator) (self target : PublicKey) (peers : List ID) : Res (Iter.Cfg × Iter.State) :=
  if it.numParallelLookups < 0 then .panic
  else
    let c : Iter.Cfg := ⟨self, target, it.numParallelRequestsPerLookup.toNat, it.maxNumResults⟩
    match Iter.init c it.numParallelLookups.toNat peers with
    | .ok s => if 0 < it.numParallelLookups ∧ it.numParallelRequestsPerLookup < 0 then .panic else .ok (c, s)
    | .err e => .err e
    | .panic => .panic

end Noise.Opt
