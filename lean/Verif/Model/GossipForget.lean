import Verif.Model.GossipNet
/-! # Gossip with a cache that forgets

gossip/protocol.go:27: the cache has 32 MB. When they are used up, fastcache drops old entries to store new ones; which, is not in its contract. Here any entry may be dropped at any moment;
everything else is as in `Model/Gossip` and `Model/GossipNet`. -/
namespace Noise.Gossip

/-- gossip/protocol.go:27: the cache without an entry. -/
def cacheDrop (cache : List Bytes) (key : Bytes) : List Bytes := cache.filter (· ≠ key)

/-- gossip/protocol.go:14-21: one node, and the entries dropped so far. The list of drops is not in the code; it is there for the statements. -/
structure FState where
  st : State
  dropped : List Bytes

/-- gossip/protocol.go:24-35 (`New`). -/
def FState.new : FState := ⟨State.new, []⟩

/-- What can happen at a node: gossip/protocol.go:61-125, or fastcache making room in the cache of gossip/protocol.go:27. -/
inductive FAction where
  /-- a step as in `Model/Gossip` -/
  | act (a : Action)
  /-- the cache drops an entry -/
  | drop (key : Bytes)

/-- gossip/protocol.go:61-125 as in `Model/Gossip`, with drops in between. Simplified: fastcache drops whole chunks of entries; here they go one after the other. -/
def fstep (c : Cfg) (s : FState) : FAction → Option FState
  | .act a => (step c s.st a).map fun t => { s with st := t }
  | .drop key => if key ∈ s.st.cache then some ⟨{ s.st with cache := cacheDrop s.st.cache key }, s.dropped ++ [key]⟩ else none

/-- Nodes that each run gossip/protocol.go: a network as in `Model/GossipNet`, and the entries dropped so far, with the index of the node. gossip/protocol.go:15-21. -/
structure FNet where
  net : Net
  dropped : List (Nat × Bytes)

/-- gossip/protocol.go:24-35 (`New`) at every node. -/
def FNet.new (nodes : List Node) : FNet := ⟨Net.new nodes, []⟩

/-- What can happen in the network: gossip/protocol.go:61-125 at some node, a delivery, or a drop. -/
inductive FNAction where
  /-- a step as in `Model/GossipNet` -/
  | act (a : NAction)
  /-- the cache of node `n` drops an entry -/
  | drop (n : Nat) (key : Bytes)

/-- gossip/protocol.go:61-125 in a network, with drops in between. -/
def fnstep (s : FNet) : FNAction → Option FNet
  | .act a => (nstep s.net a).map fun t => { s with net := t }
  | .drop n key =>
    match s.net.nodes[n]? with
    | some x =>
      if key ∈ x.st.cache then
        some ⟨{ s.net with nodes := s.net.nodes.set n { x with st := { x.st with cache := cacheDrop x.st.cache key } } }, s.dropped ++ [(n, key)]⟩
      else none
    | none => none

end Noise.Gossip
