import Verif.Model.Iterator
import Verif.Model.Node
import Verif.Model.KadMsg
/-!
# A search on a whole node

Composition of `Model/Iterator.lean` (kademlia/iterator.go) with `Model/Node.lean`: the requests of the workers of a search are calls of `Request` of the node that the iterator belongs to (kademlia/iterator.go:165, node.go:276-305,
342-354), among any other calls. A worker goes on when its call has returned.

Simplified: the codec of the node has given fixed opcodes to the two messages (`Model/Codec.lean`, `Model/KadBind.lean`).
-/
namespace Noise.Search
variable {ε : Type}

/-- node.go:29-43, kademlia/iterator_options.go and the opcodes of `FindNodeRequest` and `FindNodeResponse` (kademlia/protocol.go:177-178). -/
structure Cfg (ε : Type) where
  node : Node.Cfg ε
  it : Iter.Cfg
  reqOp : UInt16
  resOp : UInt16

/-- Worker `worker` of lookup `lookup` is in call `call` of `RequestMessage`. kademlia/iterator.go:165. -/
structure Ask where
  lookup : Nat
  worker : Nat
  call : Nat
  deriving DecidableEq

/-- kademlia/iterator.go:13-29, node.go:24-58: a node on which a search runs. -/
structure State (ε : Type) where
  node : Node.State ε
  it : Iter.State
  asks : List Ask

/-- node.go:276-294, codec.go:58-77, kademlia/msg.go:35-37: what `RequestMessage(FindNodeRequest{target})` passes to `Request`. -/
def encode (op : UInt16) (target : PublicKey) : Bytes := put16 op ++ marshalFindNodeRequest target

/-- node.go:299-303, codec.go:79-102, kademlia/iterator.go:171-175: the peers in a response; `none`: an error, or a message of another type. -/
def decode (op : UInt16) (data : Bytes) : Option (List ID) :=
  if data.take 2 = put16 op then match unmarshalFindNodeResponse (data.drop 2) with
    | .ok l => some l
    | _ => none
  else none

/-- kademlia/iterator.go:165-175: what a worker makes of the result of its call. -/
def outcome (op : UInt16) : Node.Result → Option (List ID)
  | .response m => decode op m.data
  | _ => none

/-- kademlia/iterator.go:55-180, node.go:109-441: the steps. -/
inductive Action (ε : Type) where
  /-- anything in the node or its environment, including other calls -/
  | node (a : Node.Action ε)
  /-- a step of the search, other than the following -/
  | it (a : Iter.Action)
  /-- kademlia/iterator.go:156-165: worker `j` of lookup `i` takes a peer from the queue and calls `RequestMessage` -/
  | ask (i j : Nat)
  /-- kademlia/iterator.go:165-179: the call of worker `j` of lookup `i` has returned; `who` is for the history only -/
  | reply (i j : Nat) (who : PublicKey)

/-- kademlia/iterator.go:156-165: whom a worker asks next. -/
def next (s : Iter.State) (i j : Nat) : Option ID := match s.lookups[i]? with
  | some l => match l.workers[j]?, l.queue with
    | some .idle, id :: _ => some id
    | _, _ => none
  | none => none

/-- kademlia/iterator.go:55-180, node.go:109-441: one atomic step; `none`: not enabled. A process that has crashed does nothing any more. -/
def step (S : Sorter) (c : Cfg ε) (s : State ε) (a : Action ε) : Option (State ε) := if s.node.crashed then none else match a with
  | .node a => (Node.step c.node s.node a).map fun x => { s with node := x }
  | .it a => match a with
    | .lookup _ (.answer _ _ _) => none
    | .lookup i (.worker j) => if (next s.it i j).isSome then none else (Iter.step S c.it s.it a).map fun x => { s with it := x }
    | a => (Iter.step S c.it s.it a).map fun x => { s with it := x }
  | .ask i j => match next s.it i j with
    | some id => match Iter.step S c.it s.it (.lookup i (.worker j)), Node.step c.node s.node (.call (.request (encode c.reqOp id.id)) id.address) with
      | some x, some y => some ⟨y, x, s.asks ++ [⟨i, j, s.node.calls.length⟩]⟩
      | _, _ => none
    | none => none
  | .reply i j who => match s.asks.find? (fun a => a.lookup = i ∧ a.worker = j) with
    | some a => match s.node.calls[a.call]? with
      | some k => match k.pc with
        | .returned r => (Iter.step S c.it s.it (.lookup i (.answer j who (outcome c.resOp r)))).map fun x => { s with it := x, asks := s.asks.filter (fun b => ¬ (b.lookup = i ∧ b.worker = j)) }
        | _ => none
      | none => none
    | none => none

end Noise.Search
