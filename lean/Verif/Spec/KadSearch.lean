import Verif.Spec.KadWire
/-! # Specification vocabulary: searches in a network of nodes with kademlia -/
namespace Noise.Spec
variable {ε : Type}

/-- Search `f` of node `n`, at time `t`. -/
def FindAt (σ : Nat → KWire.State ε) (n f t : Nat) (q : KWire.Find) : Prop := ∃ p, (σ t).parts[n]? = some p ∧ p.finds[f]? = some q

/-- What worker `j` of lookup `i` of search `f` of node `n` does outside of its calls of `RequestMessage`. -/
def WorksAt (n f i j : Nat) (a : KWire.Action ε) : Prop := a = .it n f (.lookup i (.worker j)) ∨ a = .ask n f i j ∨ ∃ who, a = .answer n f i j who

/-- The goroutines of search `f` of node `n` go on when they can. -/
structure Searching (S : Sorter) (c : KWire.Cfg ε) (σ : Nat → KWire.State ε) (α : Nat → Option (KWire.Action ε)) (n f : Nat) : Prop where
  search : ∀ a : Iter.Action, (∀ i j, a ≠ .lookup i (.worker j)) → WeaklyFair σ α (Able (KWire.step S c) (· = .it n f a)) (· = .it n f a)
  worker : ∀ i j, WeaklyFair σ α (Able (KWire.step S c) (WorksAt n f i j)) (WorksAt n f i j)

/-- Call `k` of `Request` at node `n` is one of search `f`. -/
def AskedBy (σ : Nat → KWire.State ε) (n f k : Nat) : Prop := ∃ t q a, FindAt σ n f t q ∧ a ∈ q.asks ∧ a.call = k

/-- The address belongs to a node that can be relied on from node `n`: all connections that node `n` dials there are unbroken, lead to a node with this address, and are used for fewer than 2^64 - 1 requests; that node has workers that run the handler of
kademlia, and no other handler that answers FIND_NODE requests. -/
def Reliable (c : KWire.Cfg ε) (σ : Nat → KWire.State ε) (α : Nat → Option (KWire.Action ε)) (n : Nat) (addr : Text) : Prop :=
  ∀ t j x, (σ t).net.conn ⟨n, j⟩ = some x → x.c.side = .outbound → x.addr = addr → ∃ i : Net.End, (c.id i.node).address = addr ∧ Net.Unbroken (fun t => (σ t).net) (KWire.netActs c σ α) ⟨n, j⟩ i ∧ 0 < (c.node i.node).numWorkers ∧
    c.handler < (c.node i.node).numHandlers ∧ (∀ key, OnlyKademlia c σ i.node (Query.bytes c.ops (.find key))) ∧ ∀ t x, (σ t).net.conn ⟨n, j⟩ = some x → x.c.calls.length < 2 ^ 64 - 1

end Noise.Spec
