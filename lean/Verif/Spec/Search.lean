import Verif.Model.Search
import Verif.Spec.Fair
/-! # Specification vocabulary: executions of a search that are fair -/
namespace Noise.Spec
variable {ε : Type}

/-- What the goroutine in call `q` of `Ping`, `Send` or `Request` does. -/
def Goes (q : Nat) (a : Node.Action ε) : Prop := a = .callStep q ∨ (∃ b, a = .select q b) ∨ a = .take q ∨ a = .cancel q

/-- What worker `j` of lookup `i` does outside of its calls of `RequestMessage`. -/
def Works (i j : Nat) (a : Search.Action ε) : Prop := a = .it (.lookup i (.worker j)) ∨ a = .ask i j ∨ ∃ who, a = .reply i j who

/-- An execution of a search in which goroutines that can go on do go on, the timeouts of the requests pass, and connections that the node closes come to an end. -/
structure Runs (S : Sorter) (c : Search.Cfg ε) (σ : Nat → Search.State ε) (α : Nat → Option (Search.Action ε)) : Prop where
  exec : Execution (Search.step S c) σ α
  /-- the goroutines of the search -/
  search : ∀ a : Iter.Action, (∀ i j, a ≠ .lookup i (.worker j)) → WeaklyFair σ α (Able (Search.step S c) (· = .it a)) (· = .it a)
  worker : ∀ i j, WeaklyFair σ α (Able (Search.step S c) (Works i j)) (Works i j)
  /-- the calls -/
  call : ∀ q, WeaklyFair σ α (Able (Search.step S c) fun a => ∃ b, a = .node b ∧ Goes q b) (fun a => ∃ b, a = .node b ∧ Goes q b)
  /-- the contexts of the requests of the search have a timeout -/
  timeout : ∀ t, ∀ a ∈ (σ t).asks, ∃ t' d, t ≤ t' ∧ (σ t').node.calls[a.call]? = some d ∧ d.ended = true
  /-- a connection whose `close` has begun is closed in the end, and its goroutine ends -/
  closes : ∀ (t j : Nat) (x : Node.Conn ε), (σ t).node.conns[j]? = some x → x.c.once ≠ .fresh → ∃ (t' : Nat) (x' : Node.Conn ε), t ≤ t' ∧ (σ t').node.conns[j]? = some x' ∧ x'.c.once = .done ∧ x'.c.clientDone = true
  /-- the process does not crash -/
  alive : ∀ t, (σ t).node.crashed = false

end Noise.Spec
