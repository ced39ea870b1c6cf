import Verif.Spec.Search
/-! # Specification vocabulary: executions of a node that are fair to its calls -/
namespace Noise.Spec
variable {ε : Type}

/-- An execution of a node in which calls of `Ping`, `Send` and `Request` that can go on do go on, and connections that the node closes come to an end. -/
structure CallsRun (cfg : Node.Cfg ε) (σ : Nat → Node.State ε) (α : Nat → Option (Node.Action ε)) : Prop where
  start : Node.Reachable cfg (σ 0)
  exec : Execution (Node.step cfg) σ α
  /-- the goroutines of the calls -/
  call : ∀ q, WeaklyFair σ α (Able (Node.step cfg) (Goes q)) (Goes q)
  /-- a connection whose `close` has begun is closed in the end, and its goroutine ends -/
  closes : ∀ (t j : Nat) (x : Node.Conn ε), (σ t).conns[j]? = some x → x.c.once ≠ .fresh → ∃ (t' : Nat) (x' : Node.Conn ε), t ≤ t' ∧ (σ t').conns[j]? = some x' ∧ x'.c.once = .done ∧ x'.c.clientDone = true
  /-- the process does not crash -/
  alive : ∀ t, (σ t).crashed = false

/-- Every attempt to connect succeeds or fails in the end. -/
def Settles (σ : Nat → Node.State ε) : Prop :=
  ∀ (t j : Nat) (x : Node.Conn ε), (σ t).conns[j]? = some x → ∃ (t' : Nat) (x' : Node.Conn ε), t ≤ t' ∧ (σ t').conns[j]? = some x' ∧ (x'.c.ready = true ∨ x'.c.readerDone = true)

end Noise.Spec
