import Verif.Model.TS
/-!
# Happens-before with atomics, buffered channels and wait groups

What the Go memory model (https://go.dev/ref/mem) says about the synchronisation that a node uses: atomic variables, channels, the `go` statement and `sync.WaitGroup`. (`Spec/Memory.lean` does it for the synchronisation that a
connection uses.) Nothing here refers to noise; `V`, `A`, `C` are the names of variables, atomic variables and channels.
-/
namespace Noise.Spec.Sync

/-- An operation of a goroutine. -/
inductive Op (V A C : Type) where
  | rd (v : V)
  | wr (v : V)
  /-- an atomic load that reads `x`, or a compare-and-swap that fails because the value is `x` -/
  | load (a : A) (x : Bool)
  | store (a : A) (x : Bool)
  /-- a compare-and-swap that succeeds -/
  | cas (a : A) (old new : Bool)
  | send (c : C)
  /-- a receive of a value that was sent -/
  | take (c : C)
  | close (c : C)
  /-- a receive that finds the channel closed and drained -/
  | recv (c : C)
  /-- the `go` statement that starts goroutine `t` -/
  | go (t : Nat)
  /-- `Done` and `Wait` of the wait group -/
  | done
  | wait
  deriving DecidableEq

variable {V A C : Type}

structure Ev (V A C : Type) where
  tid : Nat
  op : Op V A C
  deriving DecidableEq

/-- An execution: the operations in the order in which they take effect. -/
abbrev Trace (V A C : Type) := List (Ev V A C)

/-- The operation sets the atomic variable `a`. -/
def Op.Sets (a : A) (o : Op V A C) : Prop := (∃ x, o = .store a x) ∨ ∃ x y, o = .cas a x y

/-- The operation observes the value of `a`. -/
def Op.Observes (a : A) (o : Op V A C) : Prop := (∃ x, o = .load a x) ∨ ∃ x y, o = .cas a x y

variable [DecidableEq V] [DecidableEq A] [DecidableEq C]

/-- How many times an operation has occurred before event `i`. -/
def before (tr : Trace V A C) (i : Nat) (o : Op V A C) : Nat := (tr.take i).countP fun e => e.op = o

/-- One event is ordered before another by the program or by synchronisation; `cap` are the capacities of the channels. -/
inductive Edge (cap : C → Nat) (tr : Trace V A C) : Nat → Nat → Prop
  /-- the same goroutine -/
  | po {i j t a b} : tr[i]? = some ⟨t, a⟩ → tr[j]? = some ⟨t, b⟩ → i < j → Edge cap tr i j
  | go_start {i j t u b} : tr[i]? = some ⟨t, .go u⟩ → tr[j]? = some ⟨u, b⟩ → i < j → Edge cap tr i j
  /-- the second operation observes what the first one has set -/
  | atomic {i j t u o p a} : tr[i]? = some ⟨t, o⟩ → tr[j]? = some ⟨u, p⟩ → i < j → o.Sets a → p.Observes a → (∀ k w q, i < k → k < j → tr[k]? = some ⟨w, q⟩ → ¬ q.Sets a) → Edge cap tr i j
  /-- a send happens before the receive of what was sent -/
  | send_take {i j t u c} : tr[i]? = some ⟨t, .send c⟩ → tr[j]? = some ⟨u, .take c⟩ → i < j → before tr i (.send c) = before tr j (.take c) → Edge cap tr i j
  /-- a receive happens before the send that needs its place in the buffer -/
  | take_send {i j t u c} : tr[i]? = some ⟨t, .take c⟩ → tr[j]? = some ⟨u, .send c⟩ → i < j → before tr i (.take c) + cap c = before tr j (.send c) → Edge cap tr i j
  | close_recv {i j t u c} : tr[i]? = some ⟨t, .close c⟩ → tr[j]? = some ⟨u, .recv c⟩ → i < j → Edge cap tr i j
  | done_wait {i j t u} : tr[i]? = some ⟨t, .done⟩ → tr[j]? = some ⟨u, .wait⟩ → i < j → Edge cap tr i j

/-- Happens-before: the transitive closure. -/
inductive HB (cap : C → Nat) (tr : Trace V A C) : Nat → Nat → Prop
  | edge {i j} : Edge cap tr i j → HB cap tr i j
  | trans {i j k} : HB cap tr i j → HB cap tr j k → HB cap tr i k

/-- The operation accesses `v`. -/
def Op.Accesses (v : V) (o : Op V A C) : Prop := o = .rd v ∨ o = .wr v

/-- A data race on `v`: two goroutines access it, at least one of them writes, and nothing orders the two accesses. -/
def Race (cap : C → Nat) (tr : Trace V A C) (v : V) : Prop :=
  ∃ i j e f, tr[i]? = some e ∧ tr[j]? = some f ∧ i < j ∧ e.tid ≠ f.tid ∧ e.op.Accesses v ∧ f.op.Accesses v ∧ (e.op = .wr v ∨ f.op = .wr v) ∧ ¬ HB cap tr i j

end Noise.Spec.Sync
