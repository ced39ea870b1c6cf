import Verif.Model.TS
/-!
# Happens-before and data races

What the Go memory model (https://go.dev/ref/mem) says about the synchronisation that noise uses: mutexes, read-write mutexes, channels that are closed, the `go` statement and `sync.Once`. Nothing here refers to noise;
`V`, `M`, `C` are the names of variables, mutexes and channels.
-/
namespace Noise.Spec

/-- An operation of a goroutine. -/
inductive Op (V M C : Type) where
  | rd (v : V)
  | wr (v : V)
  | lock (m : M)
  | unlock (m : M)
  | rlock (m : M)
  | runlock (m : M)
  | close (c : C)
  /-- a receive from a closed channel -/
  | recv (c : C)
  /-- the `go` statement that starts goroutine `t` -/
  | go (t : Nat)
  /-- `Once.Do`: this call executes the function -/
  | onceEnter
  /-- the function has returned -/
  | onceExit
  /-- `Once.Do` returns; another call has executed the function -/
  | onceWait
  deriving DecidableEq

variable {V M C : Type}

structure Ev (V M C : Type) where
  tid : Nat
  op : Op V M C
  deriving DecidableEq

/-- An execution: the operations in the order in which they take effect. -/
abbrev Trace (V M C : Type) := List (Ev V M C)

/-- One event is ordered before another by the program or by synchronisation. -/
inductive Edge (tr : Trace V M C) : Nat → Nat → Prop
  /-- the same goroutine -/
  | po {i j t a b} : tr[i]? = some ⟨t, a⟩ → tr[j]? = some ⟨t, b⟩ → i < j → Edge tr i j
  | unlock_lock {i j t u m} : tr[i]? = some ⟨t, .unlock m⟩ → tr[j]? = some ⟨u, .lock m⟩ → i < j → Edge tr i j
  | unlock_rlock {i j t u m} : tr[i]? = some ⟨t, .unlock m⟩ → tr[j]? = some ⟨u, .rlock m⟩ → i < j → Edge tr i j
  | runlock_lock {i j t u m} : tr[i]? = some ⟨t, .runlock m⟩ → tr[j]? = some ⟨u, .lock m⟩ → i < j → Edge tr i j
  | close_recv {i j t u c} : tr[i]? = some ⟨t, .close c⟩ → tr[j]? = some ⟨u, .recv c⟩ → i < j → Edge tr i j
  | go_start {i j t u b} : tr[i]? = some ⟨t, .go u⟩ → tr[j]? = some ⟨u, b⟩ → i < j → Edge tr i j
  | once {i j t u} : tr[i]? = some ⟨t, .onceExit⟩ → tr[j]? = some ⟨u, .onceWait⟩ → i < j → Edge tr i j

/-- Happens-before: the transitive closure. -/
inductive HB (tr : Trace V M C) : Nat → Nat → Prop
  | edge {i j} : Edge tr i j → HB tr i j
  | trans {i j k} : HB tr i j → HB tr j k → HB tr i k

/-- The operation accesses `v`. -/
def Op.Accesses (v : V) (o : Op V M C) : Prop := o = .rd v ∨ o = .wr v

/-- A data race on `v`: two goroutines access it, at least one of them writes, and nothing orders the two accesses. -/
def Race (tr : Trace V M C) (v : V) : Prop :=
  ∃ i j e f, tr[i]? = some e ∧ tr[j]? = some f ∧ i < j ∧ e.tid ≠ f.tid ∧ e.op.Accesses v ∧ f.op.Accesses v ∧ (e.op = .wr v ∨ f.op = .wr v) ∧ ¬ HB tr i j

end Noise.Spec
