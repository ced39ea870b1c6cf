import Verif.Model.TS
import Verif.Spec.Linear
/-!
# Objects guarded by a `sync.RWMutex` or a `sync.Mutex`

codec.go:19, kademlia/table.go:12 and map.go:100 embed a mutex that the methods hold while they access the object. Here the methods are programs of single accesses, any number of calls are in
progress, and their steps interleave in every way the mutex permits.

`sync.RWMutex` (Go's `sync/rwmutex.go`): `Lock` waits for other writers, announces itself, and waits for the readers that already hold the mutex; `RLock` waits while a writer has announced itself or
holds it. A `sync.Mutex` is used like an `RWMutex` without readers. Simplified: which of several waiting calls goes on is arbitrary.
-/
namespace Noise.RW
open Noise.Spec (CallEv)

/-- `RLock` or `Lock`. codec.go:19, kademlia/table.go:12, map.go:16, 100. -/
inductive Mode where
  | r
  | w
  deriving DecidableEq

/-- A program that accesses an object `σ` and returns a `ρ`. E.g. kademlia/table.go:36-229. -/
inductive Prog (σ ρ : Type) where
  | ret (r : ρ)
  /-- one access: the object is changed by `upd`, and the program goes on depending on what it was before -/
  | act (upd : σ → σ) (next : σ → Prog σ ρ)
  | lock (m : Mode) (next : Prog σ ρ)
  | unlock (m : Mode) (next : Prog σ ρ)

variable {σ ρ : Type}

/-- Reading. E.g. kademlia/table.go:53. -/
def Prog.get (next : σ → Prog σ ρ) : Prog σ ρ := .act id next

/-- Writing. E.g. kademlia/table.go:67-93. -/
def Prog.set (upd : σ → σ) (next : Prog σ ρ) : Prog σ ρ := .act upd fun _ => next

/-- Not in the code: one program after another. -/
def Prog.bind {τ : Type} : Prog σ ρ → (ρ → Prog σ τ) → Prog σ τ
  | .ret r, f => f r
  | .act u n, f => .act u fun s => (n s).bind f
  | .lock m p, f => .lock m (p.bind f)
  | .unlock m p, f => .unlock m (p.bind f)

/-- `Lock` or `RLock`, `defer Unlock` or `RUnlock`. E.g. kademlia/table.go:42-43, codec.go:34-35. -/
def Prog.guarded (m : Mode) (body : Prog σ ρ) : Prog σ ρ := .lock m (body.bind fun r => .unlock m (.ret r))

/-- Executed without interruption. Not in the code. -/
def Prog.run : Prog σ ρ → σ → σ × ρ
  | .ret r, s => (s, r)
  | .act u n, s => (n s).run (u s)
  | .lock _ p, s => p.run s
  | .unlock _ p, s => p.run s

/-- The accesses between `Lock` and `Unlock`: the mutex is not touched; under `RLock` nothing is written. E.g. kademlia/table.go:67-93. -/
inductive Prog.Body (m : Mode) : Prog σ ρ → Prop
  | ret (r : ρ) : Body m (.ret r)
  | act {u : σ → σ} {n : σ → Prog σ ρ} : (m = .r → ∀ s, u s = s) → (∀ s, Body m (n s)) → Body m (.act u n)

/-- A call in progress. E.g. kademlia/table.go:67. -/
structure Call (σ ρ : Type) where
  prog : Prog σ ρ
  returned : Bool

/-- Go's `sync.RWMutex` (codec.go:19, kademlia/table.go:12), the object it protects and the calls under way. -/
structure State (σ ρ Op : Type) where
  obj : σ
  /-- who has announced itself as writer, and whether it holds the mutex -/
  writer : Option (Nat × Bool)
  /-- who holds it as reader -/
  readers : List Nat
  calls : List (Call σ ρ)
  log : List (CallEv Op ρ)

variable {Op : Type}

/-- E.g. codec.go:26-31, kademlia/table.go:21-33: no calls yet. -/
def State.new (init : σ) : State σ ρ Op := ⟨init, none, [], [], []⟩

/-- E.g. kademlia/table.go:36-229: a call begins or takes a step. -/
inductive Action (Op : Type) where
  /-- a call begins -/
  | call (op : Op)
  /-- call number `k` takes its next step -/
  | go (k : Nat)

/-- Not in the code: what call `k` has left to do. -/
def State.setProg (s : State σ ρ Op) (k : Nat) (p : Prog σ ρ) : State σ ρ Op := { s with calls := s.calls.set k ⟨p, false⟩ }

/-- The next step of call `k`, which has `p` left to do. Go's `sync.RWMutex`, e.g. kademlia/table.go:42-43. -/
def State.go (s : State σ ρ Op) (k : Nat) : Prog σ ρ → Option (State σ ρ Op)
  | .ret r => some { s with calls := s.calls.set k ⟨.ret r, true⟩, log := s.log ++ [.ret k r] }
  | .act u n => some { s.setProg k (n s.obj) with obj := u s.obj }
  | .lock .r p => if s.writer = none then some { s.setProg k p with readers := k :: s.readers } else none
  | .unlock .r p => some { s.setProg k p with readers := s.readers.erase k }
  | .lock .w p =>
    if s.writer = none then some { s with writer := some (k, false) }
    else if s.writer = some (k, false) ∧ s.readers = [] then some { s.setProg k p with writer := some (k, true) }
    else none
  | .unlock .w p => some { s.setProg k p with writer := none }

/-- `impl` gives the program of each method. E.g. kademlia/table.go:36-229, codec.go:33-102. -/
def step (impl : Op → Prog σ ρ) (s : State σ ρ Op) : Action Op → Option (State σ ρ Op)
  | .call op => some { s with calls := s.calls ++ [⟨impl op, false⟩], log := s.log ++ [.inv s.calls.length op] }
  | .go k => match s.calls[k]? with
    | some ⟨p, false⟩ => s.go k p
    | _ => none

/-- Not in the code: the states that any finite schedule can lead to, for the theorems. -/
abbrev Reachable (impl : Op → Prog σ ρ) (init : σ) (s : State σ ρ Op) : Prop := ReachFrom (step impl) (State.new init) s

end Noise.RW
