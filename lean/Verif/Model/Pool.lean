import Verif.Model.Basic
/-!
# map.go:9-96: the connection pool

One `clientMap` as a value; every method is one critical section of its mutex (what happens *while* `get` waits for an evicted client with the mutex held is in
`Model/PoolLock.lean`). Addresses are of any type `α` with decidable equality (strings in the code); clients are numbered in the order of creation.

`container/list`: the list is a Lean list of elements, front first; an element is its identity (a number) and its value. `map[string]clientMapEntry`: an
association list, newest binding first.
-/
namespace Noise.Pool
variable {α : Type} [DecidableEq α]

/-- map.go:10-13 `clientMapEntry`; `el` is the pointer to the list element. -/
structure Entry where
  el : Nat
  client : Nat

/-- map.go:15-21 `clientMap`, with the allocation counters. -/
structure ClientMap (α : Type) where
  order : List (Nat × α)
  entries : List (α × Entry)
  nextEl : Nat
  nextClient : Nat

/-- map.go:23-29 `newClientMap` (the capacity is only a size hint for the allocation). -/
def ClientMap.new : ClientMap α := ⟨[], [], 0, 0⟩

/-- Reading a map. map.go:35, 63. -/
def lookup (m : List (α × Entry)) (a : α) : Option Entry := (m.find? (fun p => p.1 = a)).map Prod.snd
/-- `delete(m, a)`. map.go:42, 69. -/
def erase (m : List (α × Entry)) (a : α) : List (α × Entry) := m.filter (fun p => p.1 ≠ a)
/-- `m[a] = e`. map.go:51. -/
def insert (m : List (α × Entry)) (a : α) (e : Entry) : List (α × Entry) := (a, e) :: erase m a

/-- `list.Remove(el)`. map.go:39, 68. -/
def removeEl (l : List (Nat × α)) (el : Nat) : List (Nat × α) := l.filter (fun p => p.1 ≠ el)
/-- `list.MoveToFront(el)`. map.go:53. -/
def moveToFront (l : List (Nat × α)) (el : Nat) : List (Nat × α) :=
  match l.find? (fun p => p.1 = el) with
  | some p => p :: removeEl l el
  | none => l

/-- What `get` did. map.go:31-57. -/
structure GetRes where
  client : Nat
  existed : Bool
  /-- the client that was closed and waited for -/
  evicted : Option Nat
  deriving DecidableEq

/-- map.go:36-44: the eviction, if the map has exactly `max` entries; `none` is a nil dereference (`order.Back()` of an empty list, or an entry missing in the map). -/
def ClientMap.evict (c : ClientMap α) (max : Nat) : Option (ClientMap α × Option Nat) :=
  if c.entries.length = max then
    match c.order.getLast? with
    | none => none
    | some (el, a) => match lookup c.entries a with
      | none => none
      | some e => some ({ c with order := removeEl c.order el, entries := erase c.entries a }, some e.client)
  else some (c, none)

/-- map.go:31-54 `get`. `max` is `n.maxInboundConnections` (for both pools). `none` is a panic. -/
def ClientMap.get (c : ClientMap α) (max : Nat) (a : α) : Option (ClientMap α × GetRes) :=
  match lookup c.entries a with
  | some e => some ({ c with order := moveToFront c.order e.el }, ⟨e.client, true, none⟩)
  | none => match c.evict max with
    | none => none
    | some (c, ev) =>
      some ({ order := (c.nextEl, a) :: c.order, entries := insert c.entries a ⟨c.nextEl, c.nextClient⟩,
              nextEl := c.nextEl + 1, nextClient := c.nextClient + 1 }, ⟨c.nextClient, false, ev⟩)

/-- map.go:56-68 `remove`. -/
def ClientMap.remove (c : ClientMap α) (a : α) : ClientMap α :=
  match lookup c.entries a with
  | none => c
  | some e => { c with order := removeEl c.order e.el, entries := erase c.entries a }

/-- map.go:70-83 `release`, up to the closing of the clients that were in it (which happens outside the mutex). -/
def ClientMap.release (c : ClientMap α) : ClientMap α := { c with order := [], entries := [] }

/-- map.go:85-95 `slice`; `none` is a nil dereference. -/
def ClientMap.slice (c : ClientMap α) : Option (List Nat) := c.order.mapM (fun p => (lookup c.entries p.2).map (·.client))

/-- The operations on a pool. map.go:31-85. -/
inductive Op (α : Type) where
  | get (a : α)
  | remove (a : α)
  | release

/-- One operation; `none` is a panic. map.go:31-85. -/
def ClientMap.apply (max : Nat) (c : ClientMap α) : Op α → Option (ClientMap α × Option GetRes)
  | .get a => (c.get max a).map fun r => (r.1, some r.2)
  | .remove a => some (c.remove a, none)
  | .release => some (c.release, none)

/-- A history of operations, with the results of the gets. map.go:31-85. -/
def ClientMap.history (max : Nat) (c : ClientMap α) : List (Op α) → Option (ClientMap α × List GetRes)
  | [] => some (c, [])
  | op :: ops => match c.apply max op with
    | none => none
    | some (c, r) => (ClientMap.history max c ops).map fun q => (q.1, r.toList ++ q.2)

/-- node.go:37-38: the two configured limits. -/
structure Limits where
  maxInbound : Nat
  maxOutbound : Nat

/-- node.go:47-48: the two pools of a node. -/
inductive Which where
  | inbound
  | outbound
  deriving DecidableEq

/-- map.go:37: the bound that `get` applies is `n.maxInboundConnections`, in whichever pool. -/
def Limits.applied (l : Limits) : Which → Nat
  | .inbound => l.maxInbound
  | .outbound => l.maxInbound

/-- node.go:96-97, node.go:228 and node.go:394: a pool of the node after a history of operations on it. -/
def Limits.pool (l : Limits) (w : Which) (ops : List (Op α)) : Option (ClientMap α × List GetRes) := ClientMap.new.history (l.applied w) ops

end Noise.Pool
