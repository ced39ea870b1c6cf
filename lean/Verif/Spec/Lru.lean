import Verif.Model.Pool
/-! # Specification: a bounded list of clients, most recently used first -/
namespace Noise.Spec
open Noise.Pool
variable {α : Type} [DecidableEq α]

/-- The clients in the pool, most recently used first, and the number of clients ever created. -/
structure Lru (α : Type) where
  list : List (α × Nat)
  created : Nat

def Lru.empty : Lru α := ⟨[], 0⟩

/-- Asking for a pooled address moves its client to the front. A new address gets a new client at the front; if there are already `max` clients, the last one
is evicted. Removing an address or releasing the pool drops the client(s). -/
def Lru.apply (max : Nat) (l : Lru α) : Op α → Lru α × Option GetRes
  | .get a => match l.list.find? (fun p => p.1 = a) with
    | some p => (⟨p :: l.list.filter (fun q => q.1 ≠ a), l.created⟩, some ⟨p.2, true, none⟩)
    | none =>
      if l.list.length = max then (⟨(a, l.created) :: l.list.dropLast, l.created + 1⟩, some ⟨l.created, false, l.list.getLast?.map Prod.snd⟩)
      else (⟨(a, l.created) :: l.list, l.created + 1⟩, some ⟨l.created, false, none⟩)
  | .remove a => (⟨l.list.filter (fun q => q.1 ≠ a), l.created⟩, none)
  | .release => (⟨[], l.created⟩, none)

def Lru.history (max : Nat) (l : Lru α) : List (Op α) → Lru α × List GetRes
  | [] => (l, [])
  | op :: ops =>
    let r := l.apply max op
    let q := Lru.history max r.1 ops
    (q.1, r.2.toList ++ q.2)

/-- The distinct addresses of a list of requests, the latest request given first: most recently requested first. -/
def recent : List α → List α
  | [] => []
  | a :: as => a :: (recent as).filter (· ≠ a)

end Noise.Spec
