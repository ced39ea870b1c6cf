import Verif.Model.KadNode
/-!
# kademlia/protocol.go:186-213 bound to a node: the goroutine that calls a callback waits for it

`Model/KadNode.lean` lets a connection go on while the `Ack` that one of its callbacks called is still running. In the code the callback returns when `Ack` does: the goroutine of a connection (client.go:208-280) does nothing between
client.go:513 or 555 and the end of that `Ack`, in particular it does not close `ready` (client.go:381); and the same for its writer (client.go:648). This file adds the waiting; every step is a step of `Model/KadNode.lean`.

Simplified: as there, except for the waiting.
-/
namespace Noise.KadSync

/-- node.go:24-58 and kademlia/protocol.go:23-31: a node with the overlay. -/
structure State (ε : Type) where
  node : KadNode.State ε
  /-- for every connection the call of `Ack` (an index of `threads`) that its goroutine has made last, unless that goroutine has gone on since -/
  main : List (Option Nat)
  /-- the same for its writer -/
  writer : List (Option Nat)

variable {ε : Type}

/-- kademlia/protocol.go:169-170 `Bind`. -/
def State.new (t : Table) : State ε := ⟨KadNode.State.new t, [], []⟩

/-- client.go:208-558: this is done by the goroutine of the connection (`outbound` or `inbound`). -/
def byMain : Cl.Action ε → Bool
  | .main | .dialOK | .dialFail _ | .hsKey | .hsFail _ | .hsOK _ | .readMsg _ | .readFail _ | .deliver => true
  | _ => false

/-- client.go:560-651: this is done by the writer. -/
def byWriter : Cl.Action ε → Bool
  | .writer | .writerFail _ => true
  | _ => false

/-- `Ack` (kademlia/protocol.go:82-153) has returned, if this goroutine has called it. client.go:513, 555, 648. -/
def State.returned (s : State ε) (w : List (Option Nat)) (i : Nat) : Bool := match w[i]? with
  | some (some k) => match s.node.kad.threads[k]? with
    | some th => th.pc == .done
    | none => true
  | _ => true

/-- The goroutine that does `act` for connection `i` is not in a callback. client.go:508-514, 550-556, 643-649. -/
def State.free (s : State ε) (i : Nat) (act : Cl.Action ε) : Bool :=
  (!byMain act || s.returned s.main i) && (!byWriter act || s.returned s.writer i)

/-- One step; `none`: not enabled. The call of `Ack` that a step begins, if any, is the next one. client.go:508-514, 550-556, 643-649 and kademlia/protocol.go:82-213. -/
def step (s : State ε) (a : KadNode.Action ε) : Option (State ε) := match a with
  | .connect _ => (KadNode.step s.node a).map fun n => ⟨n, s.main ++ [none], s.writer ++ [none]⟩
  | .conn i act =>
    if s.free i act then (KadNode.step s.node a).map fun n =>
      let called := if s.node.kad.threads.length < n.kad.threads.length then some s.node.kad.threads.length else none
      ⟨n, if byMain act then s.main.set i called else s.main, if byWriter act then s.writer.set i called else s.writer⟩
    else none
  | _ => (KadNode.step s.node a).map fun n => { s with node := n }

end Noise.KadSync
