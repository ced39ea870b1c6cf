import Verif.Model.Node
import Verif.Model.Link
/-!
# Any number of whole nodes, connected with one another

Composition of the transition system of `Model/Node.lean` with itself: node.go:109-441, client.go:141-280, 340-378, 517-651 for every node. What is composed, as in `Model/Link.lean`: a connection that a node has dialled
and one that a node (possibly the same) has accepted may be the two ends of a TCP connection; the `i`-th message that one of the receive loops reads is then the `i`-th that the other end's writer put on the
connection. A connection may instead lead to something that is not one of these nodes, and read anything. Which connections are joined is up to the environment, and so are the handshakes
(`Model/Handshake.lean`, `Model/Symbolic.lean`) and all timing.
-/
namespace Noise.Net
variable {ε : Type}

/-- Client `conn` of node `node`. client.go:47-86. -/
structure End where
  node : Nat
  conn : Nat
  deriving DecidableEq

/-- A TCP connection: the end that has dialled (client.go:204-228) and the end that was accepted (node.go:220-232), and how many messages each has read. -/
structure Wire where
  out : End
  inn : End
  readOut : Nat
  readIn : Nat

/-- Not in the code: the nodes, the connections between them, and the ends that lead elsewhere. node.go:24-58. -/
structure State (ε : Type) where
  nodes : List (Node.State ε)
  wires : List Wire
  foreign : List End

/-- node.go:62-102, for each node. -/
def State.new (n : Nat) : State ε := ⟨List.replicate n Node.State.new, [], []⟩

/-- Not in the code: the client at an end. -/
def State.conn (s : State ε) (e : End) : Option (Node.Conn ε) := (s.nodes[e.node]?).bind fun n => n.conns[e.conn]?

/-- Not in the code: the end is in use. -/
def State.used (s : State ε) (e : End) : Bool := s.foreign.contains e || s.wires.any fun w => w.out = e || w.inn = e

/-- The steps of the nodes, and of the network. node.go:109-441. -/
inductive Action (ε : Type) where
  /-- node `n`, something in it or its environment does something -/
  | node (n : Nat) (act : Node.Action ε)
  /-- these are the ends of one connection -/
  | connect (out inn : End)
  /-- this connection leads to something else -/
  | connectOut (e : End)

/-- Not in the code: replaces a node. -/
def State.setNode (s : State ε) (n : Nat) (x : Node.State ε) : State ε := { s with nodes := s.nodes.set n x }

/-- client.go:517-540: the receive loop at `e` reads `m`, which has to be the next one on the connection: the connections with the number of messages read. -/
def readWire (s : State ε) (e : End) (m : Message) : List Wire → Option (List Wire)
  | [] => none
  | w :: ws =>
    if w.out = e then match s.conn w.inn with
      | some y => if (Link.wire y.c)[w.readOut]? = some m then some ({ w with readOut := w.readOut + 1 } :: ws) else none
      | none => none
    else if w.inn = e then match s.conn w.out with
      | some y => if (Link.wire y.c)[w.readIn]? = some m then some ({ w with readIn := w.readIn + 1 } :: ws) else none
      | none => none
    else (readWire s e m ws).map (w :: ·)

/-- node.go:109-441 for each node: one step; `none`: not enabled. `cfg n` is the configuration of node `n`. -/
def step (cfg : Nat → Node.Cfg ε) (s : State ε) : Action ε → Option (State ε)
  | .node n act => match s.nodes[n]? with
    | some x => match act with
      | .conn j (.readMsg m) =>
        if s.foreign.contains ⟨n, j⟩ then (Node.step (cfg n) x act).map (s.setNode n)
        else match readWire s ⟨n, j⟩ m s.wires with
          | some ws => (Node.step (cfg n) x act).map fun x' => { s.setNode n x' with wires := ws }
          | none => none
      | act => (Node.step (cfg n) x act).map (s.setNode n)
    | none => none
  | .connect o i => match s.conn o, s.conn i with
    | some x, some y => if x.c.side = .outbound ∧ y.c.side = .inbound ∧ s.used o = false ∧ s.used i = false then some { s with wires := s.wires ++ [⟨o, i, 0, 0⟩] } else none
    | _, _ => none
  | .connectOut e => match s.conn e with
    | some _ => if s.used e = false then some { s with foreign := s.foreign ++ [e] } else none
    | none => none

/-- Not in the code: the states that any finite schedule can lead to, for the theorems. -/
abbrev Reachable (cfg : Nat → Node.Cfg ε) (n : Nat) (s : State ε) : Prop := ReachFrom (step cfg) (State.new n) s

end Noise.Net
