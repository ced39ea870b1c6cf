import Verif.Model.Gossip
/-! # A network of nodes that gossip

Fixed tables, links that deliver every message (in any order), applications that accept every message. Every interleaving of the nodes' workers and goroutines. Not modelled: a full
connection that makes `SendMessage` block. -/
namespace Noise.Gossip

/-- A node: its identity, `Overlay.Table().Entries()` (gossip/protocol.go:64), the number of its workers, and a bound on the number of its pushes at one time, as in `Cfg`. -/
structure Node where
  id : ID
  table : List ID
  workers : Nat
  pushes : Nat
  st : State := State.new

/-- gossip/protocol.go:15-21: what the steps of a node depend on. -/
def Node.cfg (n : Node) : Cfg := ⟨n.id.id, n.workers, n.pushes⟩

/-- gossip/protocol.go:79: a message under way. -/
structure Msg where
  sender : ID
  to : PublicKey
  data : Bytes
  deriving DecidableEq

/-- gossip/protocol.go:15-21 at every node, and the messages under way. -/
structure Net where
  nodes : List Node
  /-- messages sent and not yet taken by a worker of their destination -/
  flight : List Msg
  /-- calls of `Push` by applications: the index of the node, the data -/
  pushed : List (Nat × Bytes)

/-- Nothing sent or received yet. gossip/protocol.go:24-35. -/
def Net.new (nodes : List Node) : Net := ⟨nodes.map fun n => { n with st := State.new }, [], []⟩

/-- gossip/protocol.go:61-125: a step of a node or the delivery of a message. -/
inductive NAction where
  /-- node `n` makes a step of its own -/
  | node (n : Nat) (a : Action)
  /-- a worker of node `n` takes message `i` -/
  | deliver (i n : Nat)

/-- Own steps: messages come from the network only, callbacks accept, sends succeed, tables are fixed. gossip/protocol.go:61-125. -/
def allowed (n : Node) : Action → Bool
  | .receive _ _ => false
  | .callback _ accept => accept
  | .sent _ _ ok => ok
  | .pushing _ entries => entries == n.table
  | _ => true

/-- gossip/protocol.go:61-125: one step of the network. What a node sends (79) is under way until it is delivered, to `Handle` (91). -/
def nstep (s : Net) : NAction → Option Net
  | .node n a =>
    match s.nodes[n]? with
    | none => none
    | some x =>
      if allowed x a then
        match step x.cfg x.st a with
        | none => none
        | some t => some
          { nodes := s.nodes.set n { x with st := t }
            flight := s.flight ++ (t.sent.drop x.st.sent.length).map fun e => ⟨x.id, e.1.id, e.2⟩
            pushed := match a with
              | .push data => s.pushed ++ [(n, data)]
              | _ => s.pushed }
      else none
  | .deliver i n =>
    match s.flight[i]?, s.nodes[n]? with
    | some m, some x =>
      if x.id.id = m.to then
        match step x.cfg x.st (.receive m.sender m.data) with
        | none => none
        | some t => some { s with nodes := s.nodes.set n { x with st := t }, flight := s.flight.eraseIdx i }
      else none
    | _, _ => none

/-- The data a step of a node deals with. Not in the code. -/
def dataOf (s : State) : Action → Option Bytes
  | .receive _ d => some d
  | .handler i | .callback i _ => (s.handlers[i]?).map (·.data)
  | .push d => some d
  | .pushing k _ | .gor k _ | .sent k _ _ => (s.pushes[k]?).map (·.data)

/-- The data a step deals with. Not in the code. -/
def about (s : Net) : NAction → Option Bytes
  | .deliver i _ => (s.flight[i]?).map (·.data)
  | .node n a => (s.nodes[n]?).bind fun x => dataOf x.st a

end Noise.Gossip
