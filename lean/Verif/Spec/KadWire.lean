import Verif.Model.KadWire
import Verif.Spec.NetLive
/-! # Specification vocabulary: who knows whom in a network of nodes with kademlia -/
namespace Noise.Spec
variable {ε : Type}

/-- Up to time `t`, node `n` got to know the identity `e` at first hand: it is its own, its application has passed it to `Ack` or `Table().Update`, or `ID()` of one of its connections returns it, which the handshake on this connection has verified. -/
def KnownTo (c : KWire.Cfg ε) (σ : Nat → KWire.State ε) (t n : Nat) (e : ID) : Prop :=
  e = c.id n ∨ ∃ t', t' ≤ t ∧ ((∃ p, (σ t').parts[n]? = some p ∧ e ∈ p.user) ∨ ∃ x y, (σ t').net.nodes[n]? = some x ∧ y ∈ x.conns ∧ y.c.id = some e)

/-- One of the `N` nodes got to know it at first hand. -/
def KnownInNet (c : KWire.Cfg ε) (N : Nat) (σ : Nat → KWire.State ε) (t : Nat) (e : ID) : Prop := ∃ m, m < N ∧ KnownTo c σ t m e

/-- As `UnmarshalID` makes them: the address is that of the host and the port, and the host has 16 bytes. -/
def WellFormed (e : ID) : Prop := e = newID e.id e.host e.port ∧ e.host.length = 16

/-- The nodes are among themselves: none of their connections leads elsewhere; no handler other than that of kademlia sends `FindNodeResponse`s; and over no connection so many requests were made that nonces repeat. -/
structure AmongThemselves (c : KWire.Cfg ε) (s : KWire.State ε) : Prop where
  inside : s.net.foreign = []
  others : ∀ (n : Nat) (x : Node.State ε) (q : Wk.State ε) (k h : Nat) (v : UInt64) (d : Bytes), s.net.nodes[n]? = some x → x.wk = some q → .sendOk k h v d ∈ q.log → h ≠ c.handler → d.take 2 ≠ put16 c.ops.response
  few : ∀ (n : Nat) (x : Node.State ε) (y : Node.Conn ε), s.net.nodes[n]? = some x → y ∈ x.conns → y.c.calls.length < 2 ^ 64 - 1

/-- What nodes ask of each other (kademlia/msg.go:10-53). -/
inductive Query where
  | ping
  | find (target : PublicKey)

/-- The message, with its opcode. -/
def Query.bytes (o : Kad.Opcodes) : Query → Bytes
  | .ping => put16 o.ping
  | .find k => put16 o.request ++ k.1

/-- A node with this routing table replies this: a pong; or a response that decodes to the entries of the table that are closest to the target (if the entries are such as come from the network). -/
def ReplyTo (S : Sorter) (o : Kad.Opcodes) (t : Table) : Query → Bytes → Prop
  | .ping, d => d = put16 o.pong
  | .find k, d => ∃ l, t.findClosest S k 16 = .ok l ∧ d.take 2 = put16 o.response ∧ ((∀ e ∈ t.all, WellFormed e) → unmarshalFindNodeResponse (d.drop 2) = .ok l)

/-- On node `n`, nobody but kademlia answers requests with this data. -/
def OnlyKademlia (c : KWire.Cfg ε) (σ : Nat → KWire.State ε) (n : Nat) (data : Bytes) : Prop :=
  ∀ (t : Nat) (x : Node.State ε) (q : Wk.State ε) (k h : Nat) (v : UInt64) (d : Bytes) (it : Wk.Item), (σ t).net.nodes[n]? = some x → x.wk = some q → .sendOk k h v d ∈ q.log → q.items[k]? = some it → it.msg.data = data → h = c.handler

end Noise.Spec

namespace Noise.KWire
variable {ε : Type}

/-- The part of a step that is a step of the network. -/
def netOf (c : Cfg ε) (s : State ε) : Action ε → Option (Net.Action ε)
  | .net b => some b
  | .reply n w => match s.net.nodes[n]?, s.parts[n]? with
    | some x, some p => match invocation c x w with
      | some (k, _) => match p.runs.find? (fun r => r.item = k) with
        | some ⟨_, .reply data⟩ => some (.node n (.ctxSend k c.handler data))
        | _ => none
      | none => none
    | _, _ => none
  | .leave n w r => some (.node n (.handlerReturn w r))
  | .ask n f i j => match s.parts[n]? with
    | some p => match p.finds[f]? with
      | some q => match Search.next q.it i j with
        | some id => some (.node n (.call (.request (Search.encode c.ops.request id.id)) id.address))
        | none => none
      | none => none
    | none => none
  | _ => none

/-- What the nodes and the network do in an execution. -/
def netActs (c : Cfg ε) (σ : Nat → State ε) (α : Nat → Option (Action ε)) (t : Nat) : Option (Net.Action ε) := (α t).bind (netOf c (σ t))

/-- What the goroutines of the nodes do: a worker also runs the handler of kademlia. -/
def acts : Net.Proc → Action ε → Prop
  | p, .net b => p.acts b
  | .worker n w, .handle m v => m = n ∧ v = w
  | .worker n w, .reply m v => m = n ∧ v = w
  | .worker n w, .leave m v _ => m = n ∧ v = w
  | _, _ => False

/-- A receive loop reads only what the network can be relied on to provide. -/
def sure (s : State ε) (a : Action ε) : Prop := ∀ b, a = .net b → Net.sure s.net b

/-- An infinite execution of a network of `n` nodes with kademlia in which everything that can go on goes on, as in `Net.FairRun`; and kademlia crashes none of them (C56). Nothing is demanded of kademlia's handler but that its goroutine runs. -/
structure FairRun (S : Sorter) (c : Cfg ε) (n : Nat) (σ : Nat → State ε) (α : Nat → Option (Action ε)) : Prop where
  exec : Spec.Execution (step S c) σ α
  init : Start c n (σ 0)
  alive : ∀ t p, p ∈ (σ t).parts → p.kad.crashed = false
  runs : ∀ p : Net.Proc, Spec.WeaklyFair σ α (fun s => Spec.Able (step S c) (fun a => acts p a ∧ sure s a) s) (acts p)
  net : ∀ e : Net.End, Spec.WeaklyFair σ α (fun s => ∃ x, s.net.conn e = some x ∧ x.c.conn = .open ∧ x.c.rbuf = 0 ∧ ((x.c.main = .hs ∧ Net.Wired s.net e) ∨ Net.Fed s.net e)) (· = .net (.node e.node (.conn e.conn .arrive)))
  queue : ∀ e : Net.End, Spec.StronglyFair σ α (Spec.Able (step S c) (· = .net (.node e.node (.conn e.conn .deliver)))) (· = .net (.node e.node (.conn e.conn .deliver)))

end Noise.KWire
