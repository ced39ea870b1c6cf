import Verif.Spec.Live
import Verif.Model.Net
/-! # Specification vocabulary: fair executions of a network of whole nodes, and connections on which nothing fails -/
namespace Noise.Net
variable {ε : Type}

/-- The two ends belong to one connection. -/
def Linked (s : State ε) (out inn : End) : Prop := ∃ w ∈ s.wires, w.out = out ∧ w.inn = inn

/-- The end belongs to a connection between two nodes. -/
def Wired (s : State ε) (e : End) : Prop := ∃ w ∈ s.wires, w.out = e ∨ w.inn = e

/-- The network can be relied on to provide something to read at this end: the other end has flushed more than has been read here. -/
def Fed (s : State ε) (e : End) : Prop := ∃ w ∈ s.wires,
  (w.out = e ∧ ∃ y, s.conn w.inn = some y ∧ w.readOut < (Spec.flushedOf y.c.log).length) ∨ (w.inn = e ∧ ∃ y, s.conn w.out = some y ∧ w.readIn < (Spec.flushedOf y.c.log).length)

/-- Goroutines of the nodes. -/
inductive Proc where
  /-- the main goroutine of a connection -/
  | main (e : End)
  /-- the writer goroutine of a connection -/
  | writer (e : End)
  /-- the goroutine of the application that has made call `k` of `Ping`, `Send` or `Request` at node `n` -/
  | call (n k : Nat)
  /-- worker `w` of node `n`, with the handler that runs on it -/
  | worker (n w : Nat)

/-- What they do. -/
def Proc.acts : Proc → Action ε → Prop
  | .main e, a => ∃ act, a = .node e.node (.conn e.conn act) ∧ act.ofMain = true
  | .writer e, a => a = .node e.node (.conn e.conn .writer)
  | .call n k, a => a = .node n (.callStep k) ∨ (∃ b, a = .node n (.select k b)) ∨ a = .node n (.take k) ∨ a = .node n (.cancel k)
  | .worker n w, a => a = .node n (.work w) ∨ ∃ r, a = .node n (.handlerReturn w r)

/-- A receive loop reads only what the network can be relied on to provide. -/
def sure (s : State ε) (a : Action ε) : Prop := ∀ n j m, a = .node n (.conn j (.readMsg m)) → Fed s ⟨n, j⟩

/-- An infinite execution of a network of `n` nodes in which everything that can go on goes on: every goroutine that stays able to run runs (so dialling and handlers end), the network delivers what has been flushed
on the connections between the nodes and the messages of their handshakes, and the queues serve the receive loops that wait for room. Anything may fail and be closed. -/
structure FairRun (cfg : Nat → Node.Cfg ε) (n : Nat) (σ : Nat → State ε) (α : Nat → Option (Action ε)) : Prop where
  exec : Spec.Execution (step cfg) σ α
  init : σ 0 = State.new n
  runs : ∀ p : Proc, Spec.WeaklyFair σ α (fun s => Spec.Able (step cfg) (fun a => p.acts a ∧ sure s a) s) p.acts
  net : ∀ e : End, Spec.WeaklyFair σ α (fun s => ∃ x, s.conn e = some x ∧ x.c.conn = .open ∧ x.c.rbuf = 0 ∧ ((x.c.main = .hs ∧ Wired s e) ∨ Fed s e)) (· = .node e.node (.conn e.conn .arrive))
  queue : ∀ e : End, Spec.StronglyFair σ α (Spec.Able (step cfg) (· = .node e.node (.conn e.conn .deliver))) (· = .node e.node (.conn e.conn .deliver))

/-- A connection on which nothing fails: at some time the two ends belong to one connection; neither end ever records an error or is closed, neither node crashes, closes its work queue or has a handler that
returns an error, and the dialling node listens (otherwise nobody serves its queue: C99). -/
structure Unbroken (σ : Nat → State ε) (α : Nat → Option (Action ε)) (o i : End) : Prop where
  linked : ∃ t, Linked (σ t) o i
  ends : ∀ t e x, e = o ∨ e = i → (σ t).conn e = some x → x.c.err = none ∧ x.c.once = .fresh
  nodes : ∀ t n X, n = o.node ∨ n = i.node → (σ t).nodes[n]? = some X → X.crashed = false ∧ ∀ q, X.wk = some q → q.queueClosed = false
  handlers : ∀ t n w e, n = o.node ∨ n = i.node → α t ≠ some (.node n (.handlerReturn w (some e)))
  listens : ∀ t x X, (σ t).conn o = some x → (σ t).nodes[o.node]? = some X → X.wk ≠ none

/-- Handler `h` of node `i.node` answers every request that comes by connection `i.conn` before it returns. -/
def Answers (σ : Nat → State ε) (α : Nat → Option (Action ε)) (i : End) (h : Nat) : Prop :=
  ∀ t w k it X q, α t = some (.node i.node (.handlerReturn w none)) → (σ t).nodes[i.node]? = some X → X.wk = some q → q.workers[w]? = some (.inside k h) → q.items[k]? = some it →
    it.client = i.conn → it.msg.isRequest = true → h ∈ Spec.respondersOf k q.log

/-- Handler `h` of node `i.node` answers every request with this data that comes by connection `i.conn` before it returns. -/
def AnswersTo (σ : Nat → State ε) (α : Nat → Option (Action ε)) (i : End) (h : Nat) (data : Bytes) : Prop :=
  ∀ t w k it X q, α t = some (.node i.node (.handlerReturn w none)) → (σ t).nodes[i.node]? = some X → X.wk = some q → q.workers[w]? = some (.inside k h) → q.items[k]? = some it →
    it.client = i.conn → it.msg.isRequest = true → it.msg.data = data → h ∈ Spec.respondersOf k q.log

/-- Up to time `t'`, a handler of node `i.node` has sent this message in answer to a request with this data, which was given to the handlers by connection `i.conn` after time `t`. -/
def Answered (σ : Nat → State ε) (i : End) (t t' : Nat) (data : Bytes) (m : Message) : Prop :=
  ∃ (I : Node.State ε) (q : Wk.State ε) (k h : Nat), (σ t').nodes[i.node]? = some I ∧ I.wk = some q ∧ q.items[k]? = some ⟨i.conn, ⟨m.nonce, data⟩⟩ ∧ .sendOk k h m.nonce m.data ∈ q.log ∧
    ∀ (J : Node.State ε) (q' : Wk.State ε), (σ t).nodes[i.node]? = some J → J.wk = some q' → q'.items.length ≤ k

/-- Call `k` of `Ping`, `Send` or `Request` at node `m` at time `t`. -/
def CallAt (σ : Nat → State ε) (m k t : Nat) (c : Node.Call ε) : Prop := ∃ X, (σ t).nodes[m]? = some X ∧ X.calls[k]? = some c

/-- The context of this call never ends. -/
def Endless (σ : Nat → State ε) (m k : Nat) : Prop := ∀ t c, CallAt σ m k t c → c.ended = false

end Noise.Net
