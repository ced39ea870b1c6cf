import Verif.Spec.Fair
import Verif.Spec.Connection
import Verif.Spec.Worker
import Verif.Model.Link
/-! # Specification vocabulary: fair executions of two connected nodes in which nothing fails -/
namespace Noise.Spec
variable {ε : Type}

/-- What has been written before the last flush, and what has been written since. -/
def flushSplit (log : List (Cl.Event ε)) : List Message × List Message :=
  log.foldl (fun p e => match e with | .wrote m => (p.1, p.2 ++ [m]) | .flushed => (p.1 ++ p.2, []) | _ => p) ([], [])

/-- The messages that have been written and flushed, in order. -/
def flushedOf (log : List (Cl.Event ε)) : List Message := (flushSplit log).1

end Noise.Spec

namespace Noise.Cl
variable {ε : Type}

/-- Not a failure and not part of closing. -/
def Action.calm : Action ε → Bool
  | .dialFail _ | .hsFail _ | .readFail _ | .writerFail _ | .handlerErr _ | .closeBegin | .closeConn => false
  | _ => true

/-- An action of the main goroutine (dialling, handshake, receive loop), other than putting a message on the work queue. -/
def Action.ofMain : Action ε → Bool
  | .main | .dialOK | .hsKey | .hsOK _ | .readMsg _ => true
  | _ => false

end Noise.Cl

namespace Noise.Link
variable {ε : Type}

/-- Not a failure, not part of closing, and no handler returns an error. -/
def Action.calm : Action ε → Bool
  | .a act => act.calm
  | .b act => act.calm
  | .w .closeQueue => false
  | .w (.handlerReturn _ (some _)) => false
  | .w _ => true

/-- The goroutines of the two nodes. -/
inductive Proc where
  /-- A's main goroutine, including the acceptance of messages by A's work queue -/
  | mainA
  | writerA
  /-- the goroutine that has made `Request` call number `i` -/
  | call (i : Nat)
  | mainB
  | writerB
  /-- B's worker number `w`, with the handler that runs on it -/
  | worker (w : Nat)

/-- What they do. -/
def Proc.acts : Proc → Action ε → Prop
  | .mainA, a => ∃ act, a = .a act ∧ (act.ofMain = true ∨ act = .deliver)
  | .writerA, a => a = .a .writer
  | .call i, a => a = .a (.reqSend i) ∨ a = .a (.reqTake i)
  | .mainB, a => ∃ act, a = .b act ∧ (act.ofMain = true ∨ act = .deliver)
  | .writerB, a => a = .b .writer
  | .worker w, a => a = .w (.work w) ∨ a = .w (.handlerReturn w none)

/-- The network can be relied on to provide what this action reads: the other end has flushed it. (`Link` also lets a receive loop read what has been written but not flushed, because the buffer
may be emptied earlier; that is not certain to happen.) -/
def fed (s : State ε) : Action ε → Prop
  | .a (.readMsg _) => s.readA < (Spec.flushedOf s.b.log).length
  | .b (.readMsg _) => s.readB < (Spec.flushedOf s.a.log).length
  | _ => True

/-- An infinite execution of two connected nodes in which nothing fails, nothing is closed, handlers return no errors, and everything that can go on goes on:
every goroutine that stays able to run runs (so dialling and handlers end), the network delivers what has been flushed, and B's queue serves the receive loops that wait for room. -/
structure FairRun (N H : Nat) (σ : Nat → State ε) (α : Nat → Option (Action ε)) : Prop where
  exec : Spec.Execution step σ α
  init : σ 0 = State.new N H
  calm : ∀ t a, α t = some a → a.calm = true
  runs : ∀ p : Proc, Spec.WeaklyFair σ α (fun s => Spec.Able step (fun a => p.acts a ∧ fed s a) s) p.acts
  netA : Spec.WeaklyFair σ α (fun s => s.a.conn = .open ∧ s.a.rbuf = 0 ∧ (s.a.main = .hs ∨ s.readA < (Spec.flushedOf s.b.log).length)) (· = .a .arrive)
  netB : Spec.WeaklyFair σ α (fun s => s.b.conn = .open ∧ s.b.rbuf = 0 ∧ (s.b.main = .hs ∨ s.readB < (Spec.flushedOf s.a.log).length)) (· = .b .arrive)
  queue : Spec.StronglyFair σ α (Spec.Able step (· = .b .deliver)) (· = .b .deliver)

/-- B's handler number `h` answers every request before it returns. -/
def Answers (σ : Nat → State ε) (α : Nat → Option (Action ε)) (h : Nat) : Prop :=
  ∀ t w k it, α t = some (.w (.handlerReturn w none)) → (σ t).w.workers[w]? = some (.inside k h) → (σ t).w.items[k]? = some it → it.client = 0 → it.msg.isRequest = true →
    h ∈ Spec.respondersOf k (σ t).w.log

end Noise.Link
