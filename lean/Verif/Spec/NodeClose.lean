import Verif.Model.Node
import Verif.Spec.Fair
/-! # What it means that closing a node completes -/
namespace Noise.Node
variable {ε : Type}

/-- A worker is about to close client `j`, because a handler returned an error for a message of it (node.go:190). -/
def State.closes (s : State ε) (j : Nat) : Bool := match s.wk with
  | some w => w.workers.any fun p => match p with
    | .closing k => match w.items[k]? with
      | some it => it.client == j
      | none => false
    | _ => false
  | none => false

/-- What a node that is being closed does without anybody's help: its accept goroutine goes on, and `Accept` fails on a closed listener; calls of `Close` go on; inbound connections read what has arrived, hand it over, and, if they are closed, fail to
read; clients that are being closed are closed; workers go on, and handlers return. -/
def State.own (s : State ε) : Action ε → Bool
  | .acceptFail => !s.listenerOpen
  | .acceptStep | .acceptRelease _ | .closeListener _ | .closeRecv _ | .work _ | .handlerReturn _ _ => true
  | .conn j act => match s.conns[j]? with
    | some x => match act with
      | .closeConn => x.c.side = .inbound || s.closes j
      | .main | .deliver | .readMsg _ | .hsKey | .hsOK _ => x.c.side = .inbound
      | .readFail _ | .hsFail _ => x.c.side = .inbound && x.c.conn = .closed
      | _ => false
    | none => false
  | _ => false

/-- What gives it more to do: a frame arrives, an outbound connection puts a message on the work channel, `Close` is called once more. -/
def State.feeds (s : State ε) : Action ε → Bool
  | .conn _ .arrive => true
  | .conn j .deliver => match s.conns[j]? with
    | some x => x.c.side = .outbound
    | none => false
  | .close => true
  | _ => false

/-- How many of the actions of a run are such. -/
def count (P : State ε → Action ε → Bool) (cfg : Cfg ε) (s : State ε) : List (Action ε) → Nat
  | [] => 0
  | a :: as => (if P s a then 1 else 0) + match step cfg s a with
    | some s' => count P cfg s' as
    | none => 0

/-! ## An upper bound for the number of steps left -/

def onceLeft : Cl.Once → Nat
  | .fresh => 2
  | .running => 1
  | .done => 0

/-- `h` is the number of handlers: a message costs `2 h + 2` steps of a worker. -/
def mainLeft (h : Nat) : Cl.MainPc → Nat
  | .init | .dialing => 11
  | .hs => 10
  | .hsVerified => 9
  | .hsEnd => 8
  | .afterHs | .recvCb => 7
  | .recv => 6
  | .routing _ => 2 * h + 11
  | .delivering _ => 2 * h + 10
  | .recvEnd | .dialErr1 => 5
  | .closing _ | .dialErr2 => 4
  | .disc | .dialErr3 => 3
  | .remove => 2
  | .done => 1
  | .finished => 0

def connLeft (h : Nat) (x : Conn ε) : Nat := match x.c.side with
  | .outbound => 0
  | .inbound => x.c.rbuf * (2 * h + 6) + mainLeft h x.c.main + onceLeft x.c.once

def State.onceLeft (s : State ε) (j : Nat) : Nat := match s.conns[j]? with
  | some x => Node.onceLeft x.c.once
  | none => 2

/-- `once j` is what is left of `close()` of client `j`. -/
def workerLeft (h : Nat) (once : Nat → Nat) (items : List Wk.Item) : Wk.Pc ε → Nat
  | .idle => 5
  | .next _ i => 2 * (h - i) + 6
  | .inside _ i => 2 * (h - (i + 1)) + 7
  | .failing _ _ => 4
  | .closing k => 1 + match items[k]? with
    | some it => once it.client
    | none => 2
  | .ended _ => 0

def workLeft (h : Nat) (once : Nat → Nat) : Option (Wk.State ε) → Nat
  | some w => (w.items.length - w.head) * (2 * h + 2) + (w.workers.map (workerLeft h once w.items)).sum
  | none => 0

/-- `n` is the number of entries of the pool. -/
def acceptLeft (n : Nat) : Accept → Nat
  | .loop => 9 + 2 * n
  | .report => 8 + 2 * n
  | .release => 7 + 2 * n
  | .releasing l b => 5 + 2 * l.length + if b then 0 else 1
  | .closeWork => 4
  | .waitWorkers => 3
  | .store => 2
  | .closeDone => 1
  | _ => 0

def closerLeft : Closer → Nat
  | .closing => 2
  | .waiting => 1
  | _ => 0

def State.left (cfg : Cfg ε) (s : State ε) : Nat :=
  (s.conns.map (connLeft cfg.numHandlers)).sum + workLeft cfg.numHandlers s.onceLeft s.wk + acceptLeft (s.pool .inbound).entries.length s.accept + (s.closers.map closerLeft).sum

/-- The listener has been closed and the accept goroutine is in `Accept`; or it has left the loop. -/
def State.over (s : State ε) : Prop := match s.accept with
  | .loop => s.listenerOpen = false
  | .none | .start | .get _ | .evict _ _ _ => False
  | _ => True

/-- Every connection that was accepted is being served, and its client's `close()` did not come too early for it. -/
def State.begun (s : State ε) : Prop := ∀ x ∈ s.conns, x.c.side = .inbound → x.c.conn ≠ .none ∧ (x.c.once = .done → x.c.conn = .closed)

/-- Some worker is not lost to a handler's error. -/
def State.staffed (s : State ε) : Prop := ∃ w, s.wk = some w ∧ ∃ p ∈ w.workers, match p with
  | .failing _ _ | .closing _ | .ended true => False
  | _ => True

/-- The node is closed. -/
structure State.Closed (s : State ε) : Prop where
  accept : s.accept = .ended
  listening : s.listening = false
  conns : ∀ x ∈ s.conns, x.c.side = .inbound → x.c.main = .finished ∧ x.c.conn = .closed
  workers : ∀ w, s.wk = some w → ∀ p ∈ w.workers, ∃ b, p = .ended b
  close : ∀ c ∈ s.closers, c = .gotError ∨ c = .gotClosed

/-- An infinite execution of a node that is being closed: the accept goroutine cannot accept any more; the connections that were accepted are being served; a worker is left, and handlers return no errors from now on; the process does not crash;
in the end no more frames arrive, no outbound connection hands over messages, and `Close` is not called again; and the node does not rest for ever while there is something that it can do by itself. -/
structure FairClose (cfg : Cfg ε) (σ : Nat → State ε) (α : Nat → Option (Action ε)) : Prop where
  exec : Spec.Execution (step cfg) σ α
  start : Reachable cfg (σ 0)
  over : (σ 0).over
  begun : (σ 0).begun
  staffed : (σ 0).staffed
  noErrors : ∀ t i e, α t ≠ some (.handlerReturn i (some e))
  noCrash : ∀ t, (σ t).crashed = false
  quiet : ∃ T, ∀ t, T ≤ t → ∀ a, α t = some a → (σ t).feeds a = false
  fair : ∀ t, ∃ t', t ≤ t' ∧ ((∃ a, α t' = some a ∧ (σ t').own a = true) ∨ ∀ a, (σ t').own a = true → step cfg (σ t') a = none)

end Noise.Node
