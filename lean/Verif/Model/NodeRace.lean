import Verif.Spec.Sync
/-!
# The memory accesses of a node

The fields of `Node` (node.go:24-58) that are written after `NewNode` has returned, and the operations on them of the application's goroutines, of the accept goroutine and the workers that `Listen` starts, and of the goroutines of
connections. All of them may call methods of the node: handlers run in workers, callbacks of protocols in goroutines of connections.

A goroutine's program is a list of operations, one for each path through the code; an execution interleaves the programs of all goroutines, subject to `listening`, the channels, the wait group and the `go` statements.
Simplifications: the pools, the codec and the connections have locks of their own and are left out (`Spec/Memory.lean`, `Model/Guarded.lean`), except for the channel `ready` of a connection; so are the other ways in which a call
that dials waits for a connection. A protocol's own `Bind` reads `ID()` and `Addr()` only. There is one work channel: `Listen` succeeds at most once.
-/
namespace Noise.NodeRace
open Noise.Spec.Sync (Op Ev Trace)

/-- node.go:24-58. -/
inductive Var where
  | listener
  /-- `host` and `port` -/
  | host
  | addr
  | id
  | protocols
  | handlers
  | work
  deriving DecidableEq

/-- node.go:45 `listening`. -/
abbrev Atom := Unit

/-- node.go:24-58: the channels. -/
inductive Chan where
  /-- node.go:55 `work` -/
  | work
  /-- node.go:57 `listenerDone` -/
  | done
  /-- client.go:74 `ready` of the connection whose goroutine is `t` -/
  | ready (t : Nat)
  deriving DecidableEq

/-- Not in the code: an operation on the variables and objects of a node. -/
abbrev NOp := Op Var Atom Chan
/-- Not in the code: an operation and the goroutine that executes it. -/
abbrev NEv := Ev Var Atom Chan
/-- Not in the code: what happens in an execution, in order. -/
abbrev NTrace := Trace Var Atom Chan

/-- node.go:64, 178: the capacities of the channels, with `n` workers. -/
def cap (n : Nat) : Chan → Nat
  | .work => n
  | .done => 1
  | .ready _ => 0

/-! ## Executions -/

/-- The state of the synchronisation objects. node.go:24-58. -/
structure Sync where
  started : Nat → Bool
  /-- `listening` -/
  listening : Bool
  sent : Chan → Nat
  taken : Chan → Nat
  closed : Chan → Bool
  /-- workers that have ended -/
  ended : Nat

/-- `root t`: goroutine `t` of the application runs from the beginning. Not in the code. -/
def Sync.init (root : Nat → Bool) : Sync := ⟨root, false, fun _ => 0, fun _ => 0, fun _ => false, 0⟩

/-- The next event, if it can happen. Go's semantics of goroutines, mutexes and channels, for node.go:109-236, 378-388. -/
def exec (n : Nat) (s : Sync) (e : NEv) : Option Sync :=
  if s.started e.tid then
    match e.op with
    | .rd _ => some s
    | .wr _ => some s
    | .load _ x => if s.listening = x then some s else none
    | .store _ x => some { s with listening := x }
    | .cas _ old new => if s.listening = old then some { s with listening := new } else none
    | .send c => if s.closed c = false ∧ s.sent c < s.taken c + cap n c then some { s with sent := fun d => if d = c then s.sent c + 1 else s.sent d } else none
    | .take c => if s.taken c < s.sent c then some { s with taken := fun d => if d = c then s.taken c + 1 else s.taken d } else none
    | .close c => if s.closed c then none else some { s with closed := fun d => if d = c then true else s.closed d }
    | .recv c => if s.closed c = true ∧ s.taken c = s.sent c then some s else none
    | .go t => if s.started t then none else some { s with started := fun u => if u = t then true else s.started u }
    | .done => some { s with ended := s.ended + 1 }
    | .wait => if s.ended = n then some s else none
  else none

/-! ## Programs -/

/-- node.go:182, 199; map.go: the goroutines of a node. -/
inductive Kind where
  | app
  | worker
  | accept
  /-- a goroutine of a connection: `outbound`, `inbound` or `writeLoop` -/
  | conn
  deriving DecidableEq

/-- A path through `Listen`. node.go:109-236. -/
inductive Path where
  /-- node.go:110-112 -/
  | already
  /-- node.go:114-176: it fails after `k` operations; it may close the listener, and resets `listening` on some paths -/
  | fail (pub : Bool) (binds : List Bool) (k : Nat) (closes stores : Bool)
  /-- node.go:104-236; `pub`: a public address was configured; `binds`: the protocols' `Bind` read the ID (`true`) or the address; `ws` are the workers, `a` is the accept goroutine -/
  | ok (pub : Bool) (binds : List Bool) (ws : List Nat) (a : Nat)
  deriving DecidableEq

/-- What the application does with the node, in any goroutine. node.go:109-513. -/
inductive Api where
  /-- node.go:510-513 -/
  | id
  /-- node.go:494-497 -/
  | addr
  /-- node.go:449-455; `on`: the node listens -/
  | bind (on : Bool)
  /-- node.go:463-469 -/
  | handle (on : Bool)
  /-- node.go:319-376, 390-441 `Ping`, `Send`, `Request`: connections are dialled or found, one after another; it fails or not. An entry: the goroutine started for a new connection; whether the call waits until a connection is ready, and which. -/
  | dial (attempts : List (Option Nat × Option Nat)) (failed : Bool)
  /-- node.go:378-388; `on`: the node listens; `rest`: what is received, a value (`true`) or that the channel is closed -/
  | close (on rest : Bool)
  /-- node.go:109-236 -/
  | listen (p : Path)
  /-- the application's own `go` statement -/
  | spawn (t : Nat)
  deriving DecidableEq

/-- node.go:114-176: `Listen` until the workers are started. -/
def listenOps (pub : Bool) (binds : List Bool) : List NOp :=
  [.load () false, .rd .host, .wr .listener, .rd .listener, .wr .host, .wr .host, .rd .addr] ++
  (if pub then [.rd .addr, .wr .id] else [.rd .host, .wr .addr, .rd .host, .wr .id]) ++
  [.rd .protocols] ++ binds.map (fun b => if b then .rd .id else .rd .addr)

/-- node.go:109-236: the accesses on that path, in order. -/
def Path.ops : Path → List NOp
  | .already => [.load () true]
  | .fail pub binds k closes stores => (listenOps pub binds).take k ++ (if closes then [.rd .listener] else []) ++ (if stores then [.store () false] else [])
  | .ok pub binds ws a => listenOps pub binds ++ [.wr .work] ++ ws.map .go ++ [.go a]

/-- node.go:109-513: the accesses of a call, in order. -/
def Api.ops : Api → List NOp
  | .id => [.rd .id]
  | .addr => [.rd .addr]
  | .bind true => [.load () true]
  | .bind false => [.load () false, .rd .protocols, .wr .protocols]
  | .handle true => [.load () true]
  | .handle false => [.load () false, .rd .handlers, .wr .handlers]
  | .dial attempts failed =>
    attempts.flatMap (fun x => (match x.1 with | some t => [.go t] | none => []) ++ (match x.2 with | some t => [.recv (.ready t)] | none => [])) ++ (if failed then [.rd .protocols] else [])
  | .close true rest => [.cas () true false, .rd .listener, if rest then .take .done else .recv .done]
  | .close false rest => [.load () false, if rest then .take .done else .recv .done]
  | .listen p => p.ops
  | .spawn t => [.go t]

/-- Several calls. Not in the code: the application's. -/
def calls (l : List Api) : List NOp := l.flatMap Api.ops

/-- The goroutines that are started are of the right kind. node.go:182, 199. -/
def Api.Ok (kind : Nat → Kind) : Api → Prop
  | .dial attempts _ => ∀ x ∈ attempts, ∀ t, x.1 = some t → kind t = .conn
  | .listen (.ok _ _ ws a) => (∀ w ∈ ws, kind w = .worker) ∧ kind a = .accept
  | .spawn t => kind t = .app
  | _ => True

/-- client.go:208-280, 380-651: what goroutines of connections do, in any order. -/
inductive Piece where
  /-- client.go:240, 273, 508, 550, 643 -/
  | protocols
  /-- client.go:455 -/
  | id
  /-- client.go:548 -/
  | work
  /-- client.go:383 -/
  | ready (t : Nat)
  /-- client.go:236, 269: `writeLoop` is started -/
  | writer (t : Nat)
  /-- a callback of a protocol -/
  | callback (a : Api)

/-- node.go:182-233, client.go:208-280: the accesses of a piece, in order. -/
def Piece.ops : Piece → List NOp
  | .protocols => [.rd .protocols]
  | .id => [.rd .id]
  | .work => [.rd .work, .send .work]
  | .ready t => [.close (.ready t)]
  | .writer t => [.go t]
  | .callback a => a.ops

/-- node.go:109-513: the calls of methods of the node in it. -/
def Piece.api : Piece → List Api
  | .callback a => [a]
  | _ => []

/-- The programs of the goroutines, and the calls of methods of the node in them. node.go:182-233, client.go:208-280. -/
inductive Prog (kind : Nat → Kind) : Kind → List Api → List NOp → Prop
  | app (l : List Api) : Prog kind .app l (calls l)
  /-- node.go:181-197: messages with the calls that the handlers make; the channel is closed, or a handler returns an error -/
  | worker (items : List (List Api)) (drained : Bool) :
      Prog kind .worker items.flatten ([.rd .work] ++ items.flatMap (fun l => [.take .work, .rd .handlers] ++ calls l) ++ (if drained then [.recv .work] else []) ++ [.done])
  /-- node.go:199-234: connections are accepted, for each of which a goroutine is started, or not; then `Accept` fails -/
  | accept (conns : List (Option Nat)) : (∀ t, some t ∈ conns → kind t = .conn) →
      Prog kind .accept [] ([.store () true, .rd .id] ++ conns.flatMap (fun c => [.rd .listener] ++ (match c with | some t => [.go t] | none => [])) ++
        [.rd .listener, .send .done, .rd .work, .close .work, .wait, .store () false, .close .done])
  | conn (l : List Piece) : (∀ t, .writer t ∈ l → kind t = .conn) → Prog kind .conn (l.flatMap Piece.api) (l.flatMap Piece.ops)

/-- The operations of goroutine `t`, in order. Not in the code. -/
def opsOf (t : Nat) (tr : NTrace) : List NOp := (tr.filter fun e => e.tid = t).map Ev.op

/-- `tr` is an execution of a node with `n` workers: goroutine `t` is of kind `kind t` and makes the calls `api t`; the goroutines `root` run from the beginning. node.go:109-236, 378-388, client.go:208-280. -/
structure Execution (n : Nat) (kind : Nat → Kind) (root : Nat → Bool) (api : Nat → List Api) (tr : NTrace) : Prop where
  run : ∃ s, runs (exec n) (Sync.init root) tr = some s
  roots : ∀ t, root t = true → kind t = .app
  ok : ∀ t, ∀ a ∈ api t, a.Ok kind
  prog : ∀ t, ∃ p, Prog kind (kind t) (api t) p ∧ opsOf t tr <+: p

end Noise.NodeRace
