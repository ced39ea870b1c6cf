import Verif.Model.TS
/-!
# node.go:104-236, 378-388: `Listen` called more than once

The documentation says that `Listen` returns an error if the node is listening already, and that it must not be called concurrently. `Model/NodeLife.lean` and `Model/Node.lean` have a single call; here any number of calls is made, one
after the other.

Simplified: connections and workers are left out (releasing the pool and waiting for the workers return); the address that `Listen` binds to is the one that it has recorded after the first success (node.go:133-134), so binding fails
while a listener of this node is open; `Accept` may fail at any time; what happens to `n.work`
when `Listen` succeeds a second time, after the first listener was closed, is left out.
-/
namespace Noise.Relisten

/-- An accept goroutine (node.go:199-233). -/
inductive Accept where
  /-- node.go:200 -/
  | start
  /-- node.go:220, about to evaluate `n.listener` -/
  | loop
  /-- node.go:220, in `Accept` of listener `l` -/
  | blocked (l : Nat)
  /-- node.go:222 -/
  | report
  /-- node.go:203-206 -/
  | release
  /-- node.go:208 -/
  | store
  /-- node.go:209 -/
  | closeDone
  | ended
  deriving DecidableEq

/-- The call of `Listen` under way. node.go:109-236. -/
inductive Pc where
  /-- node.go:122, about to bind -/
  | bind
  /-- node.go:127-176, bound -/
  | rest
  deriving DecidableEq

/-- A call of `Close` (node.go:378-388). -/
inductive Closer where
  | closing
  | waiting
  | returned
  deriving DecidableEq

/-- node.go:24-58, 109-236: a node whose `Listen` is called any number of times. -/
structure State where
  /-- node.go:45 `n.listening` -/
  listening : Bool
  /-- node.go:44 `n.listener`: nil, or a listener -/
  listener : Option Nat
  /-- the listeners ever created, and whether they are open -/
  listeners : List Bool
  accepts : List Accept
  call : Option Pc
  /-- what the calls of `Listen` have returned: `true` is nil -/
  results : List Bool
  /-- node.go:57 `listenerDone` -/
  doneBuf : Nat
  doneClosed : Bool
  closers : List Closer
  /-- a goroutine has panicked -/
  crashed : Bool
  deriving DecidableEq

/-- node.go:62-102. -/
def State.new : State := ⟨false, none, [], [], none, [], 0, false, [], false⟩

/-- node.go:109-236, 378-388: the steps of the calls and goroutines. -/
inductive Action where
  /-- `Listen` is called (node.go:110-112) -/
  | listen
  /-- node.go:122: `net.Listen` succeeds, or fails -/
  | bindOK
  | bindFail
  /-- node.go:127-176: the rest of `Listen` fails, with the outer `err` set (`true`: `Bind`, node.go:172) or not (node.go:128-162, where `err` is shadowed) -/
  | restFail (outer : Bool)
  /-- node.go:178-235: `Listen` returns nil -/
  | restOK
  /-- accept goroutine `i` goes on -/
  | step (i : Nat)
  /-- `Accept` returns a connection, which is then served, to goroutine `i` -/
  | conn (i : Nat)
  /-- `Accept` returns an error to goroutine `i` -/
  | fail (i : Nat)
  /-- `Close` is called (node.go:379) -/
  | close
  /-- node.go:380 -/
  | closeListener (c : Nat)
  /-- node.go:385 -/
  | closeRecv (c : Nat)
  deriving DecidableEq

/-- Not in the code: replaces an accept goroutine. -/
def State.setAccept (s : State) (i : Nat) (p : Accept) : State := { s with accepts := s.accepts.set i p }

/-- The next section of accept goroutine `i`. node.go:199-233. -/
def State.acceptStep (s : State) (i : Nat) : Accept → Option State
  | .start => some { s.setAccept i .loop with listening := true }
  | .loop => match s.listener with
    | some l => some (s.setAccept i (.blocked l))
    -- `Accept` of a nil interface
    | none => some { s with crashed := true }
  | .report =>
    if s.doneClosed then some { s with crashed := true }
    else if s.doneBuf = 0 then some { s.setAccept i .release with doneBuf := 1 }
    else none
  | .release => some (s.setAccept i .store)
  | .store => some { s.setAccept i .closeDone with listening := false }
  | .closeDone => if s.doneClosed then some { s with crashed := true } else some { s.setAccept i .ended with doneClosed := true }
  | _ => none

/-- node.go:109-236, 378-388: one step; `none`: not enabled. -/
def step (s : State) (a : Action) : Option State :=
  if s.crashed then none else
  match a with
  | .listen => match s.call with
    | none => if s.listening then some { s with results := s.results ++ [false] } else some { s with call := some .bind }
    | some _ => none
  | .bindOK => if s.call = some .bind ∧ true ∉ s.listeners then some { s with call := some .rest, listener := some s.listeners.length, listeners := s.listeners ++ [true] } else none
  -- node.go:116-120, 122: the result of `net.Listen` is assigned before the error is looked at
  | .bindFail => if s.call = some .bind then some { s with call := none, listener := none, listening := false, results := s.results ++ [false] } else none
  | .restFail outer => match s.call, s.listener with
    | some .rest, some l => some { s with call := none, listeners := s.listeners.set l false, listening := if outer then false else s.listening, results := s.results ++ [false] }
    | _, _ => none
  | .restOK => if s.call = some .rest then some { s with call := none, accepts := s.accepts ++ [.start], results := s.results ++ [true] } else none
  | .step i => match s.accepts[i]? with
    | some p => s.acceptStep i p
    | none => none
  | .conn i => match s.accepts[i]? with
    | some (.blocked l) => if s.listeners[l]? = some true then some (s.setAccept i .loop) else none
    | _ => none
  | .fail i => match s.accepts[i]? with
    | some (.blocked _) => some (s.setAccept i .report)
    | _ => none
  | .close => some (if s.listening then { s with listening := false, closers := s.closers ++ [.closing] } else { s with closers := s.closers ++ [.waiting] })
  | .closeListener c => match s.closers[c]? with
    | some .closing => match s.listener with
      -- closing a listener twice is an error, which `Close` returns
      | some l => some { s with listeners := s.listeners.set l false, closers := s.closers.set c (if s.listeners[l]? = some true then .waiting else .returned) }
      | none => some { s with crashed := true }
    | _ => none
  | .closeRecv c => match s.closers[c]? with
    | some .waiting =>
      if 0 < s.doneBuf then some { s with doneBuf := s.doneBuf - 1, closers := s.closers.set c .returned }
      else if s.doneClosed then some { s with closers := s.closers.set c .returned }
      else none
    | _ => none

/-- Not in the code: the states that any finite schedule can lead to, for the theorems. -/
abbrev Reachable (s : State) : Prop := ReachFrom step State.new s

end Noise.Relisten
