import Verif.Model.Frame
import Verif.Model.TS
/-!
# client.go:282-290, 515-532, 560-640: the idle timeout of a connection

A timed transition system for the two loops of a connected client, reduced to what matters for deadlines. Time is a natural number (any unit). `timeout` is `node.idleTimeout`
(0: disabled). A deadline that has passed makes reads and writes on the connection fail (`net.Conn`); a read that finds its bytes in the `bufio.Reader` still succeeds, so receiving is always possible.
Not modelled: other failures, closing, requests (see `Model/Client.lean`). `handled` is everything between two reads, which may take any time because the work queue may be full.
-/
namespace Noise.Idle

/-- client.go:282-313, 517-558: where the reader is. -/
inductive RPc where
  /-- client.go:283, about to set the read deadline -/
  | start
  /-- client.go:289-298, reading header and body under this deadline -/
  | reading (deadline : Nat)
  /-- client.go:532-556 -/
  | handling
  /-- left the loop -/
  | ended
  deriving DecidableEq

/-- client.go:560-651: where the writer is. -/
inductive WPc where
  /-- client.go:576, about to set the write deadline -/
  | start
  /-- client.go:587-590, waiting for messages; the deadline is already set -/
  | waiting (deadline : Nat)
  /-- client.go:600-640, writing and flushing -/
  | writing (deadline : Nat) (batch : List Message)
  /-- left the loop -/
  | ended
  deriving DecidableEq

/-- client.go:284, 577 and what the connection transports. -/
inductive Event where
  /-- a complete message was read -/
  | received (m : Message)
  /-- these messages were flushed to the connection -/
  | flushed (batch : List Message)
  /-- reading failed because of the deadline -/
  | readTimeout
  /-- writing failed because of the deadline; these messages are lost -/
  | writeTimeout (batch : List Message)
  deriving DecidableEq

/-- client.go:282-313, 517-651: both loops, the clock and the two deadlines. -/
structure State where
  timeout : Nat
  now : Nat
  reader : RPc
  writer : WPc
  buf : List Message
  /-- with the time of each event -/
  log : List (Nat × Event)

/-- Both loops start. client.go:234-235, 269-270. -/
def State.new (timeout : Nat) : State := ⟨timeout, 0, .start, .start, [], []⟩

/-- client.go:282-313, 517-651: the steps of the loops, of the peer and of time. -/
inductive Action where
  /-- time passes -/
  | tick
  /-- client.go:340-347 -/
  | send (m : Message)
  | setWrite
  | take
  | flush
  | setRead
  | recv (m : Message)
  | expire
  | handled

/-- client.go:284, 577: a deadline that was set has passed. -/
def State.expired (s : State) (deadline : Nat) : Bool := s.timeout ≠ 0 ∧ deadline ≤ s.now

/-- client.go:282-313, 517-651: one atomic step; `none`: not enabled. -/
def step (s : State) : Action → Option State
  | .tick => some { s with now := s.now + 1 }
  | .send m => some { s with buf := s.buf ++ [m] }
  | .setWrite => if s.writer = .start then some { s with writer := .waiting (s.now + s.timeout) } else none
  | .take => match s.writer with
    | .waiting d => if s.buf = [] then none else some { s with writer := .writing d s.buf, buf := [] }
    | _ => none
  | .flush => match s.writer with
    | .writing d b =>
      if s.expired d then some { s with writer := .ended, log := s.log ++ [(s.now, .writeTimeout b)] }
      else some { s with writer := .start, log := s.log ++ [(s.now, .flushed b)] }
    | _ => none
  | .setRead => if s.reader = .start then some { s with reader := .reading (s.now + s.timeout) } else none
  | .recv m => match s.reader with
    | .reading _ => some { s with reader := .handling, log := s.log ++ [(s.now, .received m)] }
    | _ => none
  | .expire => match s.reader with
    | .reading d => if s.expired d then some { s with reader := .ended, log := s.log ++ [(s.now, .readTimeout)] } else none
    | _ => none
  | .handled => if s.reader = .handling then some { s with reader := .start } else none

/-- Not in the code: the states that any finite schedule can lead to, for the theorems. -/
abbrev Reachable (timeout : Nat) (s : State) : Prop := ReachFrom step (State.new timeout) s

end Noise.Idle
