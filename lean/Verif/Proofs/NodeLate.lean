import Verif.Proofs.NodeTrace
import Verif.Proofs.ClientTrace
/-! # The whole node: a connection that is closed before it exists -/
namespace Noise
variable {ε : Type}
namespace Cl

/-- An inbound client that has not set its connection has not done anything. -/
structure Unset (c : State ε) : Prop where
  init : c.side = .inbound → c.conn = .none → c.main = .init
  fresh : c.main = .init → c.err = none ∧ c.writer = .notStarted ∧ c.hasDelivered = false

theorem Unset.reach {side : Side} {s : State ε} (h : Reachable side s) : Unset s := by
  refine reach_inv (P := fun s => Unset s) ⟨fun _ _ => rfl, fun _ => ⟨rfl, rfl, rfl⟩⟩ ?_ h
  intro s a s' ⟨h1, h2⟩ hs
  cl_cases a hs
  all_goals (constructor <;> grind [State.closeReady, State.closeReaderDone, State.closeWriterDone, State.closeClientDone, State.report, State.send, State.setCall, State.hasDelivered])

/-- The main goroutine has not finished its handshake. -/
def MainPc.unserved : MainPc → Bool
  | .init | .hs | .hsVerified | .hsEnd | .afterHs => true
  | _ => false

/-- The main goroutine has no reason to end. -/
def MainPc.serves : MainPc → Bool
  | .init | .hs | .hsVerified | .hsEnd | .afterHs | .recv | .routing _ | .delivering _ | .recvCb => true
  | _ => false

/-- `close()` has been called and has returned, but the connection is open, or will be. -/
structure Late (c : State ε) : Prop where
  side : c.side = .inbound
  once : c.once = .done
  conn : c.conn ≠ .closed
  main : c.main.serves = true
  early : c.main.unserved = true → c.err = none ∧ c.writer = .notStarted ∧ c.hasDelivered = false
  done : c.clientDone = false

theorem Late.step {c c' : State ε} {a : Action ε} (h : Late c) (ha : ∀ e, a ≠ .hsFail e ∧ a ≠ .readFail e) (hs : step c a = some c') : Late c' := by
  obtain ⟨h1, h2, h3, h4, h5, h6⟩ := h
  cl_cases a hs
  all_goals (constructor <;> grind [State.closeReady, State.closeReaderDone, State.closeWriterDone, State.closeClientDone, State.report, State.send, State.setCall, State.hasDelivered, MainPc.unserved, MainPc.serves])

end Cl
end Noise
