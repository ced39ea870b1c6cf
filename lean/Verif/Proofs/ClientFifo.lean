import Verif.Proofs.Client
/-! # Client: order of messages, first error -/
namespace Noise.Cl
open Spec
variable {ε : Type}

/-! ### First-in first-out -/

/-- Messages taken from the queue but not yet written. -/
def WriterPc.pending : WriterPc → List Message
  | .batch l => l
  | _ => []

/-- The writer has given up its queue. -/
def WriterPc.stopped : WriterPc → Bool
  | .ending | .ended => true
  | _ => false

structure Fifo (s : State ε) : Prop where
  exact : s.writer.stopped = false → submittedOf s.log = wroteOf s.log ++ s.writer.pending ++ s.writerBuf
  pre : wroteOf s.log <+: submittedOf s.log

theorem Fifo.new (side : Side) : Fifo (State.new (ε := ε) side) := by
  constructor <;> simp [State.new, submittedOf, wroteOf, WriterPc.pending]

theorem Fifo.step {s s' : State ε} {a : Action ε} (h : Fifo s) (hc : ConnInv s) (hs : step s a = some s') : Fifo s' := by
  obtain ⟨h1, h2⟩ := h
  have hc4 := hc.early
  cl_cases a hs
  all_goals (constructor <;> simp_all [State.closeReady, State.closeReaderDone, State.closeWriterDone, State.closeClientDone, State.report, State.send,
    State.setCall, submittedOf, wroteOf, WriterPc.pending, WriterPc.stopped, MainPc.noWriter])
  all_goals exact h2.trans (List.prefix_append _ _)

theorem Fifo.reach {side : Side} {s : State ε} (h : Reachable side s) : Fifo s :=
  (reach_inv (P := fun s => ConnInv s ∧ Fifo s) ⟨ConnInv.new side, Fifo.new side⟩ (fun _ _ _ h hs => ⟨h.1.step hs, h.2.step h.1 hs⟩) h).2

/-! ### The first error -/

theorem err_step {s s' : State ε} {a : Action ε} (h : s.err = (reportedOf s.log).head?) (hs : step s a = some s') :
    s'.err = (reportedOf s'.log).head? := by
  cl_cases a hs
  all_goals simp [State.closeReady, State.closeReaderDone, State.closeWriterDone, State.closeClientDone, State.report, State.send,
    State.setCall, reportedOf] at h ⊢
  all_goals first
    | exact h
    | (rw [← h]; cases s.err <;> rfl)

theorem err_reach {side : Side} {s : State ε} (h : Reachable side s) : s.err = (reportedOf s.log).head? :=
  reach_inv (P := fun s => s.err = (reportedOf s.log).head?) rfl (fun _ _ _ => err_step) h

/-! ### Callbacks, identity and deliveries -/

/-- The handshake has not been completed when the main goroutine is here. -/
def MainPc.preHs : MainPc → Bool
  | .init | .dialing | .dialErr1 | .dialErr2 | .dialErr3 | .hs => true
  | _ => false

/-- In `recvLoop` or between it and the deferred calls. -/
def MainPc.inLoop : MainPc → Bool
  | .recv | .routing _ | .delivering _ | .recvCb | .recvEnd | .disc => true
  | .closing b => b
  | _ => false

/-- The handshake or the dial may still succeed. -/
def MainPc.undecided : MainPc → Bool
  | .init | .dialing | .hs | .hsVerified => true
  | _ => false

structure CbInv (s : State ε) : Prop where
  suite : s.id.isSome → s.suite = true
  verified : s.main = .hsVerified → s.id.isSome
  preHs : s.main.preHs = true → s.id = none
  err : s.main.undecided = false → s.id.isSome = false → s.err.isSome = true
  inb : s.side = .inbound → s.main.inLoop = true → s.id.isSome
  conn : connectedOf s.log = if s.main.preHs = true ∨ s.main = .hsVerified then [] else if s.id.isSome then [s.id] else []
  disc0 : s.main.deferred = false → disconnects s.log = 0
  disc1 : disconnects s.log ≤ 1
  discIn : s.side = .inbound → 0 < disconnects s.log → s.id.isSome
  deliv : ∀ m x b, .delivered m x b ∈ s.log → x = s.id ∧ b = s.suite ∧ s.main.noWriter = false ∧ (s.side = .inbound → s.id.isSome)

theorem CbInv.new (side : Side) : CbInv (State.new (ε := ε) side) := by
  constructor <;> simp [State.new, MainPc.preHs, MainPc.undecided, MainPc.inLoop, disconnects, connectedOf]

set_option linter.unusedSimpArgs false in
set_option maxHeartbeats 2000000 in
theorem CbInv.step {s s' : State ε} {a : Action ε} (h : CbInv s) (hs : step s a = some s') : CbInv s' := by
  obtain ⟨h1, h2, h3, h4, h5, h6, h7, h8, h9, h10⟩ := h
  cl_cases a hs
  all_goals (constructor <;> simp only [State.closeReady, State.closeReaderDone, State.closeWriterDone, State.closeClientDone, State.report, State.send,
    State.setCall, connectedOf_append, disconnects_append, List.mem_append] <;>
    grind [MainPc.preHs, MainPc.undecided, MainPc.inLoop, MainPc.deferred, MainPc.noWriter, connectedOf, disconnects])

theorem CbInv.reach {side : Side} {s : State ε} (h : Reachable side s) : CbInv s := reach_inv (CbInv.new side) (fun _ _ _ => CbInv.step) h

/-! ### Deliveries are exactly the messages not claimed by a request -/

/-- The message on its way to the work queue. -/
def MainPc.inFlight : MainPc → List Message
  | .delivering m => [m]
  | _ => []

theorem handlers_step {s s' : State ε} {a : Action ε} (h : toHandlersOf s.log = deliveredOf s.log ++ s.main.inFlight)
    (hs : step s a = some s') : toHandlersOf s'.log = deliveredOf s'.log ++ s'.main.inFlight := by
  cl_cases a hs
  all_goals simp_all [State.closeReady, State.closeReaderDone, State.closeWriterDone, State.closeClientDone, State.report, State.send,
    State.setCall, toHandlersOf, deliveredOf, MainPc.inFlight]

theorem handlers_reach {side : Side} {s : State ε} (h : Reachable side s) : toHandlersOf s.log = deliveredOf s.log ++ s.main.inFlight :=
  reach_inv (P := fun s => toHandlersOf s.log = deliveredOf s.log ++ s.main.inFlight) rfl (fun _ _ _ => handlers_step) h

end Noise.Cl
