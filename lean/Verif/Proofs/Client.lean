import Verif.Spec.Connection
import Mathlib.Tactic.SplitIfs
/-! # Invariants of the client transition system -/
namespace Noise.Cl
open Spec
variable {ε : Type}

theorem run_append (s : State ε) (as bs : List (Action ε)) : run s (as ++ bs) = (run s as).bind (fun s' => run s' bs) := by
  induction as generalizing s with
  | nil => rfl
  | cons a as ih =>
    simp only [List.cons_append, run]
    cases step s a with
    | none => rfl
    | some s' => exact ih s'

/-- Invariants hold along runs. -/
theorem run_inv {P : State ε → Prop} (hs : ∀ s a s', P s → step s a = some s' → P s') {s s' : State ε} {as : List (Action ε)}
    (h : run s as = some s') (h0 : P s) : P s' := by
  induction as generalizing s with
  | nil => simp only [run, Option.some.injEq] at h; exact h ▸ h0
  | cons a as ih =>
    simp only [run] at h
    cases hst : step s a with
    | none => rw [hst] at h; cases h
    | some s1 => rw [hst] at h; exact ih h (hs _ _ _ h0 hst)

theorem reach_inv {P : State ε → Prop} {side : Side} (h0 : P (State.new side)) (hs : ∀ s a s', P s → step s a = some s' → P s') {s : State ε}
    (h : Reachable side s) : P s := by
  obtain ⟨as, h⟩ := h
  exact run_inv hs h h0

/-- Split an enabled action into the branches of the code that can produce it, and substitute the new state. -/
macro "cl_cases " a:ident hs:ident : tactic => `(tactic| (
  cases $a:ident <;> simp only [Cl.step, State.mainStep, State.writerStep, State.closeBegin, State.closeConn, State.route] at $hs:ident <;>
  (repeat' (split at $hs:ident)) <;> (try (cases $hs:ident; done)) <;> (try (injection $hs:ident with $hs:ident; subst $hs:ident))))

/-- `ready` has been closed when the main goroutine is here. -/
def MainPc.isReady : MainPc → Bool
  | .init | .dialing | .dialErr1 | .hs | .hsVerified | .hsEnd => false
  | _ => true

/-- `readerDone` has not been closed when the main goroutine is here. -/
def MainPc.readerOpen : MainPc → Bool
  | .closing true | .disc | .remove | .done | .finished => false
  | _ => true

/-- The writer has not been started when the main goroutine is here. -/
def MainPc.noWriter : MainPc → Bool
  | .init | .dialing | .dialErr1 | .dialErr2 | .hs | .hsVerified | .hsEnd | .afterHs => true
  | _ => false

/-- The writer goroutine exists and has not closed `writerDone`. -/
def WriterPc.active : WriterPc → Bool
  | .notStarted | .ended => false
  | _ => true

structure Life (s : State ε) : Prop where
  crashed : s.crashed = false
  ready : s.ready = s.main.isReady
  client : s.clientDone = true ↔ s.main = .finished
  reader : s.main.readerOpen = true → s.readerDone = false
  noWriter : s.main.noWriter = true → s.writer = .notStarted ∧ s.writerDone = false
  active : s.writer.active = true → s.writerDone = false
  pool : s.main = .done ∨ s.main = .finished → s.inPool = false

theorem Life.new (side : Side) : Life (State.new (ε := ε) side) := by
  constructor <;> simp [State.new, MainPc.isReady, WriterPc.active]

theorem Life.step {s s' : State ε} {a : Action ε} (h : Life s) (hs : step s a = some s') : Life s' := by
  obtain ⟨h1, h2, h3, h4, h5, h6, h7⟩ := h
  cl_cases a hs
  all_goals (constructor <;> grind [State.closeReady, State.closeReaderDone, State.closeWriterDone, State.closeClientDone, MainPc.isReady, MainPc.readerOpen,
      MainPc.noWriter, WriterPc.active, State.report, State.send, State.setCall])

theorem Life.reach {side : Side} {s : State ε} (h : Reachable side s) : Life s := reach_inv (Life.new side) (fun _ _ _ => Life.step) h

/-- Runs restricted to some actions. -/
theorem run_inv' {P : State ε → Prop} {Q : Action ε → Prop} (hs : ∀ s a s', P s → Q a → step s a = some s' → P s') {s s' : State ε}
    {as : List (Action ε)} (hQ : ∀ a ∈ as, Q a) (h : run s as = some s') (h0 : P s) : P s' := by
  induction as generalizing s with
  | nil => simp only [run, Option.some.injEq] at h; exact h ▸ h0
  | cons a as ih =>
    simp only [run] at h
    cases hst : step s a with
    | none => rw [hst] at h; cases h
    | some s1 => rw [hst] at h; exact ih (fun b hb => hQ b (by simp [hb])) h (hs _ _ _ h0 (hQ a (by simp)) hst)

/-! ### The event log only grows -/

theorem log_step {s s' : State ε} {a : Action ε} (hs : step s a = some s') : ∃ l, s'.log = s.log ++ l := by
  cl_cases a hs
  all_goals first
    | (refine ⟨[], ?_⟩; exact (List.append_nil _).symm)
    | exact ⟨_, rfl⟩

theorem side_step {s s' : State ε} {a : Action ε} (hs : step s a = some s') : s'.side = s.side := by
  cl_cases a hs
  all_goals rfl

theorem side_reach {side : Side} {s : State ε} (h : Reachable side s) : s.side = side :=
  reach_inv (P := fun s => s.side = side) rfl (fun _ _ _ h0 hs => (side_step hs).trans h0) h

/-! ### Connection and `close` -/

/-- The connection is not set up yet (or never will be). -/
def MainPc.preConn : MainPc → Bool
  | .init | .dialing | .dialErr1 | .dialErr2 | .dialErr3 => true
  | _ => false

/-- The deferred part of `outbound`/`inbound`. -/
def MainPc.deferred : MainPc → Bool
  | .remove | .done | .finished => true
  | _ => false

structure ConnInv (s : State ε) : Prop where
  pre : s.main.preConn = true → s.conn = .none
  post : s.main.preConn = false → s.main.deferred = false → s.conn ≠ .none
  writer : s.writer ≠ .notStarted → s.conn ≠ .none
  early : s.main.noWriter = true → s.writer = .notStarted
  closed : s.writerClosed = true ↔ s.once ≠ .fresh
  once : s.conn = .closed → s.once = .done
  disc : s.main = .disc → s.once = .done
  deferred : s.main.deferred = true → s.conn ≠ .none → s.once = .done
  dial : s.side = .inbound → s.main.preConn = true → s.main = .init

theorem ConnInv.new (side : Side) : ConnInv (State.new (ε := ε) side) := by
  constructor <;> simp [State.new, MainPc.preConn, MainPc.deferred]

theorem ConnInv.step {s s' : State ε} {a : Action ε} (h : ConnInv s) (hs : step s a = some s') : ConnInv s' := by
  obtain ⟨h1, h2, h3, h4, h5, h6, h7, h8, h9⟩ := h
  cl_cases a hs
  all_goals (constructor <;> grind [State.closeReady, State.closeReaderDone, State.closeWriterDone, State.closeClientDone, MainPc.preConn,
      MainPc.deferred, MainPc.noWriter, State.report, State.send, State.setCall])

theorem ConnInv.reach {side : Side} {s : State ε} (h : Reachable side s) : ConnInv s := reach_inv (ConnInv.new side) (fun _ _ _ => ConnInv.step) h

/-! ### Projections of the log -/

@[simp] theorem submittedOf_append (l l' : List (Event ε)) : submittedOf (l ++ l') = submittedOf l ++ submittedOf l' := List.filterMap_append ..
@[simp] theorem wroteOf_append (l l' : List (Event ε)) : wroteOf (l ++ l') = wroteOf l ++ wroteOf l' := List.filterMap_append ..
@[simp] theorem reportedOf_append (l l' : List (Event ε)) : reportedOf (l ++ l') = reportedOf l ++ reportedOf l' := List.filterMap_append ..
@[simp] theorem toHandlersOf_append (l l' : List (Event ε)) : toHandlersOf (l ++ l') = toHandlersOf l ++ toHandlersOf l' := List.filterMap_append ..
@[simp] theorem deliveredOf_append (l l' : List (Event ε)) : deliveredOf (l ++ l') = deliveredOf l ++ deliveredOf l' := List.filterMap_append ..
@[simp] theorem connectedOf_append (l l' : List (Event ε)) : connectedOf (l ++ l') = connectedOf l ++ connectedOf l' := List.filterMap_append ..
@[simp] theorem disconnects_append (l l' : List (Event ε)) : disconnects (l ++ l') = disconnects l + disconnects l' := List.countP_append ..

end Noise.Cl
