import Verif.Proofs.ClientFifo
import Verif.Proofs.ClientReq
import Mathlib.Data.List.Induction
/-! # Client: events and the steps that cause them; termination measures -/
set_option linter.unusedSimpArgs false
namespace Noise.Cl
open Spec
variable {ε : Type}

theorem log_step_one {s s' : State ε} {a : Action ε} (hs : step s a = some s') : s'.log = s.log ∨ ∃ e, s'.log = s.log ++ [e] := by
  cl_cases a hs
  all_goals first
    | exact Or.inl rfl
    | exact Or.inr ⟨_, rfl⟩

/-- Every event of the log was caused by one step from a reachable state. -/
theorem log_event {side : Side} {s : State ε} (h : Reachable side s) {P Q : List (Event ε)} {e : Event ε} (hl : s.log = P ++ e :: Q) :
    ∃ s1 a s2 as, Reachable side s1 ∧ step s1 a = some s2 ∧ s1.log = P ∧ s2.log = P ++ [e] ∧ run s2 as = some s := by
  obtain ⟨as, h⟩ := h
  induction as using List.reverseRecOn generalizing s Q with
  | nil => simp only [run, Option.some.injEq] at h; subst h; simp [State.new] at hl
  | append_singleton as a ih =>
    rw [run_append] at h
    cases hr : run (State.new side) as with
    | none => rw [hr] at h; cases h
    | some s1 =>
      rw [hr] at h
      simp only [Option.bind_some, run] at h
      cases hst : step s1 a with
      | none => rw [hst] at h; cases h
      | some s2 =>
        rw [hst] at h
        injection h with h
        subst h
        have old : ∀ {Q}, s1.log = P ++ e :: Q →
            ∃ s0 b s3 bs, Reachable side s0 ∧ step s0 b = some s3 ∧ s0.log = P ∧ s3.log = P ++ [e] ∧ run s3 bs = some s2 := by
          intro Q hq
          obtain ⟨s0, b, s3, bs, k1, k2, k3, k4, k5⟩ := ih hq hr
          exact ⟨s0, b, s3, bs ++ [a], k1, k2, k3, k4, by rw [run_append, k5]; simp [run, hst]⟩
        rcases log_step_one hst with hl' | ⟨x, hl'⟩
        · exact old (hl' ▸ hl)
        · rcases List.eq_nil_or_concat Q with rfl | ⟨Q', y, rfl⟩
          · have := List.append_inj' (hl'.symm.trans hl) rfl
            obtain ⟨k1, k2⟩ := this
            exact ⟨s1, a, s2, [], ⟨as, hr⟩, hst, k1, by rw [hl', k1, k2], rfl⟩
          · have hx : s1.log ++ [x] = (P ++ e :: Q') ++ [y] := by rw [← hl', hl]; simp
            exact old (List.append_inj' hx rfl).1

theorem Reachable.trans {side : Side} {s s' : State ε} (h : Reachable side s) {as : List (Action ε)} (hr : run s as = some s') : Reachable side s' := by
  obtain ⟨bs, hb⟩ := h
  exact ⟨bs ++ as, by rw [run_append, hb]; exact hr⟩

theorem Reachable.step {side : Side} {s s' : State ε} (h : Reachable side s) {a : Action ε} (hs : step s a = some s') : Reachable side s' :=
  h.trans (as := [a]) (by simp [run, hs])

theorem log_run {s s' : State ε} {as : List (Action ε)} (h : run s as = some s') : ∃ l, s'.log = s.log ++ l :=
  run_inv (P := fun x => ∃ l, x.log = s.log ++ l) (fun x a x' hx hs => by
    obtain ⟨l, hl⟩ := hx
    obtain ⟨l', hl'⟩ := log_step hs
    exact ⟨l ++ l', by rw [hl', hl, List.append_assoc]⟩) h ⟨[], by simp⟩

/-- Only an unclaimed message is sent on to the handlers. -/
theorem processed_false_step {s s' : State ε} {a : Action ε} {m : Message} (hs : step s a = some s') (hl : s'.log = s.log ++ [.processed m false]) :
    s.reqs.entries m.nonce = none := by
  cl_cases a hs
  all_goals first
    | (rename_i hf
       simp only [List.append_cancel_left_eq, List.cons.injEq, and_true, Event.processed.injEq] at hl
       rw [← hl]
       exact (findRequest_none hf).1)
    | (exfalso; simp [State.closeReady, State.closeReaderDone, State.closeWriterDone, State.closeClientDone, State.report, State.send, State.setCall] at hl)

/-- Only the step onto the work queue is logged as a delivery. -/
theorem delivered_step {s s' : State ε} {a : Action ε} {m : Message} {x : Option ID} {b : Bool} (hs : step s a = some s')
    (hl : s'.log = s.log ++ [.delivered m x b]) : s'.main = .recvCb := by
  cl_cases a hs
  all_goals first
    | rfl
    | (exfalso; simp [State.closeReady, State.closeReaderDone, State.closeWriterDone, State.closeClientDone, State.report, State.send, State.setCall] at hl)

/-- C25's positive half. -/
theorem unclaimed_answered {side : Side} {s : State ε} (h : Reachable side s) :
    ∀ (k : Nat) (l1 l2 l3 : List (Event ε)) (i : Nat) (m : Message), l2.length = k →
      s.log = l1 ++ .registered i m.nonce :: (l2 ++ .processed m false :: l3) → ∃ m', .processed m' true ∈ l2 ∧ m'.nonce = m.nonce := by
  intro k
  induction k using Nat.strongRecOn with
  | _ k ih =>
    intro l1 l2 l3 i m hk hl
    obtain ⟨s1, a, s2, as, r1, st, e1, e2, _⟩ := log_event h (P := l1 ++ .registered i m.nonce :: l2) (Q := l3) (e := .processed m false) (by rw [hl]; simp)
    have hn := processed_false_step st (by rw [e2, e1])
    have hw : ¬ Waiting s1.log m.nonce i := by
      rw [← (ReqsOK.reach r1).entIff, hn]; simp
    rw [e1] at hw
    have : ∃ m' b, .processed m' b ∈ l2 ∧ m'.nonce = m.nonce := by
      apply Classical.byContradiction
      intro hno
      exact hw ⟨l1, l2, rfl, fun m' b hm hne => hno ⟨m', b, hm, hne⟩⟩
    obtain ⟨m', b, hm, hne⟩ := this
    cases b with
    | true => exact ⟨m', hm, hne⟩
    | false =>
      obtain ⟨x, y, hxy⟩ := List.append_of_mem hm
      obtain ⟨m'', k1, k2⟩ := ih x.length (by rw [← hk, hxy]; simp) l1 x (y ++ .processed m false :: l3) i m' rfl (by rw [hl, hxy, hne]; simp)
      exact ⟨m'', by rw [hxy]; simp [k1], k2.trans hne⟩

/-! ### Termination of the main goroutine once the connection is closed -/

/-- How far the main goroutine is from its end. -/
def MainPc.rank : MainPc → Nat
  | .finished => 0
  | .done => 1
  | .remove => 2
  | .disc => 3
  | .closing _ => 4
  | .recvEnd => 5
  | .recv => 6
  | .recvCb => 7
  | .delivering _ => 8
  | .routing _ => 9
  | .afterHs => 7
  | .hsEnd => 8
  | .hsVerified => 9
  | .hs => 10
  | .dialErr3 => 3
  | .dialErr2 => 4
  | .dialErr1 => 5
  | .dialing => 11
  | .init => 12

/-- Actions of the main goroutine. -/
def Action.isMain : Action ε → Bool
  | .main | .dialOK | .dialFail _ | .hsKey | .hsFail _ | .hsOK _ | .readMsg _ | .readFail _ | .deliver => true
  | _ => false

/-- Actions of the writer goroutine. -/
def Action.isWriter : Action ε → Bool
  | .writer | .writerFail _ => true
  | _ => false

def State.mainLeft (s : State ε) : Nat := 4 * s.rbuf + s.main.rank

theorem mainLeft_step {s s' : State ε} {a : Action ε} (hc : s.conn = .closed) (hi : ConnInv s) (hs : step s a = some s') :
    s'.conn = .closed ∧ (if a.isMain then 1 else 0) + s'.mainLeft ≤ s.mainLeft := by
  have h1 := hi.pre
  have h6 := hi.once hc
  cl_cases a hs
  all_goals (simp_all [State.closeReady, State.closeReaderDone, State.closeWriterDone, State.closeClientDone, State.report, State.send,
    State.setCall, State.mainLeft, MainPc.rank, Action.isMain, MainPc.preConn])
  all_goals try omega

theorem mainLeft_run {s s' : State ε} {as : List (Action ε)} (hc : s.conn = .closed) (hi : ConnInv s) (h : run s as = some s') :
    s'.conn = .closed ∧ as.countP (·.isMain) + s'.mainLeft ≤ s.mainLeft := by
  induction as generalizing s with
  | nil => simp only [run, Option.some.injEq] at h; subst h; simp [hc]
  | cons a as ih =>
    simp only [run] at h
    cases hst : Cl.step s a with
    | none => rw [hst] at h; cases h
    | some s1 =>
      rw [hst] at h
      obtain ⟨k1, k2⟩ := mainLeft_step hc hi hst
      obtain ⟨k3, k4⟩ := ih k1 (hi.step hst) h
      refine ⟨k3, ?_⟩
      rw [List.countP_cons]
      omega

/-! ### Termination of the writer after the client is done -/

/-- How far the writer is from its end, once `clientDone` is closed. -/
def WriterPc.rank : WriterPc → Nat
  | .notStarted | .ended => 0
  | .ending => 1
  | .wait => 2
  | .check => 2
  | .cb => 3
  | .batch l => l.length + 4

theorem writerLeft_step {s s' : State ε} {a : Action ε} (hl : Life s) (hc : s.clientDone = true) (hw : s.writer ≠ .notStarted → s.writerClosed = true)
    (hs : step s a = some s') :
    s'.clientDone = true ∧ (s'.writer ≠ .notStarted → s'.writerClosed = true) ∧ (if a.isWriter then 1 else 0) + s'.writer.rank ≤ s.writer.rank := by
  have h1 := hl.client.1 hc
  cl_cases a hs
  all_goals (simp_all [State.closeReady, State.closeReaderDone, State.closeWriterDone, State.closeClientDone, State.report, State.send,
    State.setCall, WriterPc.rank, Action.isWriter])
  all_goals omega

theorem writerLeft_run {s s' : State ε} {as : List (Action ε)} (hl : Life s) (hc : s.clientDone = true) (hw : s.writer ≠ .notStarted → s.writerClosed = true)
    (h : run s as = some s') : as.countP (·.isWriter) + s'.writer.rank ≤ s.writer.rank := by
  induction as generalizing s with
  | nil => simp only [run, Option.some.injEq] at h; subst h; simp
  | cons a as ih =>
    simp only [run] at h
    cases hst : Cl.step s a with
    | none => rw [hst] at h; cases h
    | some s1 =>
      rw [hst] at h
      obtain ⟨k1, k2, k3⟩ := writerLeft_step hl hc hw hst
      have := ih (hl.step hst) k1 k2 h
      rw [List.countP_cons]
      omega

end Noise.Cl
