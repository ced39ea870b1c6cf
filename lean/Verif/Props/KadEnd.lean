import Verif.Proofs.KadEnd
import Verif.Props.KadKeep
/-! # Property C111: calls of Ack return -/
namespace Noise
open Kad

/-- A call of `Ack` begins (protocol.go:82). -/
def isAck : Kad.Action → Bool | .ack _ => true | _ => false
/-- A call of `OnPingFailed` begins (protocol.go:193). -/
def isFailedDial : Kad.Action → Bool | .pingFailed _ => true | _ => false
/-- The application calls a method of `Table()`. -/
def isTableOp : Kad.Action → Bool | .table _ => true | _ => false

theorem KadEnd.measure_run {s s' : Kad.State} {as : List Kad.Action} (hr : runs Kad.step s as = some s') (hi : s.table.Inv) (k f u : Nat) :
    measure k f u s' + as.length ≤ measure (as.countP isAck + k) (as.countP isFailedDial + f) (as.countP isTableOp + u) s := by
  induction as generalizing s with
  | nil => cases hr; simp
  | cons a as ih =>
    rw [runs] at hr
    cases hst : Kad.step s a with
    | none => rw [hst] at hr; cases hr
    | some s1 =>
      rw [hst] at hr
      have h1 : s1.table.Inv := Kad.run_inv (as := [a]) (by simp [runs, hst]) hi
      have h2 := ih hr h1
      have h3 := measure_step hi hst (as.countP isAck + k) (as.countP isFailedDial + f) (as.countP isTableOp + u)
      have e1 : (a :: as).countP isAck = acks a + as.countP isAck := by cases a <;> simp [isAck, acks, List.countP_cons] ; omega
      have e2 : (a :: as).countP isFailedDial = fails a + as.countP isFailedDial := by cases a <;> simp [isFailedDial, fails, List.countP_cons] ; omega
      have e3 : (a :: as).countP isTableOp = ops a + as.countP isTableOp := by cases a <;> simp [isTableOp, ops, List.countP_cons] ; omega
      rw [e1, e2, e3, List.length_cons, Nat.add_assoc (acks a), Nat.add_assoc (fails a), Nat.add_assoc (ops a)]
      omega

/-- **C111.** Let any number of `Ack`s and `OnPingFailed`s and calls of methods of the table run concurrently, in any interleaving, whatever comes of the pings. If there are `A` calls of `Ack`, `F` of `OnPingFailed` and `U` of methods
of the table, everything they do takes at most `A (6 (n + A + U) + 6) + 3 F + U + 1` steps, `n` being the number of peers in the table at the start. And unless the node has crashed (`C56_crash_refuted`), every call that has not returned can
make a step, or waits for the end of a ping and goes on whatever comes of it. So once pings end - they have a timeout - every call returns, and none of them can be kept retrying by the others. -/
theorem C111_ack_returns (self : ID) (t : Table) (ht : Table.Reachable self t) (as : List Kad.Action) (s : Kad.State) (hr : runs Kad.step (State.new t) as = some s) :
    as.length ≤ as.countP isAck * (6 * (t.all.length + as.countP isAck + as.countP isTableOp) + 6) + 3 * as.countP isFailedDial + as.countP isTableOp + 1 ∧
    (s.crashed = false → ∀ (i : Nat) th, s.threads[i]? = some th → th.pc ≠ .done →
      (∃ s', Kad.step s (.step i) = some s') ∨ ((∃ x, th.pc = .ping x) ∧ ∀ pong, ∃ s', Kad.step s (.pinged i pong) = some s')) := by
  constructor
  · have h := KadEnd.measure_run hr ht.inv.1 0 0 0
    simp only [KadEnd.measure, KadEnd.room, State.new, List.map_nil, List.sum_nil, Nat.add_zero, Nat.zero_add, KadEnd.alive] at h
    simp only [Bool.false_eq_true, if_false] at h
    omega
  · intro hc i th hi hd
    obtain ⟨id, pc⟩ := th
    cases pc with
    | ping x => exact .inr ⟨⟨x, rfl⟩, fun pong => by simp [Kad.step, hc, hi]⟩
    | done => exact absurd rfl hd
    | _ =>
      left
      simp only [Kad.step, hc, hi, threadStep, Bool.false_eq_true, if_false]
      try split
      all_goals exact ⟨_, rfl⟩

def endView (s : Kad.State) : Bool × Option Pc := (s.crashed, (s.threads[16]?).map Thread.pc)

/-- Seventeen concurrent calls, of which the last finds a full bucket, whose last peer fails to answer; it removes the peer and is about to try again. The theorem bounds its run and says that it can go on. -/
example : let as := exFill ++ [.ack (exPeer 16), .step 16, .step 16, .pinged 16 false, .step 16, .step 16]
    ∃ s, runs Kad.step (State.new exFresh) as = some s ∧ s.crashed = false ∧ (s.threads[16]?).map Thread.pc = some .update ∧ ∃ s', Kad.step s (.step 16) = some s' := by
  obtain ⟨s, h1, h2⟩ := run_of_view (s := State.new exFresh) (as := exFill ++ [.ack (exPeer 16), .step 16, .step 16, .pinged 16 false, .step 16, .step 16]) (f := endView)
    (v := (false, some .update)) (by decide +kernel)
  simp only [endView, Prod.mk.injEq, Option.map_eq_some_iff] at h2
  obtain ⟨hc, th, hth, hpc⟩ := h2
  refine ⟨s, h1, hc, by rw [hth]; simp [hpc], ?_⟩
  rcases (C111_ack_returns exSelf exFresh exFresh_reachable _ s h1).2 hc 16 th hth (by rw [hpc]; simp) with h | ⟨⟨x, hx⟩, _⟩
  · exact h
  · rw [hpc] at hx; cases hx

end Noise
