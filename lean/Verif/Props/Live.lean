import Verif.Proofs.LiveCall
import Verif.Props.Link
/-! # Properties C94-C95: what is sent is eventually handled, and a request eventually returns -/
namespace Noise
open Spec
variable {ε : Type}

/-! ## C94 -/

/-- C94: in every infinite execution of two connected nodes in which nothing fails or is closed, handlers return and return no errors, and every goroutine that can run does (`Link.FairRun`): every message that A's
callers submit, at any time, is eventually put on B's queue exactly at its turn (`p` messages of this connection before it), taken by a worker, and given to each of B's handlers in order, once. -/
theorem C94_sent_is_handled (N H : Nat) (hN : 0 < N) (σ : Nat → Link.State ε) (α : Nat → Option (Link.Action ε)) (r : Link.FairRun N H σ α)
    (t p : Nat) (m : Message) (hm : (submittedOf (σ t).a.log)[p]? = some m) :
    ∃ t' k w : Nat, (σ t').w.items[k]? = some ⟨0, m⟩ ∧ (((σ t').w.items.take k).filter fun it => it.client = 0).length = p ∧
      handlingOf k (σ t').w.log = handledUpTo w k H := by
  obtain ⟨t', k, i, h1, h2, h3, _⟩ := (r.toParts hN).handled hN hm (fun _ _ _ => True) (fun _ _ _ _ => trivial) (fun _ _ _ _ _ _ _ => trivial)
  exact ⟨t', k, i, h1, h2, h3⟩

/-! ### A concrete fair execution: A makes a request, B's handler answers it and returns, and then nothing happens any more -/

/-- The execution that does this list of actions and then nothing. -/
def atTime (s : Link.State ε) (as : List (Link.Action ε)) (t : Nat) : Link.State ε := (runs Link.step s (as.take t)).getD s

theorem atTime_exec {s s' : Link.State ε} {as : List (Link.Action ε)} (h : runs Link.step s as = some s') :
    Execution Link.step (atTime s as) (fun t => as[t]?) ∧ ∀ t, as.length ≤ t → atTime s as t = s' := by
  refine ⟨?_, ?_⟩
  · intro t
    by_cases ht : t < as.length
    · right
      refine ⟨as[t], List.getElem?_eq_getElem ht, ?_⟩
      have e : as = as.take t ++ as[t] :: as.drop (t + 1) := by rw [List.getElem_cons_drop, List.take_append_drop]
      rw [e, runs_append] at h
      cases h1 : runs Link.step s (as.take t) with
      | none => rw [h1] at h; cases h
      | some x =>
        rw [h1, Option.bind_some] at h
        have h2 : ∃ y, Link.step x as[t] = some y := by
          cases h3 : Link.step x as[t] with
          | none => simp [runs, h3] at h
          | some y => exact ⟨y, rfl⟩
        obtain ⟨y, h2⟩ := h2
        unfold atTime
        have h3 : runs Link.step s (as.take (t + 1)) = some y := by
          rw [List.take_succ_eq_append_getElem ht, runs_append, h1, Option.bind_some]
          simp [runs, h2]
        rw [h1, h3]
        exact h2
    · left
      refine ⟨List.getElem?_eq_none (by omega), ?_⟩
      unfold atTime
      rw [List.take_of_length_le (by omega), List.take_of_length_le (by omega)]
  · intro t ht
    unfold atTime
    rw [List.take_of_length_le ht, h]; rfl

/-- A client in which nothing can go on by itself. -/
structure AtRest (c : Cl.State ε) : Prop where
  main : c.main = .recv
  rbuf : c.rbuf = 0
  writer : c.writer = .wait
  open' : c.writerClosed = false
  buf : c.writerBuf = []

theorem AtRest.noMain {c : Cl.State ε} (q : AtRest c) {act : Cl.Action ε} (h : act.ofMain = true ∨ act = .deliver) : Cl.step c act = none := by
  rcases h with h | rfl
  · cases act <;> first | (cases h; done) | simp [Cl.step, Cl.State.mainStep, q.main, q.rbuf]
  · simp [Cl.step, q.main]

theorem AtRest.noWriter {c : Cl.State ε} (q : AtRest c) : Cl.step c .writer = none := by simp [Cl.step, Cl.State.writerStep, q.writer, q.open', q.buf]

theorem stepA_none {s : Link.State ε} {act : Cl.Action ε} (h : Cl.step s.a act = none) : Link.step s (.a act) = none := by
  cases act <;> simp only [Link.step, Link.stepA, h, Option.map_none] <;> split <;> rfl

theorem stepB_none {s : Link.State ε} {act : Cl.Action ε} (h : Cl.step s.b act = none) : Link.step s (.b act) = none := by
  cases act <;> simp only [Link.step, Link.stepB, h, Option.map_none, Option.bind_none] <;> split <;> rfl

/-- If a run from the start ends where nothing can go on by itself, then resting there is fair. -/
theorem fair_of_quiet {N H : Nat} {s : Link.State ε} {as : List (Link.Action ε)} (h : runs Link.step (.new N H) as = some s) (hcalm : as.all Link.Action.calm = true)
    (qa : AtRest s.a) (qb : AtRest s.b) (hA : s.readA = (Link.wire s.b).length) (hB : s.readB = (Link.wire s.a).length)
    (hcalls : ∀ i : Nat, Cl.step s.a (.reqSend i) = none ∧ Cl.step s.a (.reqTake i) = none)
    (hwork : ∀ w : Nat, Wk.step s.w (.work w) = none ∧ Wk.step s.w (.handlerReturn w none) = none) :
    Link.FairRun N H (atTime (.new N H) as) (fun t => as[t]?) := by
  obtain ⟨he, hend⟩ := atTime_exec h
  have rest : ∀ (able : Link.State ε → Prop) (C : Link.Action ε → Prop), ¬ able s → WeaklyFair (atTime (.new N H) as) (fun t => as[t]?) able C := by
    intro able C hn t
    exact ⟨max t as.length, by omega, Or.inr (by rw [hend _ (by omega)]; exact hn)⟩
  refine ⟨he, rfl, ?_, ?_, ?_, ?_, ?_⟩
  · intro t a ha
    exact List.all_eq_true.1 hcalm a (List.mem_of_getElem? ha)
  · intro p
    apply rest
    rintro ⟨a, ⟨ha, _⟩, hs⟩
    cases p with
    | mainA => obtain ⟨act, rfl, h⟩ := ha; rw [stepA_none (qa.noMain h)] at hs; cases hs
    | writerA => rw [ha, stepA_none qa.noWriter] at hs; cases hs
    | call i =>
      rcases ha with rfl | rfl
      · rw [stepA_none (hcalls i).1] at hs; cases hs
      · rw [stepA_none (hcalls i).2] at hs; cases hs
    | mainB => obtain ⟨act, rfl, h⟩ := ha; rw [stepB_none (qb.noMain h)] at hs; cases hs
    | writerB => rw [ha, stepB_none qb.noWriter] at hs; cases hs
    | worker w =>
      rcases ha with rfl | rfl
      · simp only [Link.step, Link.stepW, (hwork w).1] at hs; cases hs
      · simp only [Link.step, Link.stepW, (hwork w).2] at hs; cases hs
  · apply rest
    rintro ⟨_, _, h | h⟩
    · rw [qa.main] at h; cases h
    · have := Link.wire_lt h; omega
  · apply rest
    rintro ⟨_, _, h | h⟩
    · rw [qb.main] at h; cases h
    · have := Link.wire_lt h; omega
  · intro hio
    obtain ⟨t, ht, a, rfl, hs⟩ := hio as.length
    rw [hend _ ht, stepB_none (qb.noMain (Or.inr rfl))] at hs; cases hs

/-- The request of `echo`, after which B's handler returns. -/
def echoEnd (idA idB : ID) (d r : Bytes) : List (Link.Action ε) := echo idA idB d r ++ [.w (.handlerReturn 0 none), .w (.work 0), .a .writer, .a .writer, .b .writer, .b .writer, .b .main]

theorem echo_fair (idA idB : ID) : Link.FairRun (ε := Nat) 1 1 (atTime (.new 1 1) (echoEnd idA idB [1] [2])) (fun t => (echoEnd idA idB [1] [2])[t]?) := by
  refine fair_of_quiet (s := _) rfl rfl ⟨rfl, rfl, rfl, rfl, rfl⟩ ⟨rfl, rfl, rfl, rfl, rfl⟩ rfl rfl ?_ ?_
  · intro i
    match i with
    | 0 => exact ⟨rfl, rfl⟩
    | i + 1 => exact ⟨rfl, rfl⟩
  · intro w
    match w with
    | 0 => exact ⟨rfl, rfl⟩
    | w + 1 => exact ⟨rfl, rfl⟩

/-- It meets the hypotheses of C94: the request has been submitted. -/
example (idA idB : ID) : ∃ (σ : Nat → Link.State Nat) (α : Nat → Option (Link.Action Nat)) (t : Nat), Link.FairRun 1 1 σ α ∧ (submittedOf (σ t).a.log)[0]? = some ⟨1, [1]⟩ :=
  ⟨_, _, 100, echo_fair idA idB, rfl⟩

/-! ## C95 -/

/-- C95: in every such execution in which one of B's handlers answers every request before it returns: every call of `Request` on the connection eventually returns a response, unless its own context ends. -/
theorem C95_request_returns (N H : Nat) (hN : 0 < N) (σ : Nat → Link.State ε) (α : Nat → Option (Link.Action ε)) (r : Link.FairRun N H σ α)
    (h0 : Nat) (hh : h0 < H) (hans : Link.Answers σ α h0)
    (t i : Nat) (c : Cl.Call) (hc : (σ t).a.calls[i]? = some c) (hreg : c.st = .registered) (hcan : ∀ t', α t' ≠ some (.a (.reqCancel i))) :
    ∃ t' m, t ≤ t' ∧ .returned i m ∈ (σ t').a.log := by
  obtain ⟨t', m, c', h1, h2, _⟩ := (r.toParts hN).request hN hh (by
    intro t w k it hg hw hit hcl hreq _
    refine hans t w k it ?_ hw hit hcl hreq
    unfold Link.actW at hg
    split at hg
    · injection hg with hg; subst hg; assumption
    · split at hg <;> cases hg
    · cases hg) hc hreg (r.call t i) (by
    intro x _ e
    unfold Link.actA at e
    split at e
    · injection e with e; subst e; exact hcan x ‹_›
    · cases e)
  exact ⟨t', m, h1, h2⟩

/-- A handler returns; a call is cancelled. -/
def isReturn : Link.Action ε → Bool
  | .w (.handlerReturn _ _) => true
  | _ => false
def isCancel : Link.Action ε → Bool
  | .a (.reqCancel _) => true
  | _ => false

/-- The execution above meets the hypotheses of C95: B's only handler answers before it returns, the call is registered at some time and never cancelled. -/
example (idA idB : ID) : ∃ (σ : Nat → Link.State Nat) (α : Nat → Option (Link.Action Nat)) (t : Nat) (c : Cl.Call), Link.FairRun 1 1 σ α ∧ Link.Answers σ α 0 ∧
    (σ t).a.calls[0]? = some c ∧ c.st = .registered ∧ ∀ t', α t' ≠ some (.a (.reqCancel 0)) := by
  refine ⟨_, _, 18, ⟨1, [1], .registered, none⟩, echo_fair idA idB, ?_, rfl, rfl, ?_⟩
  · intro t w k it ha hin _ _ _
    have h1 := congrArg (fun o : Option (Link.Action Nat) => o.map isReturn) ha
    simp only [← List.getElem?_map] at h1
    have e : (echoEnd (ε := Nat) idA idB [1] [2]).map isReturn = List.replicate 38 false ++ true :: List.replicate 6 false := rfl
    rw [e] at h1
    have ht : t = 38 := by
      have hlt : t < 45 := by simpa using (List.getElem?_eq_some_iff.1 h1).1
      exact (by decide : ∀ t < 45, (List.replicate 38 false ++ true :: List.replicate 6 false)[t]? = some true → t = 38) t hlt h1
    subst ht
    have hw : (atTime (.new 1 1) (echoEnd (ε := Nat) idA idB [1] [2]) 38).w.workers = [.inside 0 0] := rfl
    have hl : respondersOf 0 (atTime (.new 1 1) (echoEnd (ε := Nat) idA idB [1] [2]) 38).w.log = [0] := rfl
    rw [hw] at hin
    cases w with
    | succ w => cases hin
    | zero => injection hin with hin; injection hin with hk; rw [← hk, hl]; exact List.mem_singleton.2 rfl
  · intro t h
    have h1 := congrArg (fun o : Option (Link.Action Nat) => o.map isCancel) h
    simp only [← List.getElem?_map] at h1
    have e : (echoEnd (ε := Nat) idA idB [1] [2]).map isCancel = List.replicate 45 false := rfl
    rw [e] at h1
    have := List.mem_of_getElem? h1
    cases (List.mem_replicate.1 this).2

end Noise
