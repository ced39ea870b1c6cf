import Verif.Proofs.ClientTrace
/-! # Client: what a request submits; nothing that is read gets lost -/
namespace Noise.Cl
open Spec
variable {ε : Type}

@[simp] theorem processedOf_append (l l' : List (Event ε)) : processedOf (l ++ l') = processedOf l ++ processedOf l' := List.filterMap_append ..
@[simp] theorem readsOf_append (l l' : List (Action ε)) : readsOf (l ++ l') = readsOf l ++ readsOf l' := List.filterMap_append ..

/-- How one step treats call `i`. -/
def CallStep (s s' : State ε) (a : Action ε) (i : Nat) (c c' : Call) : Prop :=
  c'.nonce = c.nonce ∧ c'.data = c.data ∧
  ((c'.st = c.st ∧ a ≠ .reqSend i) ∨ (a = .reqSend i ∧ c.st = .registered ∧ c'.st = .waiting ∧ s'.log = s.log ++ [.submitted ⟨c.nonce, c.data⟩]) ∨
    (c.st = .waiting ∧ c'.st ≠ .registered ∧ a ≠ .reqSend i))

theorem callStep_set {s s' : State ε} {a : Action ε} {i j : Nat} {c d d' : Call} (hc : s.calls[i]? = some c) (hd : s.calls[j]? = some d)
    (hcalls : s'.calls = s.calls.set j d') (h1 : i = j → CallStep s s' a i d d') (h2 : i ≠ j → a ≠ .reqSend i) :
    ∃ c', s'.calls[i]? = some c' ∧ CallStep s s' a i c c' := by
  rw [hcalls]
  by_cases hij : i = j
  · subst hij
    have : c = d := by rw [hc] at hd; injection hd
    subst this
    exact ⟨d', List.getElem?_set_self (List.getElem?_eq_some_iff.1 hc).1, h1 rfl⟩
  · exact ⟨c, by rw [List.getElem?_set_ne (Ne.symm hij)]; exact hc, rfl, rfl, Or.inl ⟨rfl, h2 hij⟩⟩

theorem callStep_same {s s' : State ε} {a : Action ε} {i : Nat} {c : Call} (hc : s.calls[i]? = some c) (hcalls : s'.calls = s.calls) (ha : a ≠ .reqSend i) :
    ∃ c', s'.calls[i]? = some c' ∧ CallStep s s' a i c c' := ⟨c, by rw [hcalls]; exact hc, rfl, rfl, Or.inl ⟨rfl, ha⟩⟩

theorem call_step {s s' : State ε} {a : Action ε} {i : Nat} {c : Call} (hc : s.calls[i]? = some c) (hs : step s a = some s') :
    ∃ c', s'.calls[i]? = some c' ∧ CallStep s s' a i c c' := by
  cases a with
  | main =>
    simp only [step, State.mainStep] at hs
    repeat' split at hs
    all_goals try (cases hs; done)
    all_goals try (injection hs with hs; subst hs; exact callStep_same hc rfl (by simp))
    · rename_i m _
      injection hs with hs
      unfold State.route at hs
      split at hs
      · rename_i r k hf
        subst hs
        simp only [List.getElem?_modify]
        by_cases hik : k = i
        · simp [hik, hc, CallStep]
        · simp [hik, hc, CallStep]
      · subst hs; exact callStep_same hc rfl (by simp)
    · unfold State.closeBegin at hs
      repeat' split at hs
      all_goals (injection hs with hs; subst hs; exact callStep_same hc rfl (by simp))
  | reqStart data =>
    simp only [step] at hs
    split at hs
    · injection hs with hs; subst hs
      exact ⟨c, getElem?_append_some hc _, rfl, rfl, Or.inl ⟨rfl, by simp⟩⟩
    · injection hs with hs; subst hs; exact callStep_same hc rfl (by simp)
  | reqSend j =>
    simp only [step] at hs
    split at hs
    · rename_i d hd
      split at hs
      · rename_i hst
        injection hs with hs; subst hs
        exact callStep_set hc hd rfl (fun h => by subst h; exact ⟨rfl, rfl, Or.inr (Or.inl ⟨rfl, hst, rfl, rfl⟩)⟩) (fun h => by simpa using Ne.symm h)
      · cases hs
    · cases hs
  | reqTake j =>
    simp only [step] at hs
    repeat' split at hs
    all_goals try (cases hs; done)
    all_goals
      rename_i d hd _ _ _ _ _ _
      injection hs with hs; subst hs
      exact callStep_set hc hd rfl (fun h => ⟨rfl, rfl, Or.inr (Or.inr ⟨by assumption, by simp, by simp⟩)⟩) (fun h => by simp)
  | reqCancel j =>
    simp only [step] at hs
    repeat' split at hs
    all_goals try (cases hs; done)
    all_goals
      rename_i d hd _
      injection hs with hs; subst hs
      exact callStep_set hc hd rfl (fun h => ⟨rfl, rfl, Or.inr (Or.inr ⟨by assumption, by simp, by simp⟩)⟩) (fun h => by simp)
  | _ =>
    simp only [step, State.writerStep, State.closeBegin, State.closeConn] at hs
    repeat' split at hs
    all_goals try (cases hs; done)
    all_goals (injection hs with hs; subst hs; exact callStep_same hc rfl (by simp))

/-- A call along a run: nonce and data stay; it submits once at most, and its message is in the log once it has left its first state. -/
theorem call_run {s s' : State ε} {as : List (Action ε)} {i : Nat} {c : Call} (hc : s.calls[i]? = some c) (h : run s as = some s') :
    ∃ c', s'.calls[i]? = some c' ∧ c'.nonce = c.nonce ∧ c'.data = c.data ∧
      (c.st = .registered → ((c'.st = .registered ∧ .reqSend i ∉ as) ∨
        (c'.st ≠ .registered ∧ (∃ as1 as2, as = as1 ++ .reqSend i :: as2 ∧ .reqSend i ∉ as1 ∧ .reqSend i ∉ as2) ∧
          ∃ l1 l2, s'.log = s.log ++ l1 ++ .submitted ⟨c.nonce, c.data⟩ :: l2))) ∧
      (c.st ≠ .registered → c'.st ≠ .registered ∧ .reqSend i ∉ as) := by
  induction as generalizing s c with
  | nil =>
    simp only [run, Option.some.injEq] at h
    subst h
    exact ⟨c, hc, rfl, rfl, fun h => Or.inl ⟨h, by simp⟩, fun h => ⟨h, by simp⟩⟩
  | cons a as ih =>
    simp only [run] at h
    cases hst : step s a with
    | none => rw [hst] at h; cases h
    | some s1 =>
      rw [hst] at h
      obtain ⟨c1, hc1, hn, hd, hcase⟩ := call_step hc hst
      obtain ⟨c2, hc2, hn2, hd2, hreg, hnreg⟩ := ih hc1 h
      obtain ⟨l0, hl0⟩ := log_step hst
      refine ⟨c2, hc2, hn2.trans hn, hd2.trans hd, ?_, ?_⟩
      · intro hr
        rcases hcase with ⟨e, ha⟩ | ⟨ha, _, e, hl⟩ | ⟨e, _, _⟩
        · rcases hreg (e.trans hr) with ⟨e2, hni⟩ | ⟨e2, ⟨as1, as2, e3, e4, e5⟩, l1, l2, e6⟩
          · exact Or.inl ⟨e2, by simp [hni, Ne.symm ha]⟩
          · refine Or.inr ⟨e2, ⟨a :: as1, as2, by simp [e3], by simp [e4, Ne.symm ha], e5⟩, l0 ++ l1, l2, ?_⟩
            rw [e6, hl0, hn, hd]; simp
        · obtain ⟨e2, hni⟩ := hnreg (by rw [e]; simp)
          obtain ⟨l3, hl3⟩ := log_run h
          exact Or.inr ⟨e2, ⟨[], as, by simp [ha], by simp, hni⟩, [], l3, by rw [hl3, hl]; simp⟩
        · rw [hr] at e; cases e
      · intro hr
        rcases hcase with ⟨e, ha⟩ | ⟨ha, e, _, hl⟩ | ⟨e, e', ha⟩
        · obtain ⟨e2, hni⟩ := hnreg (by rw [e]; exact hr)
          exact ⟨e2, by simp [hni, Ne.symm ha]⟩
        · exact absurd e hr
        · obtain ⟨e2, hni⟩ := hnreg e'
          exact ⟨e2, by simp [hni, Ne.symm ha]⟩

/-! ### Nothing read is lost -/

/-- Read but not yet looked at. -/
def MainPc.unrouted : MainPc → List Message
  | .routing m => [m]
  | _ => []

/-- Bound for the handlers but not yet on the work queue. -/
def MainPc.undelivered : MainPc → List Message
  | .delivering m => [m]
  | _ => []

theorem reads_step {s s' : State ε} {a : Action ε} (hs : step s a = some s') :
    processedOf s'.log ++ s'.main.unrouted = processedOf s.log ++ s.main.unrouted ++ readsOf [a] ∧
    (toHandlersOf s.log = deliveredOf s.log ++ s.main.undelivered → toHandlersOf s'.log = deliveredOf s'.log ++ s'.main.undelivered) := by
  cl_cases a hs
  all_goals simp_all [State.closeReady, State.closeReaderDone, State.closeWriterDone, State.closeClientDone, State.report, State.send,
    State.setCall, processedOf, readsOf, toHandlersOf, deliveredOf, MainPc.unrouted, MainPc.undelivered]

theorem reads_run {s s' : State ε} {as : List (Action ε)} (h : run s as = some s')
    (h0 : toHandlersOf s.log = deliveredOf s.log ++ s.main.undelivered) :
    processedOf s'.log ++ s'.main.unrouted = processedOf s.log ++ s.main.unrouted ++ readsOf as ∧
    toHandlersOf s'.log = deliveredOf s'.log ++ s'.main.undelivered := by
  induction as generalizing s with
  | nil => simp only [run, Option.some.injEq] at h; subst h; exact ⟨by simp [readsOf], h0⟩
  | cons a as ih =>
    simp only [run] at h
    cases hst : step s a with
    | none => rw [hst] at h; cases h
    | some s1 =>
      rw [hst] at h
      obtain ⟨e1, e2⟩ := reads_step hst
      obtain ⟨e3, e4⟩ := ih h (e2 h0)
      refine ⟨?_, e4⟩
      rw [e3, e1]
      have : readsOf (a :: as) = readsOf [a] ++ readsOf as := by rw [← readsOf_append]; rfl
      rw [this]; simp

end Noise.Cl
