import Verif.Proofs.NodeProgress
import Verif.Proofs.Fair
import Verif.Spec.Fair
/-! # The whole node: it is closed in the end, and stays closed -/
namespace Noise.Node
variable {ε : Type}

theorem finished_run {c c' : Cl.State ε} {as : List (Cl.Action ε)} (hs : Cl.run c as = some c') (h : c.main = .finished ∧ c.conn = .closed) : c'.main = .finished ∧ c'.conn = .closed :=
  Cl.run_inv (P := fun c => c.main = .finished ∧ c.conn = .closed) (fun c a c' h hs => by
    obtain ⟨h1, h2⟩ := h
    cl_cases a hs
    all_goals grind [Cl.State.closeReady, Cl.State.closeReaderDone, Cl.State.closeWriterDone, Cl.State.closeClientDone, Cl.State.report, Cl.State.send, Cl.State.setCall]) hs h

theorem State.Closed.over {s : State ε} (h : s.Closed) : s.over := by simp [State.over, h.accept]

theorem closers_step {cfg : Cfg ε} {s s' : State ε} {a : Action ε} (h : step cfg s a = some s') (hn : a ≠ .close) (hc : ∀ c ∈ s.closers, c = .gotError ∨ c = .gotClosed) : ∀ c ∈ s'.closers, c = .gotError ∨ c = .gotClosed := by
  by_cases ho : a.other = true
  · rw [(step_keeps ho h).closers]; exact hc
  cases adv h with
  | early h1 h2 h3 h4 h5 hg => rw [hg]; exact hc
  | release l h1 h2 h3 h4 hg => rw [hg]; exact hc
  | mark l h1 h2 h3 hg => rw [hg]; exact hc
  | next j l h1 h2 h3 h4 hg => rw [hg]; exact hc
  | released b h1 h2 h3 hg => rw [hg]; exact hc
  | closeWork h1 h2 h3 hg => rw [hg]; exact hc
  | waited w h1 h2 h3 h4 h5 hg => rw [hg]; exact hc
  | store h1 h2 h3 hg => rw [hg]; exact hc
  | ended h1 h2 hg => rw [hg]; exact hc
  | same h1 h2 h3 =>
    unfold Node.step at h
    split at h
    · cases h
    cases a with
    | close => exact absurd rfl hn
    | closeListener c =>
      simp only at h
      split at h
      · next hk => have := hc _ (List.mem_of_getElem? hk); simp at this
      · cases h
    | closeRecv c =>
      simp only at h
      split at h
      · next hk => have := hc _ (List.mem_of_getElem? hk); simp at this
      · cases h
    | listen => simp only at h; split at h; cases h; exact hc; cases h
    | acceptConn a => simp only at h; split at h; cases h; exact hc; cases h
    | acceptFail => simp only at h; split at h; cases h; exact hc; cases h
    | acceptRelease l =>
      simp only at h
      split at h
      · split at h
        · cases h; simp only [State.setPool, (drops_same _ _).closers]; exact hc
        · cases h
      · cases h
    | acceptStep =>
      have : s'.closers = s.closers := by
        simp only at h
        unfold State.acceptStep at h
        have hcc : ∀ {j : Nat} {s1 s2 : State ε}, s.closeClient j s1 = some s2 → s1.closers = s.closers → s2.closers = s.closers := fun h h1 => by
          rcases closeClient_done h with ⟨rfl, -⟩ | h
          · exact h1
          · exact (stepConn_same h).closers
        split at h
        · cases h; rfl
        · unfold State.get at h
          simp only at h
          split at h
          · cases h
          · split at h
            · cases h; rfl
            · split at h
              · split at h
                · cases h; exact (drop_same _ _).closers
                · cases h; rfl
              · cases h; rfl
        · exact hcc h rfl
        · split at h
          · cases h; rfl
          · cases h
        · split at h
          · cases h; rfl
          · cases h
        · cases h; rfl
        · exact hcc h rfl
        · split at h
          · cases h; rfl
          · cases h
        · split at h
          · next w hw =>
            cases hq : Wk.step w .closeQueue with
            | none => rw [hq] at h; cases h
            | some w' => rw [hq] at h; cases h; rfl
          · cases h
        · split at h
          · split at h
            · cases h; rfl
            · cases h
          · cases h
        · cases h; rfl
        · cases h; rfl
        · cases h
      rw [this]; exact hc
    | _ => simp [Action.other] at ho

/-- A closed node stays closed, unless `Close` is called again. -/
theorem State.Closed.step {cfg : Cfg ε} {s s' : State ε} {a : Action ε} (hr : Reachable cfg s) (hc : s.Closed) (h : step cfg s a = some s') (hn : a ≠ .close) : s'.Closed := by
  have hr' := hr.snoc h
  have hacc : s'.accept = .ended := by
    cases adv h with
    | same h1 => rw [h1]; exact hc.accept
    | early h1 h2 h3 => rw [hc.accept] at h1; simp [Accept.stage] at h1
    | release l h1 h2 => rw [hc.accept] at h1; cases h1
    | mark l h1 h2 => rw [hc.accept] at h1; cases h1
    | next j l h1 h2 => rw [hc.accept] at h1; cases h1
    | released b h1 h2 => rw [hc.accept] at h1; cases h1
    | closeWork h1 h2 => rw [hc.accept] at h1; cases h1
    | waited w h1 h2 h3 h4 => rw [hc.accept] at h1; cases h1
    | store h1 h2 => rw [hc.accept] at h1; cases h1
    | ended h1 h2 => rw [hc.accept] at h1; cases h1
  refine ⟨hacc, (DoneInv.reach hr').listening (by simp [hacc, Accept.stage]), fun x' hx' hs => ?_, fun w' hw' p hp => ?_, closers_step h hn hc.close⟩
  · obtain ⟨j, hj⟩ := List.getElem?_of_mem hx'
    by_cases hl : s.conns.length ≤ j
    · have := new_conns hc.over h j x' hj hl
      rw [this] at hs; simp [Cl.State.new] at hs
    · obtain ⟨x, hx⟩ : ∃ x, s.conns[j]? = some x := ⟨s.conns[j]'(by omega), List.getElem?_eq_getElem _⟩
      obtain ⟨y, as, hy, hrun, -⟩ := step_trace h j x hx
      rw [hj] at hy; cases hy
      exact finished_run hrun (hc.conns x (List.mem_of_getElem? hx) ((run_side hrun).symm.trans hs))
  · have := (Stage.reach hr').wrk (by simp [hacc, Accept.stage]) w' hw'
    rw [allEnded, List.all_eq_true] at this
    have := this p hp
    cases p <;> simp at this
    exact ⟨_, rfl⟩

/-- A closed node does nothing more by itself. -/
theorem State.Closed.idles {cfg : Cfg ε} {s : State ε} (hr : Reachable cfg s) (hc : s.Closed) : Idles cfg s := by
  intro a ha
  unfold Node.step
  split
  · rfl
  have hwk : ∀ w, s.wk = some w → ∀ i : Nat, ∀ p, w.workers[i]? = some p → ∃ b, p = .ended b := fun w hw i p hp => hc.workers w hw p (List.mem_of_getElem? hp)
  cases a with
  | acceptFail => simp [hc.accept]
  | acceptStep => simp [State.acceptStep, hc.accept]
  | acceptRelease l => simp [hc.accept]
  | closeListener c =>
    simp only
    split
    · next hk => have := hc.close _ (List.mem_of_getElem? hk); simp at this
    · rfl
  | closeRecv c =>
    simp only
    split
    · next hk => have := hc.close _ (List.mem_of_getElem? hk); simp at this
    · rfl
  | work i =>
    simp only [State.workStep]
    split
    · next w hw =>
      cases hp : w.workers[i]? with
      | none => simp [Wk.step, hp]
      | some p =>
        obtain ⟨b, rfl⟩ := hwk w hw i p hp
        simp [Wk.step, hp]
    · rfl
  | handlerReturn i r =>
    simp only
    split
    · next w hw =>
      cases hp : w.workers[i]? with
      | none => simp [Wk.step, hp]
      | some p =>
        obtain ⟨b, rfl⟩ := hwk w hw i p hp
        simp [Wk.step, hp]
    · rfl
  | conn j act =>
    simp only [State.own] at ha
    split at ha
    · next x hx =>
      have hcl : s.closes j = false := by
        cases hb : s.closes j with
        | false => rfl
        | true =>
          unfold State.closes at hb
          split at hb
          · next w hw =>
            obtain ⟨p, hp, h1⟩ := List.any_eq_true.1 hb
            obtain ⟨b, rfl⟩ := hc.workers w hw p hp
            cases h1
          · cases hb
      have hin : x.c.side = .inbound := by
        cases act <;> simp_all
      obtain ⟨hm, hco⟩ := hc.conns x (List.mem_of_getElem? hx) hin
      have hon := (Cl.ConnInv.reach (Reaches.reach hr j x hx)).once hco
      cases act <;> simp [State.connStep, hx, hm, State.stepConn, State.deliver, Cl.step, Cl.State.mainStep, Cl.State.closeConn, hon] at ha ⊢
    · cases ha
  | _ => simp [State.own] at ha

/-! ### Executions -/

variable {cfg : Cfg ε} {σ : Nat → State ε} {α : Nat → Option (Action ε)}

structure Able (cfg : Cfg ε) (s : State ε) : Prop where
  reach : Reachable cfg s
  over : s.over
  begun : s.begun
  staffed : s.staffed

theorem FairClose.able (r : FairClose cfg σ α) (t : Nat) : Able cfg (σ t) := by
  induction t with
  | zero => exact ⟨r.start, r.over, r.begun, r.staffed⟩
  | succ t ih =>
    rcases r.exec t with ⟨-, h⟩ | ⟨a, ha, h⟩
    · rw [h]; exact ih
    · exact ⟨ih.reach.snoc h, over_step ih.over h, begun_step ih.reach ih.over ih.begun h, staffed_step ih.over ih.staffed (fun i e he => r.noErrors t i e (he ▸ ha)) h⟩

theorem FairClose.left_le (r : FairClose cfg σ α) {T : Nat} (hT : ∀ t, T ≤ t → ∀ a, α t = some a → (σ t).feeds a = false) {t t' : Nat} (h0 : T ≤ t) (h : t ≤ t') : (σ t').left cfg ≤ (σ t).left cfg := by
  induction h with
  | refl => exact Nat.le_refl _
  | @step n hle ih =>
    refine Nat.le_trans ?_ ih
    rcases r.exec n with ⟨-, h⟩ | ⟨a, ha, h⟩
    · rw [h]; exact Nat.le_refl _
    · have := left_step (r.able n).reach (r.able n).over h
      rw [hT n (Nat.le_trans h0 hle) a ha] at this
      simp only [Bool.false_eq_true, if_false, Nat.add_zero] at this
      exact Nat.le_trans (Nat.le_add_right _ _) this

theorem FairClose.closed [Nonempty ε] (r : FairClose cfg σ α) : ∃ t, ∀ t', t ≤ t' → (σ t').Closed := by
  obtain ⟨T, hT⟩ := r.quiet
  have key : ∀ n t, T ≤ t → (σ t).left cfg ≤ n → ∃ t', t ≤ t' ∧ (σ t').Closed := by
    intro n
    induction n with
    | zero =>
      intro t h0 hl
      obtain ⟨t', hle, ⟨a, ha, ho⟩ | hd⟩ := r.fair t
      · have h1 := r.left_le hT h0 hle
        rcases r.exec t' with ⟨h2, -⟩ | ⟨b, hb, h2⟩
        · rw [h2] at ha; cases ha
        · rw [ha] at hb; cases hb
          have := left_step (r.able t').reach (r.able t').over h2
          rw [hT t' (Nat.le_trans h0 hle) a ha, ho] at this
          simp at this; omega
      · have := r.able t'
        exact ⟨t', hle, progress this.reach this.over this.begun this.staffed (r.noCrash t') hd⟩
    | succ n ih =>
      intro t h0 hl
      obtain ⟨t', hle, ⟨a, ha, ho⟩ | hd⟩ := r.fair t
      · have h1 := r.left_le hT h0 hle
        rcases r.exec t' with ⟨h2, -⟩ | ⟨b, hb, h2⟩
        · rw [h2] at ha; cases ha
        · rw [ha] at hb; cases hb
          have := left_step (r.able t').reach (r.able t').over h2
          rw [hT t' (Nat.le_trans h0 hle) a ha, ho] at this
          simp at this
          obtain ⟨t2, h3, h4⟩ := ih (t' + 1) (by omega) (by omega)
          exact ⟨t2, by omega, h4⟩
      · have := r.able t'
        exact ⟨t', hle, progress this.reach this.over this.begun this.staffed (r.noCrash t') hd⟩
  obtain ⟨t, h0, hc⟩ := key _ T (Nat.le_refl _) (Nat.le_refl _)
  refine ⟨t, fun t' h => ?_⟩
  have : T ≤ t' ∧ (σ t').Closed := Fair.stays (P := fun t => T ≤ t ∧ (σ t).Closed) (fun n ⟨h1, h2⟩ => ⟨by omega, by
    rcases r.exec n with ⟨-, h⟩ | ⟨a, ha, h⟩
    · rw [h]; exact h2
    · exact h2.step (r.able n).reach h (fun he => by subst he; have := hT n h1 _ ha; simp [State.feeds] at this)⟩) h ⟨h0, hc⟩
  exact this.2

/-- A finite run that ends with the node closed, as an infinite execution. -/
theorem FairClose.of_run {s s' : State ε} (h : Reachable cfg s) (ho : s.over) (hb : s.begun) (hst : s.staffed) {as : List (Action ε)} (hr : runs (Node.step cfg) s as = some s') (hcr : s'.crashed = false)
    (herr : ∀ i e, .handlerReturn i (some e) ∉ as) (hc : s'.Closed) : FairClose cfg (fun t => (runs (Node.step cfg) s (as.take t)).getD s) (fun t => as[t]?) := by
  have hsome : ∀ t, ∃ s1, runs (Node.step cfg) s (as.take t) = some s1 ∧ runs (Node.step cfg) s1 (as.drop t) = some s' := fun t => by
    have : runs (Node.step cfg) s (as.take t ++ as.drop t) = some s' := by rw [List.take_append_drop]; exact hr
    rw [runs_append] at this
    cases h1 : runs (Node.step cfg) s (as.take t) with
    | none => rw [h1] at this; cases this
    | some s1 => rw [h1] at this; exact ⟨s1, rfl, this⟩
  have hex : ∀ t, (as[t]? = none ∧ runs (Node.step cfg) s (as.take (t + 1)) = runs (Node.step cfg) s (as.take t)) ∨
      ∃ a s1 s2, as[t]? = some a ∧ runs (Node.step cfg) s (as.take t) = some s1 ∧ Node.step cfg s1 a = some s2 ∧ runs (Node.step cfg) s (as.take (t + 1)) = some s2 := fun t => by
    cases ha : as[t]? with
    | none =>
      left
      have := List.getElem?_eq_none_iff.1 ha
      rw [List.take_of_length_le this, List.take_of_length_le (by omega)]
      exact ⟨rfl, rfl⟩
    | some a =>
      right
      obtain ⟨s1, h1, h2⟩ := hsome t
      have h3 := List.drop_eq_getElem?_toList_append (l := as) (i := t)
      rw [ha] at h3
      rw [h3] at h2
      obtain ⟨s2, h4, -⟩ := runs_cons h2
      refine ⟨a, s1, s2, rfl, h1, h4, ?_⟩
      rw [List.take_add_one, ha, runs_append, h1]
      exact runs_one h4
  refine ⟨fun t => ?_, ?_, ?_, ?_, ?_, fun t i e he => herr i e (List.mem_of_getElem? he), fun t => ?_, ⟨as.length, fun t ht a ha => ?_⟩, fun t => ?_⟩
  · rcases hex t with ⟨h1, h2⟩ | ⟨a, s1, s2, h1, h2, h3, h4⟩
    · exact .inl ⟨h1, by rw [h2]⟩
    · exact .inr ⟨a, h1, by simp [h2, h4, h3]⟩
  · exact h
  · exact ho
  · exact hb
  · exact hst
  · obtain ⟨s1, h1, h2⟩ := hsome t
    simp only [h1, Option.getD_some]
    cases hd : as.drop t with
    | nil => rw [hd] at h2; cases h2; exact hcr
    | cons a l =>
      rw [hd] at h2
      obtain ⟨s2, h3, -⟩ := runs_cons h2
      cases hb : s1.crashed with
      | false => rfl
      | true => simp [Node.step, hb] at h3
  · have := (List.getElem?_eq_some_iff.1 ha).1; omega
  · refine ⟨t + as.length, by omega, .inr ?_⟩
    rw [List.take_of_length_le (by omega), hr]
    exact hc.idles (h.trans ⟨as, hr⟩)

end Noise.Node
