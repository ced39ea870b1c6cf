import Verif.Proofs.NodeStage
/-! # The whole node: receive loops that wait for the work channel -/
namespace Noise.Node
variable {ε : Type}

/-- Receive loops that wait for the work channel go on waiting. -/
def Waits (s s' : State ε) : Prop := ∀ (j : Nat) (x : Conn ε) (m : Message), s.conns[j]? = some x → x.c.main = .delivering m → ∃ x' : Conn ε, s'.conns[j]? = some x' ∧ x'.c.main = .delivering m ∧ x'.c.side = x.c.side

theorem Waits.of_eq {s s' : State ε} (h : s'.conns = s.conns) : Waits s s' := fun j x m hx hm => ⟨x, by rw [h]; exact hx, hm, rfl⟩

theorem Waits.refl (s : State ε) : Waits s s := .of_eq rfl

theorem Waits.trans {s s1 s2 : State ε} (h1 : Waits s s1) (h2 : Waits s1 s2) : Waits s s2 := by
  intro j x m hx hm
  obtain ⟨x1, a1, a2, a3⟩ := h1 j x m hx hm
  obtain ⟨x2, b1, b2, b3⟩ := h2 j x1 m a1 a2
  exact ⟨x2, b1, b2, b3.trans a3⟩

theorem Waits.push {s s' : State ε} {x : Conn ε} (h : s'.conns = s.conns ++ [x]) : Waits s s' := by
  intro j y m hy hm
  exact ⟨y, by rw [h, List.getElem?_append_left (List.getElem?_eq_some_iff.1 hy).1]; exact hy, hm, rfl⟩

theorem cl_waits {c c' : Cl.State ε} {a : Cl.Action ε} {m : Message} (h : Cl.step c a = some c') (ha : a ≠ .deliver) (hm : c.main = .delivering m) : c'.main = .delivering m ∧ c'.side = c.side := by
  refine ⟨?_, Cl.side_step h⟩
  cl_cases a h <;> grind [Cl.State.closeReady, Cl.State.closeBegin, Cl.State.closeWriterDone, Cl.State.closeReaderDone, Cl.State.closeClientDone, Cl.State.setCall, Cl.State.route, Cl.State.report, Cl.State.send]

theorem Waits.set {s s' : State ε} {j : Nat} {x x' : Conn ε} (hx : s.conns[j]? = some x) (h : s'.conns = s.conns.set j x') (hw : ∀ m, x.c.main = .delivering m → x'.c.main = .delivering m ∧ x'.c.side = x.c.side) : Waits s s' := by
  intro i y m hy hm
  by_cases hij : j = i
  · subst hij
    rw [hx] at hy; cases hy
    exact ⟨x', by rw [h, List.getElem?_set_self (List.getElem?_eq_some_iff.1 hx).1], hw m hm⟩
  · exact ⟨y, by rw [h, List.getElem?_set_ne hij]; exact hy, hm, rfl⟩

theorem stepConn_waits {s s' : State ε} {j : Nat} {a : Cl.Action ε} (h : s.stepConn j a = some s') (ha : a ≠ .deliver) : Waits s s' := by
  unfold State.stepConn at h
  split at h
  · next x hx =>
    cases hc : Cl.step x.c a with
    | none => rw [hc] at h; cases h
    | some c => rw [hc] at h; cases h; exact .set hx rfl (fun m hm => cl_waits hc ha hm)
  · cases h

theorem drop_waits (s : State ε) (j : Nat) : Waits s (s.drop j) := by
  unfold State.drop
  cases h : s.stepConn j .poolDrop with
  | none => exact .refl s
  | some s' => exact stepConn_waits h (by simp)

theorem drops_waits (l : List Nat) (s : State ε) : Waits s (l.foldl State.drop s) := by
  induction l generalizing s with
  | nil => exact .refl s
  | cons j l ih => exact (drop_waits s j).trans (ih _)

theorem closeClient_waits {s s1 s' : State ε} {j : Nat} (h : s.closeClient j s1 = some s') (h1 : s1.conns = s.conns) : Waits s s' := by
  rcases closeClient_some h with rfl | h
  · exact .of_eq h1
  · exact stepConn_waits h (by simp)

theorem get_waits {max : Nat} {s s' : State ε} {d : Cl.Side} {t : Tid} {a : Text} {found added evicts : State ε → Nat → State ε} (h : s.get max d t a found added evicts = some s')
    (hk : ∀ (s1 : State ε) (j : Nat), (found s1 j).conns = s1.conns ∧ (added s1 j).conns = s1.conns ∧ (evicts s1 j).conns = s1.conns) : Waits s s' := by
  unfold State.get at h
  simp only at h
  split at h
  · cases h
  · split at h
    · cases h; exact .of_eq (hk _ _).1
    · split at h
      · split at h
        · next e _ =>
          cases h
          exact Waits.trans (s1 := (s.setPool d ⟨some t, (s.pool d).entries.dropLast⟩).drop e.2) (Waits.trans (s1 := s.setPool d ⟨some t, (s.pool d).entries.dropLast⟩) (.of_eq rfl) (drop_waits _ e.2)) (.of_eq (hk _ _).2.2)
        · cases h; exact .of_eq rfl
      · cases h; exact .push (hk _ _).2.1

theorem acceptStep_waits {cfg : Cfg ε} {s s' : State ε} (h : s.acceptStep cfg = some s') : Waits s s' := by
  unfold State.acceptStep at h
  split at h
  · cases h; exact .of_eq rfl
  · exact get_waits h (fun _ _ => ⟨rfl, rfl, rfl⟩)
  · exact closeClient_waits h rfl
  · split at h
    · cases h; exact .push rfl
    · cases h
  · split at h
    · cases h; exact .of_eq rfl
    · cases h
  · cases h; exact .of_eq rfl
  · exact closeClient_waits h rfl
  · split at h
    · cases h; exact .of_eq rfl
    · cases h
  · split at h
    · next w hw =>
      cases hq : Wk.step w .closeQueue with
      | none => rw [hq] at h; cases h
      | some w' => rw [hq] at h; cases h; exact .of_eq rfl
    · cases h
  · split at h
    · split at h
      · cases h; exact .of_eq rfl
      · cases h
    · cases h
  · cases h; exact .of_eq rfl
  · cases h; exact .of_eq rfl
  · cases h

theorem callStep_waits {cfg : Cfg ε} {s s' : State ε} {k : Nat} {c : Call ε} (h : s.callStep cfg k c = some s') : Waits s s' := by
  unfold State.callStep at h
  split at h
  · split at h
    · cases h; exact .of_eq rfl
    · exact get_waits h (fun _ _ => ⟨rfl, rfl, rfl⟩)
  · exact closeClient_waits h rfl
  · split at h
    · cases h; exact .push rfl
    · cases h
  · exact closeClient_waits h rfl
  · split at h
    · cases h; exact .of_eq rfl
    · cases h
  · cases h; exact .of_eq rfl
  · next j hpc =>
    split at h
    · cases h; exact .of_eq rfl
    · next data _ =>
      cases hq : s.stepConn j (.send ⟨0, data⟩) with
      | none => rw [hq] at h; cases h
      | some s1 => rw [hq] at h; cases h; exact (stepConn_waits hq (by simp)).trans (.of_eq rfl)
    · next data _ =>
      split at h
      · cases hq : s.stepConn j (.reqStart data) with
        | none => rw [hq] at h; cases h
        | some s1 =>
          rw [hq] at h; cases h
          split <;> exact (stepConn_waits hq (by simp)).trans (.of_eq rfl)
      · cases h
  · next j i hpc =>
    cases hq : s.stepConn j (.reqSend i) with
    | none => rw [hq] at h; cases h
    | some s1 => rw [hq] at h; cases h; exact (stepConn_waits hq (by simp)).trans (.of_eq rfl)
  · cases h

/-- Somebody puts a message on the work channel. -/
def Enqueues (s : State ε) : Prop := ∃ (w w' : Wk.State ε) (it : Wk.Item), s.wk = some w ∧ Wk.step w (.enqueue it) = some w'

theorem connStep_waits {s s' : State ε} {j : Nat} {a : Cl.Action ε} (h : s.connStep j a = some s') : Waits s s' ∨ Enqueues s := by
  unfold State.connStep at h
  split at h
  · next x hx =>
    split at h
    · left
      split at h
      · unfold State.remove at h
        simp only at h
        split at h
        · cases h
        · split at h
          · next s1 h1 =>
            split at h
            · next e he =>
              cases h
              exact (stepConn_waits h1 (by simp)).trans (Waits.trans (s1 := s1.setPool x.c.side { s.pool x.c.side with entries := (s.pool x.c.side).entries.filter (fun q => q.1 ≠ x.addr) }) (.of_eq rfl) (drop_waits _ e.2))
            · cases h; exact (stepConn_waits h1 (by simp)).trans (.of_eq rfl)
          · cases h
      · unfold State.route at h
        cases hc : Cl.step x.c .main with
        | none => rw [hc] at h; cases h
        | some c => rw [hc] at h; cases h; exact .set hx rfl (fun m hm => cl_waits (a := .main) hc (by simp) hm)
      · exact stepConn_waits h (by simp)
    · unfold State.deliver at h
      split at h
      · next m hm =>
        split at h
        · cases h
        · split at h
          · cases h
          · next w hw =>
            split at h
            · next hcl => cases h; exact .inl (.of_eq rfl)
            · split at h
              · next w' hw' => exact .inr ⟨w, w', _, hw, hw'⟩
              · cases h
      · cases h
    all_goals first
      | cases h
      | exact .inl (stepConn_waits h (by simp_all))
  · cases h

theorem workStep_waits {s s' : State ε} {w : Nat} (h : s.workStep w = some s') : Waits s s' := by
  unfold State.workStep at h
  split at h
  · next q hq =>
    simp only at h
    cases hn : Wk.step q (.work w) with
    | none => rw [hn] at h; split at h <;> simp_all
    | some q' =>
      rw [hn] at h
      split at h
      · split at h
        · next h1 => cases h1; exact Waits.trans (s1 := { s with wk := some q' }) (.of_eq rfl) (stepConn_waits h (by simp))
        · cases h
      · split at h
        · next h1 => cases h1; exact closeClient_waits h rfl
        · cases h
      · cases h; exact .of_eq rfl
  · cases h

theorem step_waits {cfg : Cfg ε} {s s' : State ε} {a : Action ε} (h : step cfg s a = some s') : Waits s s' ∨ Enqueues s := by
  unfold step at h
  split at h
  · cases h
  · cases a with
    | conn j act => exact connStep_waits h
    | listen => simp only at h; split at h; cases h; exact .inl (.of_eq rfl); cases h
    | acceptConn a => simp only at h; split at h; cases h; exact .inl (.of_eq rfl); cases h
    | acceptFail => simp only at h; split at h; cases h; exact .inl (.of_eq rfl); cases h
    | acceptStep => exact .inl (acceptStep_waits h)
    | acceptRelease l =>
      simp only at h
      split at h
      · split at h
        · cases h; exact .inl ((drops_waits l s).trans (.of_eq rfl))
        · cases h
      · cases h
    | close => simp only at h; split at h <;> · cases h; exact .inl (.of_eq rfl)
    | closeListener c => simp only at h; split at h; cases h; exact .inl (.of_eq rfl); cases h
    | closeRecv c =>
      simp only at h
      split at h
      · split at h
        · cases h; exact .inl (.of_eq rfl)
        · split at h
          · cases h; exact .inl (.of_eq rfl)
          · cases h
      · cases h
    | list side => simp only at h; split at h; cases h; exact .inl (.of_eq rfl); cases h
    | appClose j => exact .inl (stepConn_waits h (by simp))
    | call kind addr => cases h; exact .inl (.of_eq rfl)
    | expire k =>
      simp only at h
      cases hc : s.calls[k]? with
      | none => rw [hc] at h; cases h
      | some c => rw [hc] at h; cases h; exact .inl (.of_eq rfl)
    | callStep k =>
      simp only at h
      split at h
      · exact .inl (callStep_waits h)
      · cases h
    | select k b =>
      simp only at h
      repeat' split at h
      all_goals first
        | (cases h; done)
        | (cases h; exact .inl (.of_eq rfl))
    | take k =>
      simp only at h
      split at h
      · split at h
        · split at h
          · next s1 h1 =>
            split at h
            · split at h <;> · cases h; exact .inl ((stepConn_waits h1 (by simp)).trans (.of_eq rfl))
            · cases h
          · cases h
        · cases h
      · cases h
    | cancel k =>
      simp only at h
      split at h
      · split at h
        · next j i _ =>
          split at h
          · cases hq : s.stepConn j (.reqCancel i) with
            | none => rw [hq] at h; cases h
            | some s1 => rw [hq] at h; cases h; exact .inl ((stepConn_waits hq (by simp)).trans (.of_eq rfl))
          · cases h
        · cases h
      · cases h
    | work w => exact .inl (workStep_waits h)
    | handlerReturn w r =>
      simp only at h
      split at h
      · next q hq =>
        cases hn : Wk.step q (.handlerReturn w r) with
        | none => rw [hn] at h; cases h
        | some q' => rw [hn] at h; cases h; exact .inl (.of_eq rfl)
      · cases h
    | ctxSend k h' data =>
      simp only at h
      unfold State.ctxSend at h
      split at h
      · next q hq =>
        split at h
        · next q' it h1 h2 =>
          split at h
          · cases h; exact .inl (.of_eq rfl)
          · exact .inl (Waits.trans (s1 := { s with wk := some q' }) (.of_eq rfl) (stepConn_waits h (by simp)))
        · cases h
      · cases h

/-- All workers have ended, the work channel is full and open, and the receive loop of inbound connection `j` has a message for it. -/
structure Jam (j : Nat) (m : Message) (s : State ε) : Prop where
  wk : ∃ w : Wk.State ε, s.wk = some w ∧ allEnded w = true ∧ w.queueClosed = false ∧ w.numWorkers ≤ w.items.length - w.head
  conn : ∃ x : Conn ε, s.conns[j]? = some x ∧ x.c.side = .inbound ∧ x.c.main = .delivering m

theorem allEnded_work {w w' : Wk.State ε} {i : Nat} (he : allEnded w = true) : Wk.step w (.work i) ≠ some w' := by
  intro h
  simp only [Wk.step] at h
  cases hp : w.workers[i]? with
  | none => rw [hp] at h; cases h
  | some p =>
    have := List.all_eq_true.1 he p (List.mem_of_getElem? hp)
    rw [hp] at h
    cases p <;> simp_all

theorem allEnded_return {w w' : Wk.State ε} {i : Nat} {r : Option ε} (he : allEnded w = true) : Wk.step w (.handlerReturn i r) ≠ some w' := by
  intro h
  simp only [Wk.step] at h
  cases hp : w.workers[i]? with
  | none => rw [hp] at h; cases h
  | some p =>
    have := List.all_eq_true.1 he p (List.mem_of_getElem? hp)
    rw [hp] at h
    cases p <;> simp_all

theorem Jam.step {cfg : Cfg ε} {s s' : State ε} {a : Action ε} {j : Nat} {m : Message} (hr : Reachable cfg s) (hj : Jam j m s) (h : step cfg s a = some s') : Jam j m s' := by
  obtain ⟨⟨w, hw, he, hq, hf⟩, x, hx, hs, hm⟩ := hj
  have hst := Stage.reach hr
  have hlive : live s j := ⟨x, hx, hs, by rintro (h | h) <;> rw [hm] at h <;> cases h⟩
  have hne : ∀ it w', Wk.step w (.enqueue it) ≠ some w' := by
    intro it w' h
    simp only [Wk.step, hq] at h
    split at h
    · next h => cases h
    · split at h
      · omega
      · cases h
  constructor
  · rcases (step_wk h).1 with hw' | ⟨hn, -⟩ | ⟨w0, w', act, h2, h3, h4, h5⟩
    · exact ⟨w, hw'.trans hw, he, hq, hf⟩
    · rw [hst.init.1 hn] at hw; cases hw
    · rw [hw] at h2; cases h2
      refine ⟨w', h3, allEnded_step h4 he, ?_⟩
      cases act with
      | enqueue it => exact absurd h4 (hne it w')
      | closeQueue => exact absurd hlive (hst.gone (by rw [(h5 rfl).1]; simp [Accept.stage]) j)
      | work i => exact absurd h4 (allEnded_work he)
      | handlerReturn i r => exact absurd h4 (allEnded_return he)
      | send k hd data =>
        simp only [Wk.step] at h4
        split at h4
        · split at h4
          · cases h4
            unfold Wk.State.ctxSend
            split
            · split <;> exact ⟨hq, hf⟩
            · exact ⟨hq, hf⟩
          · cases h4
        · cases h4
  · rcases step_waits h with h | ⟨w0, w', it, h1, h2⟩
    · obtain ⟨x', h1, h2, h3⟩ := h j x m hx hm
      exact ⟨x', h1, h3.trans hs, h2⟩
    · rw [hw] at h1; cases h1
      exact absurd h2 (hne it w')

end Noise.Node
