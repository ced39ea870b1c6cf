import Verif.Proofs.Node
/-! # The whole node: who changes the life cycle -/
namespace Noise.Node
variable {ε : Type}

/-- `Accept` returned a connection. -/
def Event.answers : Event → Bool
  | .accepted _ _ | .ignored _ => true
  | _ => false

/-- The life cycle is as before. -/
structure Keeps (s s' : State ε) : Prop where
  accept : s'.accept = s.accept
  listening : s'.listening = s.listening
  listenerOpen : s'.listenerOpen = s.listenerOpen
  doneBuf : s'.doneBuf = s.doneBuf
  doneClosed : s'.doneClosed = s.doneClosed
  closers : s'.closers = s.closers
  answers : s'.log.filter Event.answers = s.log.filter Event.answers

theorem Keeps.refl (s : State ε) : Keeps s s := ⟨rfl, rfl, rfl, rfl, rfl, rfl, rfl⟩

theorem Same.keeps {s s' : State ε} (h : Same s s') : Keeps s s' := ⟨h.accept, h.listening, h.listenerOpen, h.doneBuf, h.doneClosed, h.closers, by rw [h.log]⟩

theorem Keeps.trans {s s1 s2 : State ε} (h1 : Keeps s s1) (h2 : Keeps s1 s2) : Keeps s s2 :=
  ⟨h2.1.trans h1.1, h2.2.trans h1.2, h2.3.trans h1.3, h2.4.trans h1.4, h2.5.trans h1.5, h2.6.trans h1.6, h2.7.trans h1.7⟩

/-- Neither the accept goroutine nor `Listen` nor `Close`. -/
def Action.other : Action ε → Bool
  | .listen | .acceptConn _ | .acceptFail | .acceptStep | .acceptRelease _ | .close | .closeListener _ | .closeRecv _ => false
  | _ => true

theorem get_keeps {max : Nat} {s s' : State ε} {d : Cl.Side} {t : Tid} {a : Text} {found added evicts : State ε → Nat → State ε} (h : s.get max d t a found added evicts = some s')
    (hf : ∀ s1 j, Keeps s1 (found s1 j)) (ha : ∀ s1 j, Keeps s1 (added s1 j)) (hv : ∀ s1 j, Keeps s1 (evicts s1 j)) : Keeps s s' := by
  unfold State.get at h
  simp only at h
  split at h
  · cases h
  · split at h
    · next e _ =>
      cases h
      exact Keeps.trans (s1 := s.setPool d { s.pool d with entries := e :: (s.pool d).entries.filter (fun q => q.1 ≠ a) }) ⟨rfl, rfl, rfl, rfl, rfl, rfl, rfl⟩ (hf _ _)
    · split at h
      · split at h
        · next e _ =>
          cases h
          have h1 : Keeps s (s.setPool d ⟨some t, (s.pool d).entries.dropLast⟩) := ⟨rfl, rfl, rfl, rfl, rfl, rfl, rfl⟩
          exact (h1.trans (drop_same _ e.2).keeps).trans (hv _ _)
        · cases h; exact ⟨rfl, rfl, rfl, rfl, rfl, rfl, rfl⟩
      · cases h
        exact Keeps.trans (s1 := s.push d a) ⟨rfl, rfl, rfl, rfl, rfl, rfl, rfl⟩ (ha _ _)

theorem closeClient_keeps {s s1 s' : State ε} {j : Nat} (h : s.closeClient j s1 = some s') (hk : Keeps s s1) : Keeps s s' := by
  rcases closeClient_some h with rfl | h
  · exact hk
  · exact (stepConn_same h).keeps

theorem setCall_keeps {s s1 : State ε} (h : Keeps s s1) (k : Nat) (c : Call ε) : Keeps s (s1.setCall k c) := ⟨h.1, h.2, h.3, h.4, h.5, h.6, h.7⟩

theorem callStep_keeps {cfg : Cfg ε} {s s' : State ε} {k : Nat} {c : Call ε} (h : s.callStep cfg k c = some s') : Keeps s s' := by
  unfold State.callStep at h
  split at h
  · split at h
    · cases h; exact setCall_keeps (.refl _) _ _
    · exact get_keeps h (fun _ _ => setCall_keeps (.refl _) _ _) (fun _ _ => setCall_keeps (.refl _) _ _) (fun _ _ => setCall_keeps (.refl _) _ _)
  · exact closeClient_keeps h (setCall_keeps (.refl _) _ _)
  · split at h
    · cases h; exact ⟨rfl, rfl, rfl, rfl, rfl, rfl, rfl⟩
    · cases h
  · exact closeClient_keeps h (setCall_keeps (.refl _) _ _)
  · split at h
    · cases h; exact setCall_keeps (.refl _) _ _
    · cases h
  · cases h; exact ⟨rfl, rfl, rfl, rfl, rfl, rfl, by simp [Event.answers]⟩
  · next j hpc =>
    split at h
    · cases h; exact setCall_keeps (.refl _) _ _
    · next data _ =>
      cases hq : s.stepConn j (.send ⟨0, data⟩) with
      | none => rw [hq] at h; cases h
      | some s1 => rw [hq] at h; cases h; exact setCall_keeps (stepConn_same hq).keeps _ _
    · next data _ =>
      split at h
      · cases hq : s.stepConn j (.reqStart data) with
        | none => rw [hq] at h; cases h
        | some s1 =>
          rw [hq] at h; cases h
          split <;> exact setCall_keeps (stepConn_same hq).keeps _ _
      · cases h
  · next j i hpc =>
    cases hq : s.stepConn j (.reqSend i) with
    | none => rw [hq] at h; cases h
    | some s1 => rw [hq] at h; cases h; exact setCall_keeps (stepConn_same hq).keeps _ _
  · cases h

theorem remove_keeps {s s' : State ε} {j : Nat} {x : Conn ε} (h : s.remove j x = some s') : Keeps s s' ∧ s'.wk = s.wk ∧ s'.calls = s.calls ∧ s'.log = s.log := by
  unfold State.remove at h
  simp only at h
  split at h
  · cases h
  · split at h
    · next s1 h1 =>
      have hs1 := stepConn_same h1
      have h2 : Keeps s1 (s1.setPool x.c.side { s.pool x.c.side with entries := (s.pool x.c.side).entries.filter (fun q => q.1 ≠ x.addr) }) := ⟨rfl, rfl, rfl, rfl, rfl, rfl, rfl⟩
      split at h
      · next e he =>
        cases h
        have hd := drop_same (s1.setPool x.c.side { s.pool x.c.side with entries := (s.pool x.c.side).entries.filter (fun q => q.1 ≠ x.addr) }) e.2
        exact ⟨(hs1.keeps.trans h2).trans hd.keeps, hd.wk.trans hs1.wk, hd.calls.trans hs1.calls, hd.log.trans hs1.log⟩
      · cases h; exact ⟨hs1.keeps.trans h2, hs1.wk, hs1.calls, hs1.log⟩
    · cases h

theorem connStep_keeps {s s' : State ε} {j : Nat} {a : Cl.Action ε} (h : s.connStep j a = some s') : Keeps s s' := by
  unfold State.connStep at h
  split at h
  · next x hx =>
    split at h
    · split at h
      · exact (remove_keeps h).1
      · unfold State.route at h
        cases hc : Cl.step x.c .main with
        | none => rw [hc] at h; cases h
        | some c => rw [hc] at h; cases h; exact ⟨rfl, rfl, rfl, rfl, rfl, rfl, rfl⟩
      · exact (stepConn_same h).keeps
    · unfold State.deliver at h
      split at h
      · split at h
        · cases h
        · split at h
          · cases h
          · split at h
            · cases h; exact ⟨rfl, rfl, rfl, rfl, rfl, rfl, rfl⟩
            · split at h
              · cases hq : s.stepConn j .deliver with
                | none => rw [hq] at h; cases h
                | some s1 =>
                  rw [hq] at h; cases h
                  have := (stepConn_same hq).keeps
                  exact ⟨this.1, this.2, this.3, this.4, this.5, this.6, this.7⟩
              · cases h
      · cases h
    all_goals first
      | cases h
      | exact (stepConn_same h).keeps
  · cases h

theorem workStep_keeps {s s' : State ε} {w : Nat} (h : s.workStep w = some s') : Keeps s s' := by
  unfold State.workStep at h
  split at h
  · next q hq =>
    simp only at h
    cases hn : Wk.step q (.work w) with
    | none => rw [hn] at h; split at h <;> simp_all
    | some q' =>
      rw [hn] at h
      have h0 : Keeps s { s with wk := some q' } := ⟨rfl, rfl, rfl, rfl, rfl, rfl, rfl⟩
      split at h
      · split at h
        · next h1 => cases h1; exact h0.trans (stepConn_same h).keeps
        · cases h
      · split at h
        · next h1 => cases h1; exact closeClient_keeps h h0
        · cases h
      · cases h; exact h0
  · cases h

theorem ctxSend_keeps {s s' : State ε} {k h : Nat} {data : Bytes} (hs : s.ctxSend k h data = some s') : Keeps s s' := by
  unfold State.ctxSend at hs
  split at hs
  · split at hs
    · next q' it h1 h2 =>
      have h0 : Keeps s { s with wk := some q' } := ⟨rfl, rfl, rfl, rfl, rfl, rfl, rfl⟩
      split at hs
      · cases hs; exact h0
      · exact h0.trans (stepConn_same hs).keeps
    · cases hs
  · cases hs

theorem step_keeps {cfg : Cfg ε} {s s' : State ε} {a : Action ε} (ha : a.other = true) (h : step cfg s a = some s') : Keeps s s' := by
  unfold step at h
  split at h
  · cases h
  · cases a with
    | list side => simp only at h; split at h <;> cases h; exact ⟨rfl, rfl, rfl, rfl, rfl, rfl, by simp [Event.answers]⟩
    | appClose j => exact (stepConn_same h).keeps
    | call kind addr => cases h; exact ⟨rfl, rfl, rfl, rfl, rfl, rfl, rfl⟩
    | expire k =>
      simp only at h
      cases hc : s.calls[k]? with
      | none => rw [hc] at h; cases h
      | some c => rw [hc] at h; cases h; exact setCall_keeps (.refl _) _ _
    | callStep k => simp only at h; split at h <;> [exact callStep_keeps h; cases h]
    | select k b =>
      simp only at h
      repeat' split at h
      all_goals first
        | (cases h; done)
        | (cases h; exact setCall_keeps (.refl _) _ _)
    | take k =>
      simp only at h
      split at h
      · split at h
        · split at h
          · next h1 =>
            repeat' split at h
            all_goals first
              | (cases h; done)
              | (cases h; exact setCall_keeps (stepConn_same h1).keeps _ _)
          · cases h
        · cases h
      · cases h
    | cancel k =>
      simp only at h
      split at h
      · split at h
        · next j i hpc =>
          split at h
          · cases h1 : s.stepConn j (.reqCancel i) with
            | none => rw [h1] at h; cases h
            | some s1 => rw [h1] at h; cases h; exact setCall_keeps (stepConn_same h1).keeps _ _
          · cases h
        · cases h
      · cases h
    | conn j act => exact connStep_keeps h
    | work w => exact workStep_keeps h
    | handlerReturn w r =>
      simp only at h
      split at h
      · next q hq =>
        cases hn : Wk.step q (.handlerReturn w r) with
        | none => rw [hn] at h; cases h
        | some q' => rw [hn] at h; cases h; exact ⟨rfl, rfl, rfl, rfl, rfl, rfl, rfl⟩
      · cases h
    | ctxSend k hd data => exact ctxSend_keeps h
    | _ => cases ha

/-- `get` changes connections and pool only, apart from what its caller does next. -/
theorem get_pres {max : Nat} {s s' : State ε} {d : Cl.Side} {t : Tid} {a : Text} {found added evicts : State ε → Nat → State ε} (h : s.get max d t a found added evicts = some s')
    {Q : State ε → Prop} (hcr : Q { s with crashed := true })
    (hk : ∀ (conns : List (Conn ε)) (pool : Cl.Side → Pool) (j : Nat), let s1 := { s with conns := conns, pool := pool }; Q (found s1 j) ∧ Q (added s1 j) ∧ Q (evicts s1 j)) : Q s' := by
  unfold State.get at h
  simp only at h
  split at h
  · cases h
  · split at h
    · cases h
      exact (hk s.conns _ _).1
    · split at h
      · split at h
        · next e _ =>
          cases h
          have hd : ∃ conns, (s.setPool d ⟨some t, (s.pool d).entries.dropLast⟩).drop e.2 = { s with conns := conns, pool := (s.setPool d ⟨some t, (s.pool d).entries.dropLast⟩).pool } := by
            unfold State.drop
            cases hq : (s.setPool d ⟨some t, (s.pool d).entries.dropLast⟩).stepConn e.2 .poolDrop with
            | none => exact ⟨s.conns, rfl⟩
            | some s1 =>
              obtain ⟨x, c, -, -, rfl⟩ := stepConn_some hq
              exact ⟨_, rfl⟩
          obtain ⟨conns, hd⟩ := hd
          rw [hd]
          exact (hk conns _ _).2.2
        · cases h; exact hcr
      · cases h
        exact (hk _ _ _).2.1

/-- Whoever has begun to evict a client never gets further: the client waits for the mutex that its evictor holds. -/
theorem ev_forever {cfg : Cfg ε} {s s' : State ε} {a : Action ε} {t : Tid} {v : Nat} (hr : Reachable cfg s) (h : step cfg s a = some s') (he : ev s t = some v) : ev s' t = some v := by
  have hi := Inv.reach hr
  obtain ⟨hlock, x, hx, hside, hp⟩ := hi.evict t v he
  rcases step_eff h with h | rfl
  swap
  · exact he
  cases h with
  | quiet _ _ h => rw [h]; exact he
  | found _ _ _ _ _ _ h => rw [h]; exact he
  | added _ _ _ _ _ _ _ h => rw [h]; exact he
  | evict t' _ _ _ _ _ _ he0 _ heo =>
    have : t ≠ t' := by rintro rfl; rw [he] at he0; cases he0
    rw [heo t this]; exact he
  | evicted t' v' _ he0 hd _ _ _ heo =>
    by_cases ht : t = t'
    · subst ht
      rw [he] at he0; cases he0
      exact absurd (done_past (Reaches.reach hr) hx hd) hp
    · rw [heo t ht]; exact he
  | removed _ _ _ _ _ _ _ _ h => rw [h]; exact he
  | released _ _ _ _ _ _ _ h => rw [h]; exact he

/-- While the mutex of a pool is held, no client of that pool ends. -/
theorem locked_live {cfg : Cfg ε} {s s' : State ε} {a : Action ε} {j : Nat} {x : Conn ε} (h : step cfg s a = some s') (hx : s.conns[j]? = some x) (hl : (s.pool x.c.side).lock ≠ none) (hp : ¬ past x.c) :
    ∃ x' : Conn ε, s'.conns[j]? = some x' ∧ x'.c.side = x.c.side ∧ ¬ past x'.c := by
  have hlt := (List.getElem?_eq_some_iff.1 hx).1
  have hm : Mild s s' → ∃ x' : Conn ε, s'.conns[j]? = some x' ∧ x'.c.side = x.c.side ∧ ¬ past x'.c := by
    intro hm
    obtain ⟨x', h1, -, h2, h3⟩ := hm.old j x hx
    exact ⟨x', h1, h2, fun h => hp (h3.1 h)⟩
  rcases step_eff h with h | rfl
  swap
  · exact ⟨x, hx, rfl, hp⟩
  cases h with
  | quiet _ h _ => exact hm h
  | found _ _ _ _ _ h => exact ⟨x, by rw [h]; exact hx, rfl, hp⟩
  | added _ _ _ _ _ _ h => exact ⟨x, by rw [h, List.getElem?_append_left hlt]; exact hx, rfl, hp⟩
  | evict _ _ _ _ _ _ h => exact hm h
  | evicted _ _ _ _ _ _ h => exact ⟨x, by rw [h, List.getElem?_append_left hlt]; exact hx, rfl, hp⟩
  | removed i y hy hrm hli _ _ h =>
    obtain ⟨x', h1, -, h2, h3, -⟩ := h j x hx
    refine ⟨x', h1, h2, fun hh => ?_⟩
    rcases h3.1 hh with hh | rfl
    · exact hp hh
    · rw [hx] at hy; cases hy; exact hl hli
  | released _ _ _ _ _ _ h => exact hm h

/-- Who waits for the mutex of the outbound pool. -/
def Call.waits (c : Call ε) : Prop := c.pc = .get ∧ 0 < c.left

/-- What a step does to the calls: nothing, a new one, or one goes on - not past the mutex of the outbound pool if somebody holds it. -/
def CallsStep (cfg : Cfg ε) (act : Action ε) (s s' : State ε) : Prop :=
  s'.calls = s.calls ∨ (∃ kind addr, act = .call kind addr ∧ s'.calls = s.calls ++ [⟨kind, addr, cfg.attempts, .get, false⟩]) ∨
  ∃ (k : Nat) (c c' : Call ε), s.calls[k]? = some c ∧ s'.calls = s.calls.set k c' ∧ c'.addr = c.addr ∧ (c.waits → (s.pool .outbound).lock ≠ none → c'.waits)

theorem CallsStep.set {cfg : Cfg ε} {act : Action ε} {s s1 : State ε} {k : Nat} {c c' : Call ε} (hc : s.calls[k]? = some c) (h1 : s1.calls = s.calls) (h2 : c'.addr = c.addr) (hp : c.pc ≠ .get ∨ c.left = 0) : CallsStep cfg act s (s1.setCall k c') :=
  .inr (.inr ⟨k, c, c', hc, by simp [State.setCall, h1], h2, fun h => by rcases hp with hp | hp; exact absurd h.1 hp; exact absurd h.2 (by omega)⟩)

theorem closeClient_calls {cfg : Cfg ε} {act : Action ε} {s s1 s' : State ε} {j : Nat} (h : s.closeClient j s1 = some s') (hk : CallsStep cfg act s s1) : CallsStep cfg act s s' := by
  rcases closeClient_some h with rfl | h
  · exact hk
  · exact .inl (stepConn_same h).calls

theorem acceptStep_calls {cfg : Cfg ε} {s s' : State ε} (h : s.acceptStep cfg = some s') : s'.calls = s.calls := by
  unfold State.acceptStep at h
  split at h
  · cases h; rfl
  · exact get_pres (Q := fun s' => s'.calls = s.calls) h rfl (fun _ _ _ => ⟨rfl, rfl, rfl⟩)
  · rcases closeClient_some h with rfl | h
    · rfl
    · exact (stepConn_same h).calls
  · split at h
    · cases h; rfl
    · cases h
  · split at h
    · cases h; rfl
    · cases h
  · cases h; rfl
  · rcases closeClient_some h with rfl | h
    · rfl
    · exact (stepConn_same h).calls
  · split at h
    · cases h; rfl
    · cases h
  · split at h
    · next w hw =>
      cases hq : Wk.step w .closeQueue with
      | none => rw [hq] at h; cases h
      | some w' => rw [hq] at h; cases h; rfl
    · cases h
  · split at h
    · split at h
      · cases h; rfl
      · cases h
    · cases h
  · cases h; rfl
  · cases h; rfl
  · cases h

theorem callStep_calls {cfg : Cfg ε} {act : Action ε} {s s' : State ε} {k : Nat} {c : Call ε} (hc : s.calls[k]? = some c) (h : s.callStep cfg k c = some s') : CallsStep cfg act s s' := by
  unfold State.callStep at h
  split at h
  · next hpc =>
    split at h
    · next hl => cases h; exact .set hc rfl rfl (.inr hl)
    · next n hl =>
      by_cases hlock : (s.pool .outbound).lock = none
      · refine get_pres (Q := fun s' => CallsStep cfg act s s') h (.inl rfl) (fun _ _ _ => ?_)
        refine ⟨.inr (.inr ⟨k, c, _, hc, rfl, rfl, fun _ h => absurd hlock h⟩), .inr (.inr ⟨k, c, _, hc, rfl, rfl, fun _ h => absurd hlock h⟩), .inr (.inr ⟨k, c, _, hc, rfl, rfl, fun _ h => absurd hlock h⟩)⟩
      · simp [State.get, hlock] at h
  · next hpc => exact closeClient_calls h (.set hc rfl rfl (.inl (by simp [hpc])))
  · next hpc =>
    split at h
    · cases h; exact .set (s1 := s.evicted .outbound c.addr) hc rfl rfl (.inl (by simp [hpc]))
    · cases h
  · next hpc => exact closeClient_calls h (.set hc rfl rfl (.inl (by simp [hpc])))
  · next hpc =>
    split at h
    · cases h; exact .set hc rfl rfl (.inl (by simp [hpc]))
    · cases h
  · next hpc => cases h; exact .inr (.inr ⟨k, c, _, hc, rfl, rfl, fun h => absurd h.1 (by simp [hpc])⟩)
  · next j hpc =>
    split at h
    · cases h; exact .set hc rfl rfl (.inl (by simp [hpc]))
    · next data _ =>
      cases hq : s.stepConn j (.send ⟨0, data⟩) with
      | none => rw [hq] at h; cases h
      | some s1 => rw [hq] at h; cases h; exact .set hc (stepConn_same hq).calls rfl (.inl (by simp [hpc]))
    · next data _ =>
      split at h
      · cases hq : s.stepConn j (.reqStart data) with
        | none => rw [hq] at h; cases h
        | some s1 =>
          rw [hq] at h; cases h
          split <;> exact .set hc (stepConn_same hq).calls rfl (.inl (by simp [hpc]))
      · cases h
  · next j i hpc =>
    cases hq : s.stepConn j (.reqSend i) with
    | none => rw [hq] at h; cases h
    | some s1 => rw [hq] at h; cases h; exact .set hc (stepConn_same hq).calls rfl (.inl (by simp [hpc]))
  · cases h

theorem connStep_calls {s s' : State ε} {j : Nat} {a : Cl.Action ε} (h : s.connStep j a = some s') : s'.calls = s.calls := by
  unfold State.connStep at h
  split at h
  · next x hx =>
    split at h
    · split at h
      · exact (remove_keeps h).2.2.1
      · unfold State.route at h
        cases hc : Cl.step x.c .main with
        | none => rw [hc] at h; cases h
        | some c => rw [hc] at h; cases h; rfl
      · exact (stepConn_same h).calls
    · unfold State.deliver at h
      split at h
      · split at h
        · cases h
        · split at h
          · cases h
          · split at h
            · cases h; rfl
            · split at h
              · cases hq : s.stepConn j .deliver with
                | none => rw [hq] at h; cases h
                | some s1 => rw [hq] at h; cases h; exact (stepConn_same hq).calls
              · cases h
      · cases h
    all_goals first
      | cases h
      | exact (stepConn_same h).calls
  · cases h

theorem workStep_calls {s s' : State ε} {w : Nat} (h : s.workStep w = some s') : s'.calls = s.calls := by
  unfold State.workStep at h
  split at h
  · next q hq =>
    simp only at h
    cases hn : Wk.step q (.work w) with
    | none => rw [hn] at h; split at h <;> simp_all
    | some q' =>
      rw [hn] at h
      split at h
      · split at h
        · next heq =>
          cases heq
          exact (stepConn_same h).calls
        · cases h
      · split at h
        · next heq =>
          cases heq
          rcases closeClient_some h with rfl | h
          · rfl
          · exact (stepConn_same h).calls
        · cases h
      · cases h; rfl
  · cases h

theorem ctxSend_calls {s s' : State ε} {k h : Nat} {data : Bytes} (hs : s.ctxSend k h data = some s') : s'.calls = s.calls := by
  unfold State.ctxSend at hs
  split at hs
  · split at hs
    · split at hs
      · cases hs; rfl
      · exact (stepConn_same hs).calls
    · cases hs
  · cases hs

theorem step_calls {cfg : Cfg ε} {s s' : State ε} {a : Action ε} (h : step cfg s a = some s') : CallsStep cfg a s s' := by
  unfold step at h
  split at h
  · cases h
  · cases a with
    | listen => simp only at h; split at h; cases h; exact .inl rfl; cases h
    | acceptConn a => simp only at h; split at h; cases h; exact .inl rfl; cases h
    | acceptFail => simp only at h; split at h; cases h; exact .inl rfl; cases h
    | acceptStep => exact .inl (acceptStep_calls h)
    | acceptRelease l =>
      simp only at h
      split at h
      · split at h
        · cases h; exact .inl (drops_same l s).calls
        · cases h
      · cases h
    | close => simp only at h; split at h <;> · cases h; exact .inl rfl
    | closeListener c => simp only at h; split at h; cases h; exact .inl rfl; cases h
    | closeRecv c =>
      simp only at h
      split at h
      · split at h
        · cases h; exact .inl rfl
        · split at h
          · cases h; exact .inl rfl
          · cases h
      · cases h
    | list side => simp only at h; split at h; cases h; exact .inl rfl; cases h
    | appClose j => exact .inl (stepConn_same h).calls
    | call kind addr => cases h; exact .inr (.inl ⟨kind, addr, rfl, rfl⟩)
    | expire k =>
      simp only at h
      cases hc : s.calls[k]? with
      | none => rw [hc] at h; cases h
      | some c =>
        rw [hc] at h; cases h
        exact .inr (.inr ⟨k, c, _, hc, rfl, rfl, fun h _ => h⟩)
    | callStep k =>
      simp only at h
      split at h
      · next c hc => exact callStep_calls hc h
      · cases h
    | select k b =>
      simp only at h
      split at h
      · next c hc =>
        split at h
        · next j hpc =>
          split at h
          · split at h
            · split at h <;> · cases h; exact .set hc rfl rfl (.inl (by simp [hpc]))
            · cases h
          · cases h
        · cases h
      · cases h
    | take k =>
      simp only at h
      split at h
      · next c hc =>
        split at h
        · next j i hpc =>
          split at h
          · next s1 h1 =>
            split at h
            · split at h <;> · cases h; exact .set hc (stepConn_same h1).calls rfl (.inl (by simp [hpc]))
            · cases h
          · cases h
        · cases h
      · cases h
    | cancel k =>
      simp only at h
      split at h
      · next c hc =>
        split at h
        · next j i hpc =>
          split at h
          · cases hq : s.stepConn j (.reqCancel i) with
            | none => rw [hq] at h; cases h
            | some s1 => rw [hq] at h; cases h; exact .set hc (stepConn_same hq).calls rfl (.inl (by simp [hpc]))
          · cases h
        · cases h
      · cases h
    | conn j act => exact .inl (connStep_calls h)
    | work w => exact .inl (workStep_calls h)
    | handlerReturn w r =>
      simp only at h
      split at h
      · next q hq =>
        cases hn : Wk.step q (.handlerReturn w r) with
        | none => rw [hn] at h; cases h
        | some q' => rw [hn] at h; cases h; exact .inl rfl
      · cases h
    | ctxSend k h' data => exact .inl (ctxSend_calls h)

/-- Calls that wait for a mutex that is never released. -/
theorem locked_waits {cfg : Cfg ε} {s s' : State ε} {a : Action ε} {k : Nat} {c : Call ε} (h : step cfg s a = some s') (hc : s.calls[k]? = some c) (hl : (s.pool .outbound).lock ≠ none) (hw : c.waits) :
    ∃ c', s'.calls[k]? = some c' ∧ c'.waits := by
  have hlt := (List.getElem?_eq_some_iff.1 hc).1
  rcases step_calls h with h | ⟨_, _, -, h⟩ | ⟨i, c0, c', h1, h2, -, h4⟩
  · exact ⟨c, by rw [h]; exact hc, hw⟩
  · exact ⟨c, by rw [h, List.getElem?_append_left hlt]; exact hc, hw⟩
  · by_cases hi : i = k
    · subst hi
      rw [hc] at h1; cases h1
      exact ⟨c', by rw [h2]; simp [hlt], h4 hw hl⟩
    · exact ⟨c, by rw [h2, List.getElem?_set_ne hi]; exact hc, hw⟩

/-- The accept goroutine gets the address of a connection from `Accept`. -/
theorem get_from {cfg : Cfg ε} {s s' : State ε} {a : Action ε} {b : Text} (h : step cfg s a = some s') (hb : s'.accept = .get b) : s.accept = .get b ∨ a = .acceptConn b := by
  by_cases ha : a.other = true
  · exact .inl ((step_keeps ha h).accept.symm.trans hb)
  unfold step at h
  split at h
  · cases h
  · cases a with
    | listen => simp only at h; split at h; cases h; cases hb; cases h
    | acceptConn a => simp only at h; split at h; cases h; cases hb; exact .inr rfl; cases h
    | acceptFail => simp only at h; split at h; cases h; cases hb; cases h
    | acceptStep =>
      simp only at h
      unfold State.acceptStep at h
      split at h
      · cases h; cases hb
      · next a ha => exact get_pres (Q := fun s' => s'.accept = .get b → (s.accept = .get b ∨ (Action.acceptStep : Action ε) = .acceptConn b)) h (fun h => .inl h) (fun _ _ _ => by simp) hb
      · next ha =>
        rcases closeClient_some h with rfl | h
        · cases hb
        · exact .inl ((stepConn_same h).accept.symm.trans hb)
      · split at h
        · cases h; cases hb
        · cases h
      · split at h
        · cases h; cases hb
        · cases h
      · cases h; cases hb
      · rcases closeClient_some h with rfl | h
        · cases hb
        · exact .inl ((stepConn_same h).accept.symm.trans hb)
      · split at h
        · cases h; cases hb
        · cases h
      · split at h
        · next w hw =>
          cases hq : Wk.step w .closeQueue with
          | none => rw [hq] at h; cases h
          | some w' => rw [hq] at h; cases h; cases hb
        · cases h
      · split at h
        · split at h
          · cases h; cases hb
          · cases h
        · cases h
      · cases h; cases hb
      · cases h; cases hb
      · cases h
    | acceptRelease l =>
      simp only at h
      split at h
      · split at h
        · cases h; cases hb
        · cases h
      · cases h
    | close => simp only at h; split at h <;> · cases h; exact .inl hb
    | closeListener c => simp only at h; split at h; cases h; exact .inl hb; cases h
    | closeRecv c =>
      simp only at h
      split at h
      · split at h
        · cases h; exact .inl hb
        · split at h
          · cases h; exact .inl hb
          · cases h
      · cases h
    | _ => exact absurd rfl ha

end Noise.Node
