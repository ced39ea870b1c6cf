import Verif.Proofs.NodeDone
/-! # The whole node: every step of closing it counts -/
namespace Noise.Node
variable {ε : Type}

/-- The clients that the accept goroutine closes, and the one that it waits for. -/
def RelInv (s : State ε) : Prop := ∀ l b, s.accept = .releasing l b →
  (∀ j ∈ l, ∃ x : Conn ε, s.conns[j]? = some x ∧ x.c.side = .inbound) ∧ (b = true → ∀ j l', l = j :: l' → ∃ x : Conn ε, s.conns[j]? = some x ∧ x.c.once = .done)

theorem run_side {c c' : Cl.State ε} {as : List (Cl.Action ε)} (hs : Cl.run c as = some c') : c'.side = c.side :=
  Cl.run_inv (P := fun d => d.side = c.side) (fun _ _ _ hd hs => (Cl.side_step hs).trans hd) hs rfl

theorem run_once {c c' : Cl.State ε} {as : List (Cl.Action ε)} (hs : Cl.run c as = some c') (h : c.once = .done) : c'.once = .done := by
  have := once_run hs
  rw [h] at this
  cases hc : c'.once <;> simp_all [onceLeft]

theorem RelInv.same {cfg : Cfg ε} {s s' : State ε} {a : Action ε} (hi : RelInv s) (h : step cfg s a = some s') (ha : s'.accept = s.accept) : RelInv s' := by
  intro l b hl
  rw [ha] at hl
  obtain ⟨h1, h2⟩ := hi l b hl
  refine ⟨fun j hj => ?_, fun hb j l' he => ?_⟩
  · obtain ⟨x, hx, hs⟩ := h1 j hj
    obtain ⟨x', as, hx', hr, -⟩ := step_trace h j x hx
    exact ⟨x', hx', (run_side hr).trans hs⟩
  · obtain ⟨x, hx, hs⟩ := h2 hb j l' he
    obtain ⟨x', as, hx', hr, -⟩ := step_trace h j x hx
    exact ⟨x', hx', run_once hr hs⟩

theorem RelInv.of_ne {s : State ε} (h : ∀ l b, s.accept ≠ .releasing l b) : RelInv s := fun l b hl => absurd hl (h l b)

theorem closeClient_done {s s1 s' : State ε} {j : Nat} (h : s.closeClient j s1 = some s') : (s' = s1 ∧ ∃ x : Conn ε, s.conns[j]? = some x ∧ x.c.once = .done) ∨ s.stepConn j .closeBegin = some s' := by
  unfold State.closeClient at h
  split at h
  · next x hx =>
    split at h
    · exact .inr h
    · cases h
    · next hd => cases h; exact .inl ⟨rfl, x, hx, hd⟩
  · cases h

theorem RelInv.step {cfg : Cfg ε} {s s' : State ε} {a : Action ε} (hr : Reachable cfg s) (hi : RelInv s) (h : step cfg s a = some s') : RelInv s' := by
  by_cases ho : a.other = true
  · exact hi.same h (step_keeps ho h).accept
  have h0 := h
  unfold Node.step at h
  split at h
  · cases h
  cases a with
  | listen => simp only at h; split at h; cases h; exact .of_ne (by simp); cases h
  | acceptConn a => simp only at h; split at h; cases h; exact .of_ne (by simp); cases h
  | acceptFail => simp only at h; split at h; cases h; exact .of_ne (by simp); cases h
  | acceptRelease l =>
    simp only at h
    split at h
    · split at h
      · next hp =>
        intro l' b hl
        have hacc : s'.accept = .releasing l false := by cases h; rfl
        rw [hacc] at hl; cases hl
        refine ⟨fun j hj => ?_, by simp⟩
        obtain ⟨e, he, rfl⟩ := List.mem_map.1 (hp.2.mem_iff.1 hj)
        obtain ⟨x, hx, -, hs, -⟩ := (Inv.reach hr).ent .inbound e he
        obtain ⟨x', as, hx', hr', -⟩ := step_trace h0 e.2 x hx
        exact ⟨x', hx', (run_side hr').trans hs⟩
      · cases h
    · cases h
  | close => refine hi.same h0 ?_; simp only at h; split at h <;> · cases h; rfl
  | closeListener c => refine hi.same h0 ?_; simp only at h; split at h; cases h; rfl; cases h
  | closeRecv c =>
    refine hi.same h0 ?_
    simp only at h
    split at h
    · split at h
      · cases h; rfl
      · split at h
        · cases h; rfl
        · cases h
    · cases h
  | acceptStep =>
    simp only at h
    unfold State.acceptStep at h
    split at h
    · cases h; exact .of_ne (by simp)
    · next a hacc =>
      refine .of_ne ?_
      unfold State.get at h
      simp only at h
      split at h
      · cases h
      · split at h
        · cases h; simp
        · split at h
          · split at h
            · cases h; simp
            · cases h; simp [hacc]
          · cases h; simp
    · next v a hacc =>
      rcases closeClient_done h with ⟨rfl, -⟩ | h
      · exact .of_ne (by simp)
      · exact .of_ne (by rw [(stepConn_same h).accept, hacc]; simp)
    · split at h
      · cases h; exact .of_ne (by simp)
      · cases h
    · split at h
      · cases h; exact .of_ne (by simp)
      · cases h
    · cases h; exact .of_ne (by simp)
    · next j l hacc =>
      rcases closeClient_done h with ⟨rfl, x, hx, hd⟩ | h
      · intro l' b hl
        simp only at hl; cases hl
        refine ⟨(hi _ _ hacc).1, fun _ j' l' he => ?_⟩
        cases he
        exact ⟨x, hx, hd⟩
      · exact hi.same h0 (stepConn_same h).accept
    · next j l hacc =>
      split at h
      · cases h
        intro l' b hl
        simp only at hl; cases hl
        exact ⟨fun i hi' => (hi _ _ hacc).1 i (List.mem_cons_of_mem _ hi'), by simp⟩
      · cases h
    · split at h
      · next w hw =>
        cases hq : Wk.step w .closeQueue with
        | none => rw [hq] at h; cases h
        | some w' => rw [hq] at h; cases h; exact .of_ne (by simp)
      · cases h
    · split at h
      · split at h
        · cases h; exact .of_ne (by simp)
        · cases h
      · cases h
    · cases h; exact .of_ne (by simp)
    · cases h; exact .of_ne (by simp)
    · cases h
  | _ => simp [Action.other] at ho

theorem RelInv.reach {cfg : Cfg ε} {s : State ε} (h : Reachable cfg s) : RelInv s :=
  h.ind (P := fun s => RelInv s) (.of_ne (by simp [State.new])) (fun _ _ _ hr hi h => hi.step hr h)

theorem acceptLeft_mono {n n' : Nat} (h : n' ≤ n) (a : Accept) : acceptLeft n' a ≤ acceptLeft n a := by
  cases a <;> simp only [acceptLeft] <;> omega

/-- The accept loop stays over. -/
theorem over_step {cfg : Cfg ε} {s s' : State ε} {a : Action ε} (ho : s.over) (h : step cfg s a = some s') : s'.over := by
  by_cases hot : a.other = true
  · have := step_keeps hot h
    unfold State.over at ho ⊢
    rw [this.accept, this.listenerOpen]; exact ho
  have h0 := h
  unfold Node.step at h
  split at h
  · cases h
  cases a with
  | listen =>
    simp only at h
    split at h
    · next hacc => simp [State.over, hacc] at ho
    · cases h
  | acceptConn a =>
    simp only at h
    split at h
    · next hacc hl => simp [State.over, hacc, hl] at ho
    · cases h
  | acceptFail => simp only at h; split at h; cases h; simp [State.over]; cases h
  | acceptRelease l =>
    simp only at h
    split at h
    · split at h
      · cases h; simp [State.over]
      · cases h
    · cases h
  | close => simp only at h; split at h <;> · cases h; exact ho
  | closeListener c => simp only at h; split at h; cases h; unfold State.over at ho ⊢; split <;> simp_all; cases h
  | closeRecv c =>
    simp only at h
    split at h
    · split at h
      · cases h; exact ho
      · split at h
        · cases h; exact ho
        · cases h
    · cases h
  | acceptStep =>
    simp only at h
    unfold State.acceptStep at h
    split at h
    · next hacc => simp [State.over, hacc] at ho
    · next a hacc => simp [State.over, hacc] at ho
    · next v a hacc => simp [State.over, hacc] at ho
    · next v a hacc => simp [State.over, hacc] at ho
    · split at h
      · cases h; simp [State.over]
      · cases h
    · cases h; simp [State.over]
    · next j l hacc =>
      rcases closeClient_done h with ⟨rfl, x, hx, hd⟩ | h
      · simp [State.over]
      · simp [State.over, (stepConn_same h).accept, hacc]
    · next j l hacc =>
      split at h
      · cases h; simp [State.over]
      · cases h
    · split at h
      · next w hw =>
        cases hq : Wk.step w .closeQueue with
        | none => rw [hq] at h; cases h
        | some w' => rw [hq] at h; cases h; simp [State.over]
      · cases h
    · split at h
      · split at h
        · cases h; simp [State.over]
        · cases h
      · cases h
    · cases h; simp [State.over]
    · cases h; simp [State.over]
    · cases h
  | _ => simp [Action.other] at hot

theorem callStep_wkEq {cfg : Cfg ε} {s s' : State ε} {k : Nat} {c : Call ε} (h : s.callStep cfg k c = some s') : s'.wk = s.wk := by
  have hcc : ∀ {j : Nat} {s1 s2 : State ε}, s.closeClient j s1 = some s2 → s1.wk = s.wk → s2.wk = s.wk := fun h h1 => by
    rcases closeClient_wk h with ⟨h2, -⟩ | ⟨h2, -⟩
    · exact h2.trans h1
    · exact h2
  unfold State.callStep at h
  split at h
  · split at h
    · cases h; rfl
    · unfold State.get at h
      simp only at h
      split at h
      · cases h
      · split at h
        · cases h; rfl
        · split at h
          · split at h
            · cases h; exact (drop_same _ _).wk
            · cases h; rfl
          · cases h; rfl
  · exact hcc h rfl
  · split at h
    · cases h; rfl
    · cases h
  · exact hcc h rfl
  · split at h
    · cases h; rfl
    · cases h
  · cases h; rfl
  · next j hpc =>
    split at h
    · cases h; rfl
    · next data _ =>
      cases hq : s.stepConn j (.send ⟨0, data⟩) with
      | none => rw [hq] at h; cases h
      | some s1 => rw [hq] at h; cases h; exact (stepConn_same hq).wk
    · next data _ =>
      split at h
      · cases hq : s.stepConn j (.reqStart data) with
        | none => rw [hq] at h; cases h
        | some s1 =>
          rw [hq] at h; cases h
          split <;> exact (stepConn_same hq).wk
      · cases h
  · next j i hpc =>
    cases hq : s.stepConn j (.reqSend i) with
    | none => rw [hq] at h; cases h
    | some s1 => rw [hq] at h; cases h; exact (stepConn_same hq).wk
  · cases h

/-- A step of client `j`: what it does, and what is done to it besides. -/
theorem connStep_exact {s s' : State ε} {j : Nat} {b : Cl.Action ε} {x : Conn ε} (hx : s.conns[j]? = some x) (h : s.connStep j b = some s') :
    (b = .deliver ∧ s' = { s with crashed := true } ∧ ∃ m w, x.c.main = .delivering m ∧ s.wk = some w ∧ w.queueClosed = true) ∨
    (∃ x' c1 as, s'.conns[j]? = some x' ∧ Cl.step x.c b = some c1 ∧ Cl.run c1 as = some x'.c ∧ ∀ a ∈ as, byNode a = true) ∧
      ((b ≠ .deliver ∧ s'.wk = s.wk) ∨ b = .deliver ∧ ∃ w w' m, s.wk = some w ∧ s'.wk = some w' ∧ Wk.step w (.enqueue ⟨j, m⟩) = some w') := by
  have hone : ∀ {s1 : State ε} {b : Cl.Action ε}, s.stepConn j b = some s1 → ∃ c1, Cl.step x.c b = some c1 ∧ s1.conns[j]? = some { x with c := c1 } := fun hs => by
    obtain ⟨y, c, hy, hc, rfl⟩ := stepConn_some hs
    rw [hx] at hy; cases hy
    exact ⟨c, hc, List.getElem?_set_self (List.getElem?_eq_some_iff.1 hx).1⟩
  have hone' : ∀ {s1 : State ε} {b : Cl.Action ε}, s.stepConn j b = some s1 → ∃ x' c1 as, s1.conns[j]? = some x' ∧ Cl.step x.c b = some c1 ∧ Cl.run c1 as = some x'.c ∧ ∀ a ∈ as, byNode a = true := fun hs => by
    obtain ⟨c1, h1, h2⟩ := hone hs
    exact ⟨_, c1, [], h2, h1, rfl, by simp⟩
  unfold State.connStep at h
  rw [hx] at h
  simp only at h
  split at h
  · right
    split at h
    · unfold State.remove at h
      simp only at h
      split at h
      · cases h
      · split at h
        · next s1 h1 =>
          obtain ⟨c1, h2, h3⟩ := hone h1
          split at h
          · next e he =>
            cases h
            obtain ⟨x', as, h4, h5, h6, -⟩ := drop_follows (P := fun _ b => byNode b = true) (N := True) (fun _ _ h => h) (s1.setPool x.c.side { s.pool x.c.side with entries := (s.pool x.c.side).entries.filter (fun q => q.1 ≠ x.addr) }) e.2 j _ h3
            exact ⟨⟨x', c1, as, h4, h2, h5, h6⟩, .inl ⟨by simp, (drop_same _ _).wk.trans (stepConn_same h1).wk⟩⟩
          · cases h; exact ⟨⟨_, c1, [], h3, h2, rfl, by simp⟩, .inl ⟨by simp, (stepConn_same h1).wk⟩⟩
        · cases h
    · unfold State.route at h
      cases hc : Cl.step x.c .main with
      | none => rw [hc] at h; cases h
      | some c =>
        rw [hc] at h; cases h
        exact ⟨⟨_, c, [], List.getElem?_set_self (List.getElem?_eq_some_iff.1 hx).1, rfl, rfl, by simp⟩, .inl ⟨by simp, rfl⟩⟩
    · exact ⟨hone' h, .inl ⟨by simp, (stepConn_same h).wk⟩⟩
  · unfold State.deliver at h
    split at h
    · next m hm =>
      split at h
      · cases h
      · split at h
        · cases h
        · next w hw =>
          split at h
          · next hcl => cases h; exact .inl ⟨rfl, rfl, m, w, hm, hw, hcl⟩
          · split at h
            · next w' hw' =>
              cases hq : s.stepConn j .deliver with
              | none => rw [hq] at h; cases h
              | some s1 =>
                rw [hq] at h; cases h
                obtain ⟨x', c1, as, g1, g2, g3, g4⟩ := hone' hq
                exact .inr ⟨⟨x', c1, as, g1, g2, g3, g4⟩, .inr ⟨rfl, w, w', _, hw, rfl, hw'⟩⟩
            · cases h
    · cases h
  all_goals first
    | cases h
    | exact .inr ⟨hone' h, .inl ⟨by simp_all, (stepConn_same h).wk⟩⟩

theorem numHandlers_step {w w' : Wk.State ε} {act : Wk.Action ε} (h : Wk.step w act = some w') : w'.numHandlers = w.numHandlers := by
  unfold Wk.step at h
  split at h
  all_goals
    (repeat' split at h)
    all_goals first
      | (cases h; done)
      | (cases h; rfl)
      | (cases h; unfold Wk.State.ctxSend; split <;> (try split) <;> rfl)

theorem numHandlers_reach {cfg : Cfg ε} {s : State ε} (hr : Reachable cfg s) {w : Wk.State ε} (hw : s.wk = some w) : w.numHandlers = cfg.numHandlers :=
  ((Stage.reach hr).workers w hw).inv (P := fun w => w.numHandlers = cfg.numHandlers) (fun _ _ _ h hs => (numHandlers_step hs).trans h) rfl

/-- **Every step of closing a node counts**, and only few things add to what is left. -/
theorem left_step {cfg : Cfg ε} {s s' : State ε} {a : Action ε} (hr : Reachable cfg s) (ho : s.over) (h : step cfg s a = some s') :
    s'.left cfg + (if s.own a then 1 else 0) ≤ s.left cfg + (if s.feeds a then 2 * cfg.numHandlers + 6 else 0) := by
  have hE := entries_le ho h
  have hO := onceLeft_le ho h
  have hN : ∀ w, s.wk = some w → w.numHandlers = cfg.numHandlers := fun w hw => numHandlers_reach hr hw
  have h0 := h
  have hA : a.other = true → acceptLeft (s'.pool .inbound).entries.length s'.accept ≤ acceptLeft (s.pool .inbound).entries.length s.accept ∧ s'.closers = s.closers := fun ha => by
    rw [(step_keeps ha h0).accept]
    exact ⟨acceptLeft_mono hE _, (step_keeps ha h0).closers⟩
  have hW : ∀ wk : Option (Wk.State ε), workLeft cfg.numHandlers s'.onceLeft wk ≤ workLeft cfg.numHandlers s.onceLeft wk := workLeft_mono hO
  have hC : (∀ j b, a ≠ .conn j b) → (s'.conns.map (connLeft cfg.numHandlers)).sum ≤ (s.conns.map (connLeft cfg.numHandlers)).sum := conns_le _ ho h0
  unfold State.left
  unfold Node.step at h
  split at h
  · cases h
  have hcalls : a.other = true → (∀ j b, a ≠ .conn j b) → s'.wk = s.wk → s.own a = false →
      (s'.conns.map (connLeft cfg.numHandlers)).sum + workLeft cfg.numHandlers s'.onceLeft s'.wk + acceptLeft (s'.pool .inbound).entries.length s'.accept + (s'.closers.map closerLeft).sum + (if s.own a then 1 else 0) ≤
      (s.conns.map (connLeft cfg.numHandlers)).sum + workLeft cfg.numHandlers s.onceLeft s.wk + acceptLeft (s.pool .inbound).entries.length s.accept + (s.closers.map closerLeft).sum + (if s.feeds a then 2 * cfg.numHandlers + 6 else 0) := by
    intro h1 h2 h3 h4
    have hA := hA h1
    have hC := hC h2
    have hW := hW s.wk
    rw [h3, h4, hA.2]
    simp only [Bool.false_eq_true, if_false]
    omega
  cases a with
  | listen =>
    simp only at h
    split at h
    · next hacc => simp [State.over, hacc] at ho
    · cases h
  | acceptConn a =>
    simp only at h
    split at h
    · next hacc hl => simp [State.over, hacc, hl] at ho
    · cases h
  | acceptFail =>
    simp only at h
    split at h
    · next hacc =>
      cases h
      simp only [State.feeds, hacc, acceptLeft]
      have : State.onceLeft { s with accept := .report } = s.onceLeft := rfl
      rw [this]
      split <;> simp <;> omega
    · cases h
  | acceptStep =>
    have hC := hC (by simp)
    have hA := acceptLeft_mono hE
    simp only [State.own, State.feeds, if_true, Bool.false_eq_true, if_false]
    have hgo : s'.conns = s.conns → s'.closers = s.closers → workLeft cfg.numHandlers s'.onceLeft s'.wk ≤ workLeft cfg.numHandlers s.onceLeft s.wk →
        acceptLeft (s'.pool .inbound).entries.length s'.accept < acceptLeft (s.pool .inbound).entries.length s.accept →
        (s'.conns.map (connLeft cfg.numHandlers)).sum + workLeft cfg.numHandlers s'.onceLeft s'.wk + acceptLeft (s'.pool .inbound).entries.length s'.accept + (s'.closers.map closerLeft).sum + 1 ≤
        (s.conns.map (connLeft cfg.numHandlers)).sum + workLeft cfg.numHandlers s.onceLeft s.wk + acceptLeft (s.pool .inbound).entries.length s.accept + (s.closers.map closerLeft).sum + 0 := by
      intro _ h2 h3 h4
      rw [h2]; omega
    simp only at h
    unfold State.acceptStep at h
    split at h
    · next hacc => simp [State.over, hacc] at ho
    · next a hacc => simp [State.over, hacc] at ho
    · next v a hacc => simp [State.over, hacc] at ho
    · next v a hacc => simp [State.over, hacc] at ho
    · next hacc =>
      split at h
      · cases h; exact hgo rfl rfl (hW _) (by simp [acceptLeft, hacc])
      · cases h
    · next b hacc => cases h; exact hgo rfl rfl (hW _) (by simp only [acceptLeft, hacc, List.length_nil]; omega)
    · next j l hacc =>
      rcases closeClient_done h with ⟨rfl, x, hx, hd⟩ | h
      · exact hgo rfl rfl (hW _) (by simp [acceptLeft, hacc])
      · obtain ⟨x, hx, hs⟩ := (RelInv.reach hr _ _ hacc).1 j (List.mem_cons_self)
        have hsame := stepConn_same h
        have hW := hW s.wk
        obtain ⟨y, c, hy, hc, e⟩ := stepConn_some h
        rw [hx] at hy; cases hy
        have hst := clLeft_step (h := cfg.numHandlers) hc hs
        have hc' := sum_step (connLeft cfg.numHandlers) (connLeft cfg.numHandlers) (l' := s'.conns) (x' := { x with c := c }) (a := 1) (b := 0) hx
          (by rw [e]; exact List.getElem?_set_self (List.getElem?_eq_some_iff.1 hx).1) hst
          (fun i y hi hy => by rw [e]; exact ⟨y, by rw [List.getElem?_set_ne (Ne.symm hi)]; exact hy, Nat.le_refl _⟩) (fun i y hy hl => by have := (List.getElem?_eq_some_iff.1 hy).1; rw [e, List.length_set] at this; omega)
        rw [hsame.wk, hsame.accept, hsame.closers, hsame.pool]
        omega
    · next j l hacc =>
      split at h
      · cases h; exact hgo rfl rfl (hW _) (by simp only [acceptLeft, hacc, List.length_cons]; simp; omega)
      · cases h
    · next hacc =>
      split at h
      · next w hw =>
        cases hq : Wk.step w .closeQueue with
        | none => rw [hq] at h; cases h
        | some w' =>
          rw [hq] at h; cases h
          have h6 := workLeft_step (once := s.onceLeft) s.onceLeft_two (hN w hw) hq
          simp only [wkAdds, wkReduces] at h6
          exact hgo rfl rfl (by rw [hw]; exact Nat.le_trans (hW _) h6) (by simp [acceptLeft, hacc])
      · cases h
    · next hacc =>
      split at h
      · split at h
        · cases h; exact hgo rfl rfl (hW _) (by simp [acceptLeft, hacc])
        · cases h
      · cases h
    · next hacc => cases h; exact hgo rfl rfl (hW _) (by simp [acceptLeft, hacc])
    · next hacc => cases h; exact hgo rfl rfl (hW _) (by simp [acceptLeft, hacc])
    · cases h
  | acceptRelease l =>
    simp only at h
    split at h
    · next hacc =>
      split at h
      · next hp =>
        have hC := hC (by simp)
        have hW := hW s.wk
        have hd := drops_same l s
        have h1 : s'.wk = s.wk := by cases h; exact hd.wk
        have h2 : s'.closers = s.closers := by cases h; exact hd.closers
        have h3 : s'.accept = .releasing l false := by cases h; rfl
        rw [h1, h2, h3]
        have := hp.2.length_eq
        simp only [List.length_map] at this
        simp [State.own, State.feeds, acceptLeft, hacc]
        omega
      · cases h
    · cases h
  | close =>
    have hC := hC (by simp)
    have hW := hW s.wk
    have h1 : s'.wk = s.wk ∧ s'.accept = s.accept ∧ (s'.closers = s.closers ++ [.closing] ∨ s'.closers = s.closers ++ [.waiting]) := by
      simp only at h
      split at h <;> · cases h; simp
    have hA := acceptLeft_mono hE s.accept
    rw [h1.1, h1.2.1]
    simp only [State.own, State.feeds, if_true, Bool.false_eq_true, if_false]
    rcases h1.2.2 with h2 | h2 <;> rw [h2] <;> simp only [List.map_append, List.map_cons, List.map_nil, List.sum_append, List.sum_cons, List.sum_nil, closerLeft] <;> omega
  | closeListener c =>
    simp only at h
    split at h
    · next hc =>
      have hC := hC (by simp)
      have hW := hW s.wk
      have h1 : s'.wk = s.wk ∧ s'.accept = s.accept ∧ s'.closers = s.closers.set c .waiting := by cases h; simp
      have hA := acceptLeft_mono hE s.accept
      have := sum_step closerLeft closerLeft (l' := s.closers.set c .waiting) (a := 1) (b := 0) hc (List.getElem?_set_self (List.getElem?_eq_some_iff.1 hc).1) (by simp [closerLeft])
        (fun i y hi hy => ⟨y, by rw [List.getElem?_set_ne (Ne.symm hi)]; exact hy, Nat.le_refl _⟩) (fun i y hy hl => by have := (List.getElem?_eq_some_iff.1 hy).1; rw [List.length_set] at this; omega)
      rw [h1.1, h1.2.1, h1.2.2]
      simp only [State.own, State.feeds, if_true, Bool.false_eq_true, if_false]
      omega
    · cases h
  | closeRecv c =>
    simp only at h
    split at h
    · next hc =>
      have hset : ∀ c', closerLeft c' = 0 → ((s.closers.set c c').map closerLeft).sum + 1 ≤ (s.closers.map closerLeft).sum + 0 := fun c' hc' =>
        sum_step closerLeft closerLeft hc (List.getElem?_set_self (List.getElem?_eq_some_iff.1 hc).1) (by rw [hc']; simp [closerLeft])
          (fun i y hi hy => ⟨y, by rw [List.getElem?_set_ne (Ne.symm hi)]; exact hy, Nat.le_refl _⟩) (fun i y hy hl => by have := (List.getElem?_eq_some_iff.1 hy).1; rw [List.length_set] at this; omega)
      have hC := hC (by simp)
      have hW := hW s.wk
      have h1 : s'.wk = s.wk ∧ s'.accept = s.accept ∧ ∃ c', closerLeft c' = 0 ∧ s'.closers = s.closers.set c c' := by
        split at h
        · cases h; exact ⟨rfl, rfl, _, rfl, rfl⟩
        · split at h
          · cases h; exact ⟨rfl, rfl, _, rfl, rfl⟩
          · cases h
      obtain ⟨h1, h2, c', h3, h4⟩ := h1
      have hA := acceptLeft_mono hE s.accept
      have := hset c' h3
      rw [h1, h2, h4]
      simp only [State.own, State.feeds, if_true, Bool.false_eq_true, if_false]
      omega
    · cases h
  | list side => refine hcalls rfl (by simp) ?_ rfl; simp only at h; split at h; cases h; rfl; cases h
  | appClose j => exact hcalls rfl (by simp) (stepConn_same h).wk rfl
  | call kind addr => cases h; exact hcalls rfl (by simp) rfl rfl
  | expire k =>
    refine hcalls rfl (by simp) ?_ rfl
    simp only at h
    cases hc : s.calls[k]? with
    | none => rw [hc] at h; cases h
    | some c => rw [hc] at h; cases h; rfl
  | callStep k =>
    refine hcalls rfl (by simp) ?_ rfl
    simp only at h
    split at h
    · exact callStep_wkEq h
    · cases h
  | select k b =>
    refine hcalls rfl (by simp) ?_ rfl
    simp only at h
    repeat' split at h
    all_goals first
      | (cases h; done)
      | (cases h; rfl)
  | take k =>
    refine hcalls rfl (by simp) ?_ rfl
    simp only at h
    split at h
    · split at h
      · split at h
        · next s1 h1 =>
          split at h
          · split at h <;> · cases h; exact (stepConn_same h1).wk
          · cases h
        · cases h
      · cases h
    · cases h
  | cancel k =>
    refine hcalls rfl (by simp) ?_ rfl
    simp only at h
    split at h
    · split at h
      · next j i _ =>
        split at h
        · cases hq : s.stepConn j (.reqCancel i) with
          | none => rw [hq] at h; cases h
          | some s1 => rw [hq] at h; cases h; exact (stepConn_same hq).wk
        · cases h
      · cases h
    · cases h
  | conn j b =>
    have hA := hA rfl
    cases hx : s.conns[j]? with
    | none => simp [State.connStep, hx] at h
    | some x =>
      rcases connStep_exact hx h with ⟨rfl, rfl, m, w, hm, hw, hq⟩ | ⟨⟨x', c1, as, h1, h2, h3, h4⟩, h5⟩
      · -- the process panics
        cases hs : x.c.side with
        | outbound =>
          simp only [State.own, State.feeds, hx, hs]
          have : State.onceLeft { s with crashed := true } = s.onceLeft := rfl
          rw [this]
          simp
        | inbound =>
          have hi := Stage.reach hr
          exact absurd ⟨x, hx, hs, by rintro (h | h) <;> rw [hm] at h <;> cases h⟩ (hi.gone (by have := hi.queue w hw hq; omega) j)
      · have hrun := clLeft_run (h := cfg.numHandlers) h4 h3
        have hconn : ∀ c d : Nat, clLeft cfg.numHandlers c1 + c ≤ clLeft cfg.numHandlers x.c + d → (s'.conns.map (connLeft cfg.numHandlers)).sum + c ≤ (s.conns.map (connLeft cfg.numHandlers)).sum + d := fun c d hcd =>
          sum_step _ _ hx h1 (by simp only [connLeft_eq]; omega) (fun i y hi hy => by
            obtain ⟨y', bs, g1, g2, g3⟩ := step_trace h0 i y hy
            exact ⟨y', g1, clLeft_run (fun b hb => (g3 b hb).resolve_right (fun e => by cases e; exact hi rfl)) g2⟩)
            (fun i y hy hl => by rw [connLeft_eq, new_conns ho h0 i y hy hl]; exact clLeft_out rfl)
        rw [hA.2]
        have hA := hA.1
        cases hs : x.c.side with
        | inbound =>
          have hst := clLeft_step (h := cfg.numHandlers) h2 hs
          have hc := hconn _ _ hst
          rcases h5 with ⟨hb, hw⟩ | ⟨rfl, w, w', it, hw, hw', hen⟩
          · rw [hw]
            have hW := hW s.wk
            have : (if s.own (.conn j b) = true then 1 else 0) ≤ reduces cfg.numHandlers b := by
              simp only [State.own, hx]
              cases b <;> simp [reduces] <;> split <;> simp
            have : adds cfg.numHandlers b ≤ (if s.feeds (.conn j b) = true then 2 * cfg.numHandlers + 6 else 0) := by
              cases b <;> simp [adds, State.feeds]
            omega
          · have h6 := workLeft_step (once := s.onceLeft) s.onceLeft_two (hN w hw) hen
            have hW := hW (some w')
            rw [hw, hw']
            simp only [reduces, adds, wkAdds, wkReduces] at hc h6
            have : (if s.own (.conn j .deliver) = true then 1 else 0) ≤ 1 := by split <;> simp
            omega
        | outbound =>
          have hc := hconn 0 0 (by rw [clLeft_out ((Cl.side_step h2).trans hs)]; exact Nat.zero_le _)
          rcases h5 with ⟨hb, hw⟩ | ⟨rfl, w, w', it, hw, hw', hen⟩
          · rw [hw]
            have hW' := hW s.wk
            by_cases hown : s.own (.conn j b) = true
            · rw [if_pos hown]
              have hcl : b = .closeConn ∧ s.closes j = true := by
                simp only [State.own, hx, hs] at hown
                cases b <;> simp_all
              obtain ⟨rfl, hcl⟩ := hcl
              have := workLeft_strict (h := cfg.numHandlers) hO (j := j) (by
                simp only [State.onceLeft, hx, h1]
                exact Nat.lt_of_le_of_lt (once_run h3) ((once_step h2).2.1 rfl)) hcl
              omega
            · rw [if_neg hown]; omega
          · have h6 := workLeft_step (once := s.onceLeft) s.onceLeft_two (hN w hw) hen
            have hW := hW (some w')
            rw [hw, hw']
            simp only [wkAdds, wkReduces] at h6
            simp only [State.own, State.feeds, hx, hs]
            simp
            omega
  | work i =>
    have hA := hA rfl
    have hC := hC (by simp)
    rw [hA.2]
    have hA := hA.1
    simp only [State.own, State.feeds, if_true, Bool.false_eq_true, if_false]
    simp only at h
    unfold State.workStep at h
    split at h
    · next w hw =>
      simp only at h
      rw [hw]
      have hW1 := hW (some w)
      have hfin : ∀ w', Wk.step w (.work i) = some w' → s'.wk = some w' → workLeft cfg.numHandlers s'.onceLeft s'.wk + 1 ≤ workLeft cfg.numHandlers s.onceLeft (some w) := fun w' h1 h2 => by
        have h6 := workLeft_step (once := s.onceLeft) s.onceLeft_two (hN w hw) h1
        have hW := hW (some w')
        rw [h2]
        simp only [wkAdds, wkReduces] at h6
        omega
      suffices hs : workLeft cfg.numHandlers s'.onceLeft s'.wk + 1 ≤ workLeft cfg.numHandlers s.onceLeft (some w) by omega
      cases hn : Wk.step w (.work i) with
      | none => rw [hn] at h; split at h <;> simp_all
      | some w' =>
        rw [hn] at h
        split at h
        · split at h
          · next h1 => cases h1; exact hfin w' hn (stepConn_same h).wk
          · cases h
        · next k hk =>
          split at h
          · next it s1 hit h1 =>
            cases h1
            rcases closeClient_done h with ⟨rfl, -⟩ | h
            · exact hfin w' hn rfl
            · have hcl : s.closes it.client = true := by
                simp only [State.closes, hw, List.any_eq_true]
                exact ⟨_, List.mem_of_getElem? hk, by simp [hit]⟩
              obtain ⟨y, c, hy, hc, e⟩ := stepConn_some h
              have := workLeft_strict (h := cfg.numHandlers) hO (j := it.client) (by
                simp only [State.onceLeft, hy, e]
                rw [List.getElem?_set_self (List.getElem?_eq_some_iff.1 hy).1]
                exact (once_step hc).2.2 rfl) hcl
              rw [(stepConn_same h).wk, ← hw]
              exact this
          · cases h
        · cases h; exact hfin w' hn rfl
    · cases h
  | handlerReturn i r =>
    have hA := hA rfl
    have hC := hC (by simp)
    rw [hA.2]
    have hA := hA.1
    simp only [State.own, State.feeds, if_true, Bool.false_eq_true, if_false]
    simp only at h
    split at h
    · next w hw =>
      cases hn : Wk.step w (.handlerReturn i r) with
      | none => rw [hn] at h; cases h
      | some w' =>
        rw [hn] at h
        have e : s'.wk = some w' := by cases h; rfl
        have h6 := workLeft_step (once := s.onceLeft) s.onceLeft_two (hN w hw) hn
        have hW := hW (some w')
        rw [e, hw]
        simp only [wkAdds, wkReduces] at h6
        omega
    · cases h
  | ctxSend k hd data =>
    have hA := hA rfl
    have hC := hC (by simp)
    rw [hA.2]
    have hA := hA.1
    simp only [State.own, State.feeds, Bool.false_eq_true, if_false]
    simp only at h
    unfold State.ctxSend at h
    split at h
    · next w hw =>
      split at h
      · next w' it h1 h2 =>
        have e : s'.wk = some w' := by
          split at h
          · cases h; rfl
          · exact (stepConn_same h).wk
        have h6 := workLeft_step (once := s.onceLeft) s.onceLeft_two (hN w hw) h1
        have hW := hW (some w')
        rw [e, hw]
        simp only [wkAdds, wkReduces] at h6
        omega
      · cases h
    · cases h

end Noise.Node
