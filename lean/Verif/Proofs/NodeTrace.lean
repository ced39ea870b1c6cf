import Verif.Proofs.NodeStage
/-! # The whole node: which actions of a client a step of the node consists of -/
namespace Noise.Node
variable {ε : Type}

/-- Actions of a client that are not its own: its node does them. -/
def byNode : Cl.Action ε → Bool
  | .send _ | .reqStart _ | .reqSend _ | .reqTake _ | .reqCancel _ | .handlerErr _ | .closeBegin | .poolDrop => true
  | _ => false

/-- Clients stay, and do only what `P` allows; they come to send on a nil channel only if `N`. -/
def Follows (P : Nat → Cl.Action ε → Prop) (N : Prop) (s s' : State ε) : Prop :=
  ∀ (j : Nat) (x : Conn ε), s.conns[j]? = some x →
    ∃ (x' : Conn ε) (as : List (Cl.Action ε)), s'.conns[j]? = some x' ∧ Cl.run x.c as = some x'.c ∧ (∀ a ∈ as, P j a) ∧ (x'.nilChan = true → x.nilChan = true ∨ N)

variable {P : Nat → Cl.Action ε → Prop} {N : Prop}

theorem Follows.of_eq {s s' : State ε} (h : s'.conns = s.conns) : Follows P N s s' := fun j x hx => ⟨x, [], by rw [h]; exact hx, rfl, by simp, .inl⟩

theorem Follows.refl (s : State ε) : Follows P N s s := .of_eq rfl

theorem Follows.trans {s s1 s2 : State ε} (h1 : Follows P N s s1) (h2 : Follows P N s1 s2) : Follows P N s s2 := by
  intro j x hx
  obtain ⟨x1, l1, a1, a2, a3, a4⟩ := h1 j x hx
  obtain ⟨x2, l2, b1, b2, b3, b4⟩ := h2 j x1 a1
  refine ⟨x2, l1 ++ l2, b1, ?_, ?_, fun h => (b4 h).elim a4 .inr⟩
  · rw [Cl.run_append, a2]; exact b2
  · intro a ha
    rcases List.mem_append.1 ha with ha | ha
    · exact a3 a ha
    · exact b3 a ha

theorem Follows.push {s s' : State ε} {x : Conn ε} (h : s'.conns = s.conns ++ [x]) : Follows P N s s' := by
  intro j y hy
  exact ⟨y, [], by rw [h, List.getElem?_append_left (List.getElem?_eq_some_iff.1 hy).1]; exact hy, rfl, by simp, .inl⟩

theorem Follows.set {s s' : State ε} {j : Nat} {x x' : Conn ε} {a : Cl.Action ε} (hx : s.conns[j]? = some x) (h : s'.conns = s.conns.set j x') (hs : Cl.step x.c a = some x'.c) (ha : P j a) (hn : x'.nilChan = true → x.nilChan = true ∨ N) : Follows P N s s' := by
  intro i y hy
  by_cases hij : j = i
  · subst hij
    rw [hx] at hy; cases hy
    exact ⟨x', [a], by rw [h, List.getElem?_set_self (List.getElem?_eq_some_iff.1 hx).1], by simp [Cl.run, hs], by simpa using ha, hn⟩
  · exact ⟨y, [], by rw [h, List.getElem?_set_ne hij]; exact hy, rfl, by simp, .inl⟩

theorem stepConn_follows {s s' : State ε} {j : Nat} {a : Cl.Action ε} (h : s.stepConn j a = some s') (ha : P j a) : Follows P N s s' := by
  unfold State.stepConn at h
  split at h
  · next x hx =>
    cases hc : Cl.step x.c a with
    | none => rw [hc] at h; cases h
    | some c => rw [hc] at h; cases h; exact .set hx rfl hc ha .inl
  · cases h

variable (ho : ∀ j b, byNode b = true → P j b)
include ho

theorem drop_follows (s : State ε) (j : Nat) : Follows P N s (s.drop j) := by
  unfold State.drop
  cases h : s.stepConn j .poolDrop with
  | none => exact .refl s
  | some s' => exact stepConn_follows h (ho _ _ rfl)

theorem drops_follows (l : List Nat) (s : State ε) : Follows P N s (l.foldl State.drop s) := by
  induction l generalizing s with
  | nil => exact .refl s
  | cons j l ih => exact (drop_follows ho s j).trans (ih _)

theorem closeClient_follows {s s1 s' : State ε} {j : Nat} (h : s.closeClient j s1 = some s') (h1 : s1.conns = s.conns) : Follows P N s s' := by
  rcases closeClient_some h with rfl | h
  · exact .of_eq h1
  · exact stepConn_follows h (ho _ _ rfl)

theorem get_follows {max : Nat} {s s' : State ε} {d : Cl.Side} {t : Tid} {a : Text} {found added evicts : State ε → Nat → State ε} (h : s.get max d t a found added evicts = some s')
    (hk : ∀ (s1 : State ε) (j : Nat), (found s1 j).conns = s1.conns ∧ (added s1 j).conns = s1.conns ∧ (evicts s1 j).conns = s1.conns) : Follows P N s s' := by
  unfold State.get at h
  simp only at h
  split at h
  · cases h
  · split at h
    · cases h; exact .of_eq (hk _ _).1
    · split at h
      · split at h
        · next e _ =>
          cases h
          exact Follows.trans (s1 := (s.setPool d ⟨some t, (s.pool d).entries.dropLast⟩).drop e.2) (Follows.trans (s1 := s.setPool d ⟨some t, (s.pool d).entries.dropLast⟩) (.of_eq rfl) (drop_follows ho _ e.2)) (.of_eq (hk _ _).2.2)
        · cases h; exact .of_eq rfl
      · cases h; exact .push (hk _ _).2.1

theorem acceptStep_follows {cfg : Cfg ε} {s s' : State ε} (h : s.acceptStep cfg = some s') : Follows P N s s' := by
  unfold State.acceptStep at h
  split at h
  · cases h; exact .of_eq rfl
  · exact get_follows ho h (fun _ _ => ⟨rfl, rfl, rfl⟩)
  · exact closeClient_follows ho h rfl
  · split at h
    · cases h; exact .push rfl
    · cases h
  · split at h
    · cases h; exact .of_eq rfl
    · cases h
  · cases h; exact .of_eq rfl
  · exact closeClient_follows ho h rfl
  · split at h
    · cases h; exact .of_eq rfl
    · cases h
  · split at h
    · next w hw =>
      cases hq : Wk.step w .closeQueue with
      | none => rw [hq] at h; cases h
      | some w' => rw [hq] at h; cases h; exact .of_eq rfl
    · cases h
  · split at h
    · split at h
      · cases h; exact .of_eq rfl
      · cases h
    · cases h
  · cases h; exact .of_eq rfl
  · cases h; exact .of_eq rfl
  · cases h

theorem callStep_follows {cfg : Cfg ε} {s s' : State ε} {k : Nat} {c : Call ε} (h : s.callStep cfg k c = some s') : Follows P N s s' := by
  unfold State.callStep at h
  split at h
  · split at h
    · cases h; exact .of_eq rfl
    · exact get_follows ho h (fun _ _ => ⟨rfl, rfl, rfl⟩)
  · exact closeClient_follows ho h rfl
  · split at h
    · cases h; exact .push rfl
    · cases h
  · exact closeClient_follows ho h rfl
  · split at h
    · cases h; exact .of_eq rfl
    · cases h
  · cases h; exact .of_eq rfl
  · next j hpc =>
    split at h
    · cases h; exact .of_eq rfl
    · next data _ =>
      cases hq : s.stepConn j (.send ⟨0, data⟩) with
      | none => rw [hq] at h; cases h
      | some s1 => rw [hq] at h; cases h; exact (stepConn_follows hq (ho _ _ rfl)).trans (.of_eq rfl)
    · next data _ =>
      split at h
      · cases hq : s.stepConn j (.reqStart data) with
        | none => rw [hq] at h; cases h
        | some s1 =>
          rw [hq] at h; cases h
          split <;> exact (stepConn_follows hq (ho _ _ rfl)).trans (.of_eq rfl)
      · cases h
  · next j i hpc =>
    cases hq : s.stepConn j (.reqSend i) with
    | none => rw [hq] at h; cases h
    | some s1 => rw [hq] at h; cases h; exact (stepConn_follows hq (ho _ _ rfl)).trans (.of_eq rfl)
  · cases h

theorem connStep_follows {s s' : State ε} {j : Nat} {a : Cl.Action ε} (h : s.connStep j a = some s') (ha : P j a) (hN : s.wk = none → N) : Follows P N s s' := by
  unfold State.connStep at h
  split at h
  · next x hx =>
    split at h
    · split at h
      · unfold State.remove at h
        simp only at h
        split at h
        · cases h
        · split at h
          · next s1 h1 =>
            split at h
            · next e he =>
              cases h
              exact (stepConn_follows h1 ha).trans (Follows.trans (s1 := s1.setPool x.c.side { s.pool x.c.side with entries := (s.pool x.c.side).entries.filter (fun q => q.1 ≠ x.addr) }) (.of_eq rfl) (drop_follows ho _ e.2))
            · cases h; exact (stepConn_follows h1 ha).trans (.of_eq rfl)
          · cases h
      · unfold State.route at h
        cases hc : Cl.step x.c .main with
        | none => rw [hc] at h; cases h
        | some c =>
          rw [hc] at h; cases h
          refine .set hx rfl hc ha (fun h => ?_)
          simp only at h
          split at h
          · exact .inr (hN (Option.isNone_iff_eq_none.1 h))
          · exact .inl h
      · exact stepConn_follows h ha
    · unfold State.deliver at h
      split at h
      · next m hm =>
        split at h
        · cases h
        · split at h
          · cases h
          · next w hw =>
            split at h
            · next hcl => cases h; exact .of_eq rfl
            · split at h
              · next w' hw' =>
                cases hq : s.stepConn j .deliver with
                | none => rw [hq] at h; cases h
                | some s1 => rw [hq] at h; cases h; exact (stepConn_follows hq ha).trans (.of_eq rfl)
              · cases h
      · cases h
    all_goals first
      | cases h
      | exact stepConn_follows h ha
  · cases h

theorem workStep_follows {s s' : State ε} {w : Nat} (h : s.workStep w = some s') : Follows P N s s' := by
  unfold State.workStep at h
  split at h
  · next q hq =>
    simp only at h
    cases hn : Wk.step q (.work w) with
    | none => rw [hn] at h; split at h <;> simp_all
    | some q' =>
      rw [hn] at h
      split at h
      · split at h
        · next h1 => cases h1; exact Follows.trans (s1 := { s with wk := some q' }) (.of_eq rfl) (stepConn_follows h (ho _ _ rfl))
        · cases h
      · split at h
        · next h1 => cases h1; exact closeClient_follows ho h rfl
        · cases h
      · cases h; exact .of_eq rfl
  · cases h

theorem step_follows {cfg : Cfg ε} {s s' : State ε} {a : Action ε} (h : step cfg s a = some s') (ha : ∀ j act, a = .conn j act → P j act) (hN : s.wk = none → N) : Follows P N s s'  := by
  unfold step at h
  split at h
  · cases h
  · cases a with
    | conn j act => exact connStep_follows ho h (ha _ _ rfl) hN
    | listen => simp only at h; split at h; cases h; exact (.of_eq rfl); cases h
    | acceptConn a => simp only at h; split at h; cases h; exact (.of_eq rfl); cases h
    | acceptFail => simp only at h; split at h; cases h; exact (.of_eq rfl); cases h
    | acceptStep => exact (acceptStep_follows ho h)
    | acceptRelease l =>
      simp only at h
      split at h
      · split at h
        · cases h; exact ((drops_follows ho l s).trans (.of_eq rfl))
        · cases h
      · cases h
    | close => simp only at h; split at h <;> · cases h; exact (.of_eq rfl)
    | closeListener c => simp only at h; split at h; cases h; exact (.of_eq rfl); cases h
    | closeRecv c =>
      simp only at h
      split at h
      · split at h
        · cases h; exact (.of_eq rfl)
        · split at h
          · cases h; exact (.of_eq rfl)
          · cases h
      · cases h
    | list side => simp only at h; split at h; cases h; exact (.of_eq rfl); cases h
    | appClose j => exact (stepConn_follows h (ho _ _ rfl))
    | call kind addr => cases h; exact (.of_eq rfl)
    | expire k =>
      simp only at h
      cases hc : s.calls[k]? with
      | none => rw [hc] at h; cases h
      | some c => rw [hc] at h; cases h; exact (.of_eq rfl)
    | callStep k =>
      simp only at h
      split at h
      · exact (callStep_follows ho h)
      · cases h
    | select k b =>
      simp only at h
      repeat' split at h
      all_goals first
        | (cases h; done)
        | (cases h; exact (.of_eq rfl))
    | take k =>
      simp only at h
      split at h
      · split at h
        · split at h
          · next s1 h1 =>
            split at h
            · split at h <;> · cases h; exact ((stepConn_follows h1 (ho _ _ rfl)).trans (.of_eq rfl))
            · cases h
          · cases h
        · cases h
      · cases h
    | cancel k =>
      simp only at h
      split at h
      · split at h
        · next j i _ =>
          split at h
          · cases hq : s.stepConn j (.reqCancel i) with
            | none => rw [hq] at h; cases h
            | some s1 => rw [hq] at h; cases h; exact ((stepConn_follows hq (ho _ _ rfl)).trans (.of_eq rfl))
          · cases h
        · cases h
      · cases h
    | work w => exact (workStep_follows ho h)
    | handlerReturn w r =>
      simp only at h
      split at h
      · next q hq =>
        cases hn : Wk.step q (.handlerReturn w r) with
        | none => rw [hn] at h; cases h
        | some q' => rw [hn] at h; cases h; exact (.of_eq rfl)
      · cases h
    | ctxSend k h' data =>
      simp only at h
      unfold State.ctxSend at h
      split at h
      · next q hq =>
        split at h
        · next q' it h1 h2 =>
          split at h
          · cases h; exact (.of_eq rfl)
          · exact (Follows.trans (s1 := { s with wk := some q' }) (.of_eq rfl) (stepConn_follows h (ho _ _ rfl)))
        · cases h
      · cases h


omit ho in
/-- A step of the node as seen by its clients: the action of the client that it is, and what its node does to it. -/
theorem step_trace {cfg : Cfg ε} {s s' : State ε} {a : Action ε} (h : step cfg s a = some s') (j : Nat) (x : Conn ε) (hx : s.conns[j]? = some x) :
    ∃ (x' : Conn ε) (as : List (Cl.Action ε)), s'.conns[j]? = some x' ∧ Cl.run x.c as = some x'.c ∧ ∀ b ∈ as, byNode b = true ∨ a = .conn j b := by
  obtain ⟨x', as, h1, h2, h3, -⟩ := step_follows (P := fun j b => byNode b = true ∨ a = .conn j b) (N := s.wk = none) (fun _ _ hb => .inl hb) h (fun _ _ e => .inr e) id j x hx
  exact ⟨x', as, h1, h2, h3⟩

omit ho in
/-- A client comes to send on a nil channel only if there are no workers. -/
theorem step_nil {cfg : Cfg ε} {s s' : State ε} {a : Action ε} (h : step cfg s a = some s') (hw : s.wk ≠ none) {j : Nat} {x x' : Conn ε} (hx : s.conns[j]? = some x) (hx' : s'.conns[j]? = some x') (hn : x.nilChan = false) : x'.nilChan = false := by
  obtain ⟨y, as, h1, -, -, h4⟩ := step_follows (P := fun _ _ => True) (N := s.wk = none) (fun _ _ _ => trivial) h (fun _ _ _ => trivial) id j x hx
  rw [hx'] at h1; cases h1
  cases hb : x'.nilChan with
  | false => rfl
  | true =>
    rcases h4 hb with h | h
    · rw [hn] at h; cases h
    · exact absurd h hw

end Noise.Node
