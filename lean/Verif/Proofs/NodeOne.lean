import Verif.Proofs.NodeTrace
import Verif.Spec.Live
/-! # The whole node: in one step each client does at most one thing -/
namespace Noise.Node
variable {ε : Type}

/-- What the node does to its clients besides stepping requests. -/
def Misc (ob : Option (Cl.Action ε)) : Prop :=
  ob = none ∨ ob = some .poolDrop ∨ ob = some .closeBegin ∨ (∃ m, ob = some (.send m)) ∨ (∃ d, ob = some (.reqStart d)) ∨ ∃ e, ob = some (.handlerErr e)

/-- Which action of client `j` an action of the node is. -/
def By (s : State ε) : Action ε → Nat → Option (Cl.Action ε) → Prop
  | .conn i b, j, ob => if i = j then ob = some b else ob = none ∨ ob = some .poolDrop
  | .callStep k, j, ob => match (s.calls[k]?).map Call.pc with
    | some (.reqSend i r) => ob = if i = j then some (.reqSend r) else none
    | _ => Misc ob
  | .take k, j, ob => match (s.calls[k]?).map Call.pc with
    | some (.reqWait i r) => ob = if i = j then some (.reqTake r) else none
    | _ => False
  | .cancel k, j, ob => match s.calls[k]? with
    | some c => match c.pc with
      | .reqWait i r => c.ended = true ∧ ob = if i = j then some (.reqCancel r) else none
      | _ => False
    | none => False
  | _, _, ob => Misc ob

/-- Clients that are not about to remove themselves from the pool do at most one thing, which `Q` allows. -/
def One (Q : Nat → Option (Cl.Action ε) → Prop) (s s' : State ε) : Prop :=
  ∀ (j : Nat) (x : Conn ε), s.conns[j]? = some x → x.c.main ≠ .remove →
    ∃ (x' : Conn ε) (ob : Option (Cl.Action ε)), s'.conns[j]? = some x' ∧ Q j ob ∧ (ob = none → x'.c = x.c) ∧ ∀ b, ob = some b → Cl.step x.c b = some x'.c

variable {Q : Nat → Option (Cl.Action ε) → Prop}

theorem One.of_eq {s s' : State ε} (h : s'.conns = s.conns) (hQ : ∀ j, Q j none) : One Q s s' := fun j x hx _ => ⟨x, none, by rw [h]; exact hx, hQ j, fun _ => rfl, by simp⟩

theorem One.left {s s1 s' : State ε} (h : s1.conns = s.conns) (h1 : One Q s1 s') : One Q s s' := fun j x hx hm => h1 j x (by rw [h]; exact hx) hm

theorem One.right {s s1 s' : State ε} (h1 : One Q s s1) (h : s'.conns = s1.conns) : One Q s s' := fun j x hx hm => by
  obtain ⟨x', ob, g1, g2⟩ := h1 j x hx hm
  exact ⟨x', ob, by rw [h]; exact g1, g2⟩

theorem One.push {s s' : State ε} {x : Conn ε} (h : s'.conns = s.conns ++ [x]) (hQ : ∀ j, Q j none) : One Q s s' := fun j y hy _ =>
  ⟨y, none, by rw [h, List.getElem?_append_left (List.getElem?_eq_some_iff.1 hy).1]; exact hy, hQ j, fun _ => rfl, by simp⟩

theorem One.set {s s' : State ε} {j : Nat} {x x' : Conn ε} {a : Cl.Action ε} (hx : s.conns[j]? = some x) (h : s'.conns = s.conns.set j x') (hs : Cl.step x.c a = some x'.c) (ha : Q j (some a)) (hn : ∀ i, i ≠ j → Q i none) : One Q s s' := by
  intro i y hy _
  by_cases hij : j = i
  · subst hij
    rw [hx] at hy; cases hy
    exact ⟨x', some a, by rw [h, List.getElem?_set_self (List.getElem?_eq_some_iff.1 hx).1], ha, by simp, by simpa using hs⟩
  · exact ⟨y, none, by rw [h, List.getElem?_set_ne hij]; exact hy, hn i (Ne.symm hij), fun _ => rfl, by simp⟩

theorem stepConn_one {s s' : State ε} {j : Nat} {a : Cl.Action ε} (h : s.stepConn j a = some s') (ha : Q j (some a)) (hn : ∀ i, i ≠ j → Q i none) : One Q s s' := by
  obtain ⟨x, c, h1, h2, rfl⟩ := stepConn_some h
  exact .set h1 rfl h2 ha hn

theorem drop_one (s : State ε) (j : Nat) (ha : Q j (some .poolDrop)) (hn : ∀ i, Q i none) : One Q s (s.drop j) := by
  unfold State.drop
  cases h : s.stepConn j .poolDrop with
  | none => exact .of_eq rfl hn
  | some s' => exact stepConn_one h ha (fun i _ => hn i)

theorem drops_one (l : List Nat) (s : State ε) (ha : ∀ i, Q i (some .poolDrop)) (hn : ∀ i, Q i none) : One Q s (l.foldl State.drop s) := by
  induction l generalizing s with
  | nil => exact .of_eq rfl hn
  | cons j l ih =>
    intro i x hx hm
    obtain ⟨x1, o1, g1, g2, g3, g4⟩ := drop_one (Q := fun _ ob => ob = none ∨ ob = some .poolDrop) s j (.inr rfl) (fun _ => .inl rfl) i x hx hm
    rcases g2 with rfl | rfl
    · have e := g3 rfl
      obtain ⟨x2, o2, k1, k2, k3, k4⟩ := ih _ i x1 g1 (by rw [e]; exact hm)
      exact ⟨x2, o2, k1, k2, fun h => (k3 h).trans e, fun b hb => by rw [← e]; exact k4 b hb⟩
    · have e := g4 _ rfl
      simp only [Cl.step] at e
      split at e
      · next hin =>
        injection e with e
        -- dropped already
        have : ∀ (l : List Nat) (s : State ε), s.conns[i]? = some x1 → (l.foldl State.drop s).conns[i]? = some x1 := by
          intro l
          induction l with
          | nil => intro s h; exact h
          | cons v l ih2 =>
            intro s h
            refine ih2 _ ?_
            unfold State.drop
            cases hv : s.stepConn v .poolDrop with
            | none => exact h
            | some s' =>
              obtain ⟨y, c, q1, q2, rfl⟩ := stepConn_some hv
              by_cases hvi : v = i
              · subst hvi
                rw [h] at q1; cases q1
                simp only [Cl.step, ← e] at q2
                simp at q2
              · simp only [Option.getD_some]
                rw [List.getElem?_set_ne hvi]; exact h
        exact ⟨x1, some .poolDrop, this l (s.drop j) g1, ha i, by simp, by simp [Cl.step, hin, e]⟩
      · cases e

theorem closeClient_one {s s1 s' : State ε} {j : Nat} (h : s.closeClient j s1 = some s') (h1 : s1.conns = s.conns) (ha : ∀ i, Q i (some .closeBegin)) (hn : ∀ i, Q i none) : One Q s s' := by
  rcases closeClient_some h with rfl | h
  · exact .of_eq h1 hn
  · exact stepConn_one h (ha _) (fun i _ => hn i)

theorem get_one {max : Nat} {s s' : State ε} {d : Cl.Side} {t : Tid} {a : Text} {found added evicts : State ε → Nat → State ε} (h : s.get max d t a found added evicts = some s')
    (hk : ∀ (s1 : State ε) (j : Nat), (found s1 j).conns = s1.conns ∧ (added s1 j).conns = s1.conns ∧ (evicts s1 j).conns = s1.conns) (ha : ∀ i, Q i (some .poolDrop)) (hn : ∀ i, Q i none) : One Q s s' := by
  unfold State.get at h
  simp only at h
  split at h
  · cases h
  · split at h
    · cases h; exact .of_eq (hk _ _).1 hn
    · split at h
      · split at h
        · next e _ =>
          cases h
          exact One.right (s1 := (s.setPool d ⟨some t, (s.pool d).entries.dropLast⟩).drop e.2) (One.left (s1 := s.setPool d ⟨some t, (s.pool d).entries.dropLast⟩) rfl (drop_one _ e.2 (ha _) hn)) (hk _ _).2.2
        · cases h; exact .of_eq rfl hn
      · cases h; exact .push (hk _ _).2.1 hn

theorem misc_none : Misc (none : Option (Cl.Action ε)) := .inl rfl
theorem misc_drop : Misc (some .poolDrop : Option (Cl.Action ε)) := .inr (.inl rfl)
theorem misc_close : Misc (some .closeBegin : Option (Cl.Action ε)) := .inr (.inr (.inl rfl))
theorem misc_send (m : Message) : Misc (some (.send m) : Option (Cl.Action ε)) := .inr (.inr (.inr (.inl ⟨m, rfl⟩)))
theorem misc_start (d : Bytes) : Misc (some (.reqStart d) : Option (Cl.Action ε)) := .inr (.inr (.inr (.inr (.inl ⟨d, rfl⟩))))
theorem misc_err (e : ε) : Misc (some (.handlerErr e) : Option (Cl.Action ε)) := .inr (.inr (.inr (.inr (.inr ⟨e, rfl⟩))))

theorem acceptStep_one {cfg : Cfg ε} {s s' : State ε} (h : s.acceptStep cfg = some s') : One (fun _ => Misc) s s' := by
  have hn : ∀ i : Nat, (fun _ => Misc) i (none : Option (Cl.Action ε)) := fun _ => misc_none
  unfold State.acceptStep at h
  split at h
  · cases h; exact .of_eq rfl hn
  · exact get_one h (fun _ _ => ⟨rfl, rfl, rfl⟩) (fun _ => misc_drop) hn
  · exact closeClient_one h rfl (fun _ => misc_close) hn
  · split at h
    · cases h; exact .push rfl hn
    · cases h
  · split at h
    · cases h; exact .of_eq rfl hn
    · cases h
  · cases h; exact .of_eq rfl hn
  · exact closeClient_one h rfl (fun _ => misc_close) hn
  · split at h
    · cases h; exact .of_eq rfl hn
    · cases h
  · split at h
    · next w hw =>
      cases hq : Wk.step w .closeQueue with
      | none => rw [hq] at h; cases h
      | some w' => rw [hq] at h; cases h; exact .of_eq rfl hn
    · cases h
  · split at h
    · split at h
      · cases h; exact .of_eq rfl hn
      · cases h
    · cases h
  · cases h; exact .of_eq rfl hn
  · cases h; exact .of_eq rfl hn
  · cases h

theorem callStep_one {cfg : Cfg ε} {s s' : State ε} {k : Nat} {c : Call ε} (hk : s.calls[k]? = some c) (h : s.callStep cfg k c = some s') : One (By s (.callStep k)) s s' := by
  have hm : (∀ j i, c.pc ≠ .reqSend j i) → ∀ j ob, Misc ob → By s (.callStep k) j ob := by
    intro hne j ob hob
    simp only [By, hk, Option.map_some]
    split
    · next i r e => injection e with e; exact absurd e (hne i r)
    · exact hob
  unfold State.callStep at h
  split at h
  · next hpc =>
    have hm := hm (by rw [hpc]; simp)
    split at h
    · cases h; exact .of_eq rfl fun j => hm j _ misc_none
    · exact get_one h (fun _ _ => ⟨rfl, rfl, rfl⟩) (fun j => hm j _ misc_drop) fun j => hm j _ misc_none
  · next hpc =>
    have hm := hm (by rw [hpc]; simp)
    exact closeClient_one h rfl (fun j => hm j _ misc_close) fun j => hm j _ misc_none
  · next hpc =>
    have hm := hm (by rw [hpc]; simp)
    split at h
    · cases h; exact .push rfl fun j => hm j _ misc_none
    · cases h
  · next hpc =>
    have hm := hm (by rw [hpc]; simp)
    exact closeClient_one h rfl (fun j => hm j _ misc_close) fun j => hm j _ misc_none
  · next hpc =>
    have hm := hm (by rw [hpc]; simp)
    split at h
    · cases h; exact .of_eq rfl fun j => hm j _ misc_none
    · cases h
  · next hpc =>
    have hm := hm (by rw [hpc]; simp)
    cases h; exact .of_eq rfl fun j => hm j _ misc_none
  · next j hpc =>
    have hm := hm (by rw [hpc]; simp)
    split at h
    · cases h; exact .of_eq rfl fun j => hm j _ misc_none
    · next data _ =>
      cases hq : s.stepConn j (.send ⟨0, data⟩) with
      | none => rw [hq] at h; cases h
      | some s1 => rw [hq] at h; cases h; exact (stepConn_one hq (hm _ _ (misc_send _)) fun j _ => hm j _ misc_none).right rfl
    · next data _ =>
      split at h
      · cases hq : s.stepConn j (.reqStart data) with
        | none => rw [hq] at h; cases h
        | some s1 =>
          rw [hq] at h; cases h
          split <;> exact (stepConn_one hq (hm _ _ (misc_start _)) fun j _ => hm j _ misc_none).right rfl
      · cases h
  · next j i hpc =>
    cases hq : s.stepConn j (.reqSend i) with
    | none => rw [hq] at h; cases h
    | some s1 =>
      rw [hq] at h; cases h
      refine (stepConn_one hq ?_ fun v hv => ?_).right rfl
      · simp [By, hk, hpc]
      · simp [By, hk, hpc, Ne.symm hv]
  · cases h

theorem connStep_one {s s' : State ε} {j : Nat} {a : Cl.Action ε} (h : s.connStep j a = some s') (hcr : s'.crashed = false) : One (By s (.conn j a)) s s' := by
  have hself : By s (.conn j a) j (some a) := by simp [By]
  have hne : ∀ i, i ≠ j → By s (.conn j a) i none := fun i hi => by simp [By, Ne.symm hi]
  have hd : ∀ i, i ≠ j → By s (.conn j a) i (some .poolDrop) := fun i hi => by simp [By, Ne.symm hi]
  unfold State.connStep at h
  split at h
  · next x hx =>
    split at h
    · split at h
      · next hrm =>
        unfold State.remove at h
        simp only at h
        split at h
        · cases h
        · split at h
          · next s1 h1 =>
            -- the client itself is excluded; another one may be dropped
            obtain ⟨y, c, q1, q2, rfl⟩ := stepConn_some h1
            have other : ∀ i, i ≠ j → ∀ z : Conn ε, s.conns[i]? = some z → (s.conns.set j { y with c := c })[i]? = some z := by
              intro i hi z hz
              rw [List.getElem?_set_ne (Ne.symm hi)]; exact hz
            split at h
            · next e he =>
              cases h
              intro i z hz hm
              by_cases hi : i = j
              · subst hi; rw [hx] at hz; cases hz; exact absurd hrm hm
              · obtain ⟨x', ob, g1, g2, g3, g4⟩ := drop_one (Q := fun _ ob => ob = none ∨ ob = some .poolDrop)
                  (({ s with conns := s.conns.set j { y with c := c } } : State ε).setPool x.c.side { s.pool x.c.side with entries := (s.pool x.c.side).entries.filter (fun q => q.1 ≠ x.addr) }) e.2 (.inr rfl) (fun _ => .inl rfl) i z (other i hi z hz) hm
                refine ⟨x', ob, g1, ?_, g3, g4⟩
                rcases g2 with rfl | rfl
                · exact hne i hi
                · exact hd i hi
            · cases h
              intro i z hz hm
              by_cases hi : i = j
              · subst hi; rw [hx] at hz; cases hz; exact absurd hrm hm
              · exact ⟨z, none, other i hi z hz, hne i hi, fun _ => rfl, by simp⟩
          · cases h
      · unfold State.route at h
        cases hc : Cl.step x.c .main with
        | none => rw [hc] at h; cases h
        | some c =>
          rw [hc] at h; cases h
          exact .set hx rfl hc hself hne
      · exact stepConn_one h hself hne
    · unfold State.deliver at h
      split at h
      · next m hm =>
        split at h
        · cases h
        · split at h
          · cases h
          · next w hw =>
            split at h
            · next hcl => cases h; cases hcr
            · split at h
              · next w' hw' =>
                cases hq : s.stepConn j .deliver with
                | none => rw [hq] at h; cases h
                | some s1 => rw [hq] at h; cases h; exact (stepConn_one hq hself hne).right rfl
              · cases h
      · cases h
    all_goals first
      | (cases h; done)
      | exact stepConn_one h hself hne
  · cases h

theorem workStep_one {s s' : State ε} {w : Nat} (h : s.workStep w = some s') : One (fun _ => Misc) s s' := by
  have hn : ∀ i : Nat, (fun _ => Misc) i (none : Option (Cl.Action ε)) := fun _ => misc_none
  unfold State.workStep at h
  split at h
  · next q hq =>
    simp only at h
    cases hn' : Wk.step q (.work w) with
    | none => rw [hn'] at h; split at h <;> simp_all
    | some q' =>
      rw [hn'] at h
      split at h
      · split at h
        · next h1 => cases h1; exact One.left (s1 := { s with wk := some q' }) rfl (stepConn_one h (misc_err _) fun i _ => hn i)
        · cases h
      · split at h
        · next h1 => cases h1; exact closeClient_one h rfl (fun _ => misc_close) hn
        · cases h
      · cases h; exact .of_eq rfl hn
  · cases h

/-- In one step of the node each client, unless it is about to remove itself from the pool, does at most one thing. -/
theorem step_one {cfg : Cfg ε} {s s' : State ε} {a : Action ε} (h : step cfg s a = some s') (hcr : s'.crashed = false) : One (By s a) s s' := by
  have hn : ∀ i : Nat, (fun _ => Misc) i (none : Option (Cl.Action ε)) := fun _ => misc_none
  unfold Node.step at h
  split at h
  · cases h
  cases a with
  | conn j act => exact connStep_one h hcr
  | listen => simp only at h; split at h; cases h; exact (.of_eq rfl hn); cases h
  | acceptConn a => simp only at h; split at h; cases h; exact (.of_eq rfl hn); cases h
  | acceptFail => simp only at h; split at h; cases h; exact (.of_eq rfl hn); cases h
  | acceptStep => exact (acceptStep_one h)
  | acceptRelease l =>
    simp only at h
    split at h
    · split at h
      · cases h; exact ((drops_one (Q := fun _ => Misc) l s (fun _ => misc_drop) hn).right rfl)
      · cases h
    · cases h
  | close => simp only at h; split at h <;> · cases h; exact (.of_eq rfl hn)
  | closeListener c => simp only at h; split at h; cases h; exact (.of_eq rfl hn); cases h
  | closeRecv c =>
    simp only at h
    split at h
    · split at h
      · cases h; exact (.of_eq rfl hn)
      · split at h
        · cases h; exact (.of_eq rfl hn)
        · cases h
    · cases h
  | list side => simp only at h; split at h; cases h; exact (.of_eq rfl hn); cases h
  | appClose j => exact (stepConn_one (Q := fun _ => Misc) h misc_close fun i _ => hn i)
  | call kind addr => cases h; exact (.of_eq rfl hn)
  | expire k =>
    simp only at h
    cases hc : s.calls[k]? with
    | none => rw [hc] at h; cases h
    | some c => rw [hc] at h; cases h; exact (.of_eq rfl hn)
  | callStep k =>
    simp only at h
    split at h
    · next c hc => exact callStep_one hc h
    · cases h
  | select k b =>
    simp only at h
    repeat' split at h
    all_goals first
      | (cases h; done)
      | (cases h; exact (.of_eq rfl hn))
  | take k =>
    simp only at h
    split at h
    · next c hc =>
      split at h
      · next j i hpc =>
        split at h
        · next s1 h1 =>
          have ho : One (By s (.take k)) s s1 := stepConn_one h1 (by simp [By, hc, hpc]) fun v hv => by simp [By, hc, hpc, Ne.symm hv]
          split at h
          · split at h <;> · cases h; exact ho.right rfl
          · cases h
        · cases h
      · cases h
    · cases h
  | cancel k =>
    simp only at h
    split at h
    · next c hc =>
      split at h
      · next j i hpc =>
        split at h
        · next he =>
          cases hq : s.stepConn j (.reqCancel i) with
          | none => rw [hq] at h; cases h
          | some s1 =>
            rw [hq] at h; cases h
            have ho : One (By s (.cancel k)) s s1 := stepConn_one hq (by simp [By, hc, hpc, he]) fun v hv => by simp [By, hc, hpc, he, Ne.symm hv]
            exact ho.right rfl
        · cases h
      · cases h
    · cases h
  | work w => exact (workStep_one h)
  | handlerReturn w r =>
    simp only at h
    split at h
    · next q hq =>
      cases hn' : Wk.step q (.handlerReturn w r) with
      | none => rw [hn'] at h; cases h
      | some q' => rw [hn'] at h; cases h; exact (.of_eq rfl hn)
    · cases h
  | ctxSend k h' data =>
    simp only at h
    unfold State.ctxSend at h
    split at h
    · next q hq =>
      split at h
      · next q' it h1 h2 =>
        split at h
        · cases h; exact (.of_eq rfl hn)
        · exact (One.left (s1 := { s with wk := some q' }) rfl (stepConn_one (Q := fun _ => Misc) h (misc_send _) fun i _ => hn i))
      · cases h
    · cases h

/-- An action that leaves neither an error nor a `close` behind is calm. -/
theorem calm_of {c c' : Cl.State ε} {b : Cl.Action ε} (h : Cl.step c b = some c') (h0 : c.once = .fresh) (h1 : c'.err = none) (h2 : c'.once = .fresh) : b.calm = true := by
  cases b <;> first
    | rfl
    | (exfalso
       simp only [Cl.step, Cl.State.closeBegin, Cl.State.closeConn, h0] at h
       repeat' split at h
       all_goals first
         | (cases h; done)
         | (injection h with h; rw [← h] at h1 h2; simp only [Cl.State.report] at h1 h2; split at h1 <;> cases h1)
         | (injection h with h; rw [← h] at h1 h2; simp_all))

end Noise.Node
