import Verif.Proofs.NodeTraffic
import Verif.Proofs.NodeLeft
/-! # What a step of a node is to each of its connections and to its workers -/
namespace Noise.Node
open Spec
variable {ε : Type}

/-- An action of a client that neither moves messages between it and the rest of the node nor reads one; requests are started by outbound clients only. -/
def plain (d : Cl.Side) : Cl.Action ε → Bool
  | .deliver | .send _ | .readMsg _ => false
  | .reqStart _ => decide (d = .outbound)
  | _ => true

/-- A client does some plain actions. -/
def PlainRun (c c' : Cl.State ε) : Prop := ∃ as, Cl.run c as = some c' ∧ ∀ a ∈ as, plain c.side a = true

theorem PlainRun.refl (c : Cl.State ε) : PlainRun c c := ⟨[], rfl, by simp⟩
theorem PlainRun.one {c c' : Cl.State ε} {a : Cl.Action ε} (h : Cl.step c a = some c') (ha : plain c.side a = true) : PlainRun c c' := ⟨[a], by simp [Cl.run, h], by simpa using ha⟩
theorem PlainRun.trans {c c1 c2 : Cl.State ε} : PlainRun c c1 → PlainRun c1 c2 → PlainRun c c2
  | ⟨as, h1, h2⟩, ⟨bs, h3, h4⟩ => ⟨as ++ bs, by rw [Cl.run_append, h1]; exact h3, fun a ha => (List.mem_append.1 ha).elim (h2 a) (fun hb => by
      have := h4 a hb
      rw [run_side h1] at this; exact this)⟩
theorem PlainRun.side {c c' : Cl.State ε} : PlainRun c c' → c'.side = c.side
  | ⟨_, h, _⟩ => run_side h

/-- All clients do plain actions, and there may be new ones. -/
structure Plainly (s s' : State ε) : Prop where
  old : ∀ (j : Nat) (x : Conn ε), s.conns[j]? = some x → ∃ x', s'.conns[j]? = some x' ∧ PlainRun x.c x'.c
  new : ∀ (j : Nat) (x' : Conn ε), s.conns[j]? = none → s'.conns[j]? = some x' → PlainRun (Cl.State.new x'.c.side) x'.c

theorem Plainly.of_eq {s s' : State ε} (h : s'.conns = s.conns) : Plainly s s' :=
  ⟨fun j x hx => ⟨x, by rw [h]; exact hx, .refl _⟩, fun j x' h1 h2 => by rw [h, h1] at h2; cases h2⟩

theorem Plainly.trans {s s1 s2 : State ε} (h1 : Plainly s s1) (h2 : Plainly s1 s2) : Plainly s s2 := by
  constructor
  · intro j x hx
    obtain ⟨x1, hx1, r1⟩ := h1.old j x hx
    obtain ⟨x2, hx2, r2⟩ := h2.old j x1 hx1
    exact ⟨x2, hx2, r1.trans r2⟩
  · intro j x2 hn hx2
    cases hx1 : s1.conns[j]? with
    | none => exact h2.new j x2 hx1 hx2
    | some x1 =>
      obtain ⟨x2', hx2', r2⟩ := h2.old j x1 hx1
      rw [hx2] at hx2'; cases hx2'
      have r1 := h1.new j x1 hn hx1
      rw [r2.side]
      exact r1.trans r2

theorem Plainly.set {s s' : State ε} {j : Nat} {x x' : Conn ε} (hx : s.conns[j]? = some x) (h : s'.conns = s.conns.set j x') (hr : PlainRun x.c x'.c) : Plainly s s' := by
  constructor
  · intro i y hy
    by_cases hi : i = j
    · subst hi
      rw [hx] at hy; cases hy
      exact ⟨x', by rw [h]; exact List.getElem?_set_self (List.getElem?_eq_some_iff.1 hx).1, hr⟩
    · exact ⟨y, by rw [h, List.getElem?_set_ne (Ne.symm hi)]; exact hy, .refl _⟩
  · intro i y hn hy
    have h1 := (List.getElem?_eq_some_iff.1 hy).1
    rw [h, List.length_set] at h1
    rw [List.getElem?_eq_none_iff] at hn
    omega

theorem Plainly.push {s s' : State ε} {a : Text} {d : Cl.Side} (h : s'.conns = s.conns ++ [⟨a, Cl.State.new d, false⟩]) : Plainly s s' := by
  constructor
  · intro j x hx
    exact ⟨x, by rw [h]; exact Wk.getElem?_append_some hx, .refl _⟩
  · intro j x' hn hx'
    rw [h, List.getElem?_append_right (List.getElem?_eq_none_iff.1 hn)] at hx'
    have := List.mem_of_getElem? hx'
    rw [List.mem_singleton] at this
    subst this
    exact .refl _

theorem stepConn_plain {s s' : State ε} {j : Nat} {a : Cl.Action ε} (h : s.stepConn j a = some s') (ha : ∀ x, s.conns[j]? = some x → plain x.c.side a = true) : Plainly s s' := by
  obtain ⟨x, c, hx, hc, rfl⟩ := stepConn_some h
  exact Plainly.set (x' := { x with c := c }) hx rfl (.one hc (ha x hx))

theorem drop_plain (s : State ε) (j : Nat) : Plainly s (s.drop j) := by
  unfold State.drop
  cases h : s.stepConn j .poolDrop with
  | none => exact .of_eq rfl
  | some s' => exact stepConn_plain h fun _ _ => rfl

theorem drops_plain (l : List Nat) (s : State ε) : Plainly s (l.foldl State.drop s) := by
  induction l generalizing s with
  | nil => exact .of_eq rfl
  | cons j l ih => exact (drop_plain s j).trans (ih _)

theorem get_plain {max : Nat} {s s' : State ε} {d : Cl.Side} {t : Tid} {a : Text} {found added evicts : State ε → Nat → State ε} (h : s.get max d t a found added evicts = some s')
    (hf : ∀ s j, (found s j).conns = s.conns) (ha : ∀ s j, (added s j).conns = s.conns) (he : ∀ s j, (evicts s j).conns = s.conns) : Plainly s s' := by
  unfold State.get at h
  simp only at h
  split at h
  · cases h
  · split at h
    · cases h; exact .of_eq (hf _ _)
    · split at h
      · split at h
        · cases h
          exact Plainly.trans (s1 := s.setPool d _) (.of_eq rfl) ((drop_plain _ _).trans (.of_eq (he _ _)))
        · cases h; exact .of_eq rfl
      · cases h
        exact Plainly.trans (s1 := s.push d a) (.push rfl) (.of_eq (ha _ _))

/-- The workers do something that concerns no connection, or nothing, or are started. -/
inductive WkPlain (cfg : Cfg ε) (o o' : Option (Wk.State ε)) : Prop
  | same : o' = o → WkPlain cfg o o'
  | listen : o = none → o' = some (Wk.State.new cfg.numWorkers cfg.numHandlers) → WkPlain cfg o o'
  | step (q q' : Wk.State ε) (a : Wk.Action ε) : o = some q → o' = some q' → Wk.step q a = some q' → (∀ it, a ≠ .enqueue it) → (∀ k h d, a ≠ .send k h d) → WkPlain cfg o o'

/-- What one step of a node is. -/
inductive NEff (cfg : Cfg ε) (s s' : State ε) : Prop
  | plain : Plainly s s' → WkPlain cfg s.wk s'.wk → NEff cfg s s'
  | deliver (j : Nat) (m : Message) (x x' : Conn ε) (q q' : Wk.State ε) : s.conns[j]? = some x → x.c.main = .delivering m → s'.conns = s.conns.set j x' → Cl.step x.c .deliver = some x'.c →
      s.wk = some q → s'.wk = some q' → Wk.step q (.enqueue ⟨j, m⟩) = some q' → NEff cfg s s'
  | refused (k h : Nat) (data : Bytes) (it : Wk.Item) (q q' : Wk.State ε) : s'.conns = s.conns → s.wk = some q → s'.wk = some q' → Wk.step q (.send k h data) = some q' → q.items[k]? = some it →
      ¬ (it.msg.isRequest = false ∨ q.sent k h = false) → NEff cfg s s'
  | answer (k h : Nat) (data : Bytes) (it : Wk.Item) (x x' : Conn ε) (q q' : Wk.State ε) : s.wk = some q → s'.wk = some q' → Wk.step q (.send k h data) = some q' → q.items[k]? = some it →
      (it.msg.isRequest = false ∨ q.sent k h = false) → s.conns[it.client]? = some x → s'.conns = s.conns.set it.client x' → Cl.step x.c (.send ⟨it.msg.nonce, data⟩) = some x'.c → NEff cfg s s'
  | send (j : Nat) (data : Bytes) (x x' : Conn ε) : s'.wk = s.wk → s.conns[j]? = some x → x.c.side = .outbound → s'.conns = s.conns.set j x' → Cl.step x.c (.send ⟨0, data⟩) = some x'.c → NEff cfg s s'

theorem acceptStep_neff {cfg : Cfg ε} {s s' : State ε} (h : s.acceptStep cfg = some s') : NEff cfg s s' := by
  unfold State.acceptStep at h
  split at h
  · cases h; exact .plain (.of_eq rfl) (.same rfl)
  · have ha : Plainly s s' := get_plain h (fun _ _ => rfl) (fun _ _ => rfl) (fun _ _ => rfl)
    refine get_pres (Q := fun s'' => Plainly s s'' → NEff cfg s s'') h (fun hs => .plain hs (.same rfl)) (fun conns pool j => ⟨fun hs => ?_, fun hs => ?_, fun hs => ?_⟩) ha
    all_goals exact .plain hs (.same rfl)
  · rcases closeClient_some h with rfl | h
    · exact .plain (.of_eq rfl) (.same rfl)
    · exact .plain (stepConn_plain h fun _ _ => rfl) (.same (stepConn_same h).wk)
  · split at h
    · cases h; exact .plain (.push rfl) (.same rfl)
    · cases h
  · split at h
    · cases h; exact .plain (.of_eq rfl) (.same rfl)
    · cases h
  · cases h; exact .plain (.of_eq rfl) (.same rfl)
  · rcases closeClient_some h with rfl | h
    · exact .plain (.of_eq rfl) (.same rfl)
    · exact .plain (stepConn_plain h fun _ _ => rfl) (.same (stepConn_same h).wk)
  · split at h
    · cases h; exact .plain (.of_eq rfl) (.same rfl)
    · cases h
  · split at h
    · next w hw =>
      cases hq : Wk.step w .closeQueue with
      | none => rw [hq] at h; cases h
      | some w' => rw [hq] at h; cases h; exact .plain (.of_eq rfl) (.step w w' _ hw rfl hq (by simp) (by simp))
    · cases h
  · split at h
    · split at h
      · cases h; exact .plain (.of_eq rfl) (.same rfl)
      · cases h
    · cases h
  · cases h; exact .plain (.of_eq rfl) (.same rfl)
  · cases h; exact .plain (.of_eq rfl) (.same rfl)
  · cases h

theorem connStep_neff {cfg : Cfg ε} {s s' : State ε} {j : Nat} {a : Cl.Action ε} (h : s.connStep j a = some s') (ha : ∀ m, a ≠ .readMsg m) : NEff cfg s s' := by
  unfold State.connStep at h
  split at h
  · next x hx =>
    split at h
    · split at h
      · unfold State.remove at h
        simp only at h
        split at h
        · cases h
        · split at h
          · next s1 h1 =>
            have hp : Plainly s s1 := stepConn_plain h1 fun _ _ => rfl
            split at h
            · next e _ =>
              cases h
              exact .plain ((hp.trans (s2 := s1.setPool x.c.side _) (.of_eq rfl)).trans (drop_plain _ _)) (.same ((drop_same _ _).wk.trans (stepConn_same h1).wk))
            · cases h; exact .plain (hp.trans (.of_eq rfl)) (.same (stepConn_same h1).wk)
          · cases h
      · unfold State.route at h
        cases hc : Cl.step x.c .main with
        | none => rw [hc] at h; cases h
        | some c => rw [hc] at h; cases h; exact .plain (.set hx rfl (.one hc rfl)) (.same rfl)
      · exact .plain (stepConn_plain h fun _ _ => rfl) (.same (stepConn_same h).wk)
    · unfold State.deliver at h
      split at h
      · next m hm =>
        split at h
        · cases h
        · split at h
          · cases h
          · next w hw =>
            split at h
            · cases h; exact .plain (.of_eq rfl) (.same rfl)
            · split at h
              · next w' hw' =>
                cases hq : s.stepConn j .deliver with
                | none => rw [hq] at h; cases h
                | some s1 =>
                  rw [hq] at h; cases h
                  obtain ⟨y, c, hy, hc, rfl⟩ := stepConn_some hq
                  rw [hx] at hy; cases hy
                  exact .deliver j m x { x with c := c } w w' hx hm rfl hc hw rfl hw'
              · cases h
      · cases h
    all_goals try (cases h)
    next hns hrs hrq hrt hrc hhe hcb hpd =>
      refine .plain (stepConn_plain h ?_) (.same (stepConn_same h).wk)
      intro y _
      cases a <;> first | rfl | exact absurd rfl (hns _) | exact absurd rfl (hrs _) | exact absurd rfl (ha _) | simp_all
  · cases h

theorem workStep_neff {cfg : Cfg ε} {s s' : State ε} {w : Nat} (h : s.workStep w = some s') : NEff cfg s s' := by
  unfold State.workStep at h
  split at h
  · next q hq =>
    simp only at h
    cases hn : Wk.step q (.work w) with
    | none => rw [hn] at h; split at h <;> simp_all
    | some q' =>
      rw [hn] at h
      split at h
      · split at h
        · next heq =>
          cases heq
          exact .plain (Plainly.trans (s1 := { s with wk := some q' }) (.of_eq rfl) (stepConn_plain h fun _ _ => rfl)) (.step q q' _ hq (stepConn_same h).wk hn (by simp) (by simp))
        · cases h
      · split at h
        · next heq =>
          cases heq
          rcases closeClient_some h with rfl | h
          · exact .plain (.of_eq rfl) (.step q q' _ hq rfl hn (by simp) (by simp))
          · exact .plain (stepConn_plain h fun _ _ => rfl) (.same (stepConn_same h).wk)
        · cases h
      · cases h; exact .plain (.of_eq rfl) (.step q q' _ hq rfl hn (by simp) (by simp))
  · cases h

theorem ctxSend_neff {cfg : Cfg ε} {s s' : State ε} {k h : Nat} {data : Bytes} (hs : s.ctxSend k h data = some s') : NEff cfg s s' := by
  unfold State.ctxSend at hs
  split at hs
  · next q hq =>
    split at hs
    · next q' it hw hit =>
      split at hs
      · next hb =>
        cases hs
        exact .refused k h data it q q' rfl hq rfl hw hit (by simp at hb ⊢; exact hb)
      · next hb =>
        obtain ⟨x, c, hx, hc, rfl⟩ := stepConn_some hs
        refine .answer k h data it x { x with c := c } q q' hq rfl hw hit ?_ hx rfl hc
        cases h1 : it.msg.isRequest <;> cases h2 : q.sent k h <;> simp_all
    · cases hs
  · cases hs

theorem callStep_neff {cfg : Cfg ε} {s s' : State ε} {k : Nat} {c : Call ε} (hr : Reachable cfg s) (hk : s.calls[k]? = some c) (h : s.callStep cfg k c = some s') : NEff cfg s s' := by
  unfold State.callStep at h
  split at h
  · split at h
    · cases h; exact .plain (.of_eq rfl) (.same rfl)
    · next n hl =>
      have hst : Plainly s s' := get_plain h (fun _ _ => rfl) (fun _ _ => rfl) (fun _ _ => rfl)
      refine get_pres (Q := fun s'' => Plainly s s'' → NEff cfg s s'') h (fun hs => .plain hs (.same rfl)) (fun conns pool j => ⟨fun hs => ?_, fun hs => ?_, fun hs => ?_⟩) hst
      all_goals exact .plain hs (.same rfl)
  · rcases closeClient_some h with rfl | h
    · exact .plain (.of_eq rfl) (.same rfl)
    · exact .plain (stepConn_plain h fun _ _ => rfl) (.same (stepConn_same h).wk)
  · split at h
    · cases h; exact .plain (.push rfl) (.same rfl)
    · cases h
  · rcases closeClient_some h with rfl | h
    · exact .plain (.of_eq rfl) (.same rfl)
    · exact .plain (stepConn_plain h fun _ _ => rfl) (.same (stepConn_same h).wk)
  · split at h
    · cases h; exact .plain (.of_eq rfl) (.same rfl)
    · cases h
  · cases h; exact .plain (.of_eq rfl) (.same rfl)
  · next j hpc =>
    have hout : ∀ x, s.conns[j]? = some x → x.c.side = .outbound := fun x hx => (got_view hr hk (.inl hpc) (views_get hx)).1
    split at h
    · cases h; exact .plain (.of_eq rfl) (.same rfl)
    · next data hkind =>
      cases hq : s.stepConn j (.send ⟨0, data⟩) with
      | none => rw [hq] at h; cases h
      | some s1 =>
        rw [hq] at h; cases h
        have hsm := stepConn_same hq
        obtain ⟨x, cc, hx, hc, rfl⟩ := stepConn_some hq
        exact .send j data x { x with c := cc } hsm.wk hx (hout x hx) rfl hc
    · next data _ =>
      split at h
      · next x hx =>
        cases hq : s.stepConn j (.reqStart data) with
        | none => rw [hq] at h; cases h
        | some s1 =>
          have hsm := stepConn_same hq
          rw [hq] at h; cases h
          have ha : Plainly s s1 := stepConn_plain hq fun y hy => by simp [plain, hout y hy]
          split
          · exact .plain (ha.trans (.of_eq rfl)) (.same hsm.wk)
          · exact .plain (ha.trans (.of_eq rfl)) (.same hsm.wk)
      · cases h
  · next j i hpc =>
    cases hq : s.stepConn j (.reqSend i) with
    | none => rw [hq] at h; cases h
    | some s1 =>
      have hsm := stepConn_same hq
      rw [hq] at h; cases h
      exact .plain ((stepConn_plain hq fun _ _ => rfl).trans (.of_eq rfl)) (.same hsm.wk)
  · cases h

theorem step_neff {cfg : Cfg ε} {s s' : State ε} {a : Action ε} (hr : Reachable cfg s) (h : step cfg s a = some s') (hread : ∀ j m, a ≠ .conn j (.readMsg m)) : NEff cfg s s' := by
  unfold Node.step at h
  split at h
  · cases h
  cases a with
  | callStep k =>
    simp only at h
    split at h
    · next c hc => exact callStep_neff hr hc h
    · cases h
  | take k =>
    simp only at h
    split at h
    · split at h
      · split at h
        · next s1 hq =>
          have hp : Plainly s s1 := stepConn_plain hq fun _ _ => rfl
          split at h
          · split at h
            all_goals (cases h; exact .plain (hp.trans (.of_eq rfl)) (.same (stepConn_same hq).wk))
          · cases h
        · cases h
      · cases h
    · cases h
  | cancel k =>
    simp only at h
    split at h
    · split at h
      · next j i hpc =>
        split at h
        · cases hq : s.stepConn j (.reqCancel i) with
          | none => rw [hq] at h; cases h
          | some s1 =>
            rw [hq] at h; cases h
            exact .plain ((stepConn_plain hq fun _ _ => rfl).trans (.of_eq rfl)) (.same (stepConn_same hq).wk)
        · cases h
      · cases h
    · cases h
  | conn j act => exact connStep_neff h fun m e => hread j m (by rw [e])
  | work w => exact workStep_neff h
  | handlerReturn w r =>
    simp only at h
    split at h
    · next q hq =>
      cases hn : Wk.step q (.handlerReturn w r) with
      | none => rw [hn] at h; cases h
      | some q' => rw [hn] at h; cases h; exact .plain (.of_eq rfl) (.step q q' _ hq rfl hn (by simp) (by simp))
    · cases h
  | ctxSend k hh data => exact ctxSend_neff h
  | acceptStep => exact acceptStep_neff h
  | listen =>
    simp only at h
    split at h
    · next ha =>
      cases h
      exact .plain (.of_eq rfl) (.listen ((Stage.reach hr).init.1 ha) rfl)
    · cases h
  | acceptRelease l =>
    simp only at h
    split at h
    · split at h
      · cases h
        exact .plain ((drops_plain l s).trans (.of_eq rfl)) (.same (drops_same l s).wk)
      · cases h
    · cases h
  | appClose j => exact .plain (stepConn_plain h fun _ _ => rfl) (.same (stepConn_same h).wk)
  | expire k =>
    simp only at h
    cases hc : s.calls[k]? with
    | none => rw [hc] at h; cases h
    | some c => rw [hc] at h; cases h; exact .plain (.of_eq rfl) (.same rfl)
  | _ =>
    simp only at h
    repeat' split at h
    all_goals try (cases h; done)
    all_goals (cases h; exact .plain (.of_eq rfl) (.same rfl))

end Noise.Node
