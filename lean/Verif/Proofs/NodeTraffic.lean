import Verif.Proofs.NodeReq
import Verif.Proofs.NodeStage
import Verif.Proofs.Link
/-! # The whole node: what is sent and received over which connection -/
namespace Noise
open Spec
variable {ε : Type}

namespace Cl

theorem reqSend_some {s s' : State ε} {i : Nat} (hs : step s (.reqSend i) = some s') : ∃ q, s.calls[i]? = some q ∧ submittedOf s'.log = submittedOf s.log ++ [⟨q.nonce, q.data⟩] := by
  simp only [step] at hs
  repeat' split at hs
  all_goals try (cases hs; done)
  injection hs with hs; subst hs
  rename_i c hc hst
  exact ⟨c, hc, by simp [State.setCall, State.send, submittedOf]⟩

end Cl

namespace Node

/-- What is observed of a connection. -/
structure View where
  side : Cl.Side
  addr : Text
  /-- what has been put on the work channel -/
  dl : List Message
  /-- what has been sent -/
  sb : List Message

def Conn.view (x : Conn ε) : View := ⟨x.c.side, x.addr, deliveredOf x.c.log, submittedOf x.c.log⟩

def State.views (s : State ε) : List View := s.conns.map Conn.view

/-- What the workers have been given. -/
def State.items (s : State ε) : List Wk.Item := match s.wk with
  | none => []
  | some q => q.items

def sendsOf (log : List (Wk.Event ε)) : List (Nat × Message) := log.filterMap fun | .sendOk k _ n d => some (k, ⟨n, d⟩) | _ => none

/-- What the handlers have sent, and for which item. -/
def State.answers (s : State ε) : List (Nat × Message) := match s.wk with
  | none => []
  | some q => sendsOf q.log

/-- What a call has sent: its address, the data, and whether it is a request. -/
structure Sent where
  addr : Text
  data : Bytes
  req : Bool
  deriving DecidableEq

/-- What a `Send` or a `Request` has sent, if it has come to that. -/
def Call.sent (c : Call ε) : Option Sent := match c.kind, c.pc with
  | .send data, .returned .sent => some ⟨c.addr, data, false⟩
  | .request data, .reqWait _ _ | .request data, .returned (.response _) | .request data, .returned .eof | .request data, .returned .cancelled => some ⟨c.addr, data, true⟩
  | _, _ => none

def State.sents (s : State ε) : List (Option Sent) := s.calls.map Call.sent

/-- Nothing happens except that there may be new connections. -/
def Adds (s s' : State ε) : Prop := ∃ news, s'.views = s.views ++ news ∧ ∀ v ∈ news, v.dl = [] ∧ v.sb = []

theorem Adds.of_views {s s' : State ε} (h : s'.views = s.views) : Adds s s' := ⟨[], by simp [h], by simp⟩
theorem Adds.of_eq {s s' : State ε} (h : s'.conns = s.conns) : Adds s s' := .of_views (by unfold State.views; rw [h])
theorem Adds.trans {s s1 s2 : State ε} : Adds s s1 → Adds s1 s2 → Adds s s2
  | ⟨n1, h1, h2⟩, ⟨n2, h3, h4⟩ => ⟨n1 ++ n2, by rw [h3, h1, List.append_assoc], fun v hv => (List.mem_append.1 hv).elim (h2 v) (h4 v)⟩
theorem Adds.push {s s' : State ε} {a : Text} {d : Cl.Side} (h : s'.conns = s.conns ++ [⟨a, Cl.State.new d, false⟩]) : Adds s s' :=
  ⟨[(⟨a, Cl.State.new d, false⟩ : Conn ε).view], by simp [State.views, h], by
    intro v hv
    rw [List.mem_singleton] at hv
    subst hv
    exact ⟨rfl, rfl⟩⟩

/-- The actions that neither send nor hand over anything. -/
def mute : Cl.Action ε → Bool
  | .deliver | .send _ | .reqSend _ => false
  | _ => true

theorem view_mute {x : Conn ε} {c : Cl.State ε} {a : Cl.Action ε} {b : Bool} (hs : Cl.step x.c a = some c) (ha : mute a = true) : ({ x with c := c, nilChan := b } : Conn ε).view = x.view := by
  have h1 : deliveredOf c.log = deliveredOf x.c.log := Link.deliveredOf_step hs (by rintro rfl; cases ha)
  have h2 : submittedOf c.log = submittedOf x.c.log := Link.submitted_quiet hs (by rintro _ rfl; cases ha) (by rintro _ rfl; cases ha)
  simp only [Conn.view, h1, h2, Cl.side_step hs]

theorem views_set {s s' : State ε} {j : Nat} {x' : Conn ε} (h : s'.conns = s.conns.set j x') : s'.views = s.views.set j x'.view := by
  unfold State.views; rw [h, List.map_set]

theorem views_set_same {s s' : State ε} {j : Nat} {x x' : Conn ε} (hx : s.conns[j]? = some x) (h : s'.conns = s.conns.set j x') (hv : x'.view = x.view) : s'.views = s.views := by
  rw [views_set h, hv]
  apply List.ext_getElem?
  intro i
  by_cases hi : j = i
  · subst hi
    rw [List.getElem?_set_self (by simpa [State.views] using (List.getElem?_eq_some_iff.1 hx).1)]
    simp [State.views, hx]
  · rw [List.getElem?_set_ne hi]

theorem views_get {s : State ε} {j : Nat} {x : Conn ε} (hx : s.conns[j]? = some x) : s.views[j]? = some x.view := by simp [State.views, hx]

theorem stepConn_views {s s' : State ε} {j : Nat} {a : Cl.Action ε} (h : s.stepConn j a = some s') (ha : mute a = true) : s'.views = s.views := by
  obtain ⟨x, c, hx, hc, rfl⟩ := stepConn_some h
  exact views_set_same (x' := { x with c := c }) hx rfl (view_mute hc ha)

theorem drop_views (s : State ε) (j : Nat) : (s.drop j).views = s.views := by
  unfold State.drop
  cases h : s.stepConn j .poolDrop with
  | none => rfl
  | some s' => exact stepConn_views h rfl

theorem drops_views (l : List Nat) (s : State ε) : (l.foldl State.drop s).views = s.views := by
  induction l generalizing s with
  | nil => rfl
  | cons j l ih => exact (ih _).trans (drop_views s j)

theorem closeClient_adds {s s1 s' : State ε} {j : Nat} (h : s.closeClient j s1 = some s') (h1 : s1.conns = s.conns) : Adds s s' := by
  rcases closeClient_some h with rfl | h
  · exact .of_eq h1
  · exact .of_views (stepConn_views h rfl)

theorem get_adds {max : Nat} {s s' : State ε} {d : Cl.Side} {t : Tid} {a : Text} {found added evicts : State ε → Nat → State ε} (h : s.get max d t a found added evicts = some s')
    (hf : ∀ s j, (found s j).conns = s.conns) (ha : ∀ s j, (added s j).conns = s.conns) (he : ∀ s j, (evicts s j).conns = s.conns) : Adds s s' := by
  unfold State.get at h
  simp only at h
  split at h
  · cases h
  · split at h
    · cases h; exact .of_eq (hf _ _)
    · split at h
      · split at h
        · cases h
          exact Adds.trans (s1 := s.setPool d _) (.of_eq rfl) ((Adds.of_views (drop_views _ _)).trans (.of_eq (he _ _)))
        · cases h; exact .of_eq rfl
      · cases h
        exact Adds.trans (s1 := s.push d a) (.push rfl) (.of_eq (ha _ _))

theorem remove_views {s s' : State ε} {j : Nat} {x : Conn ε} (h : s.remove j x = some s') : s'.views = s.views := by
  unfold State.remove at h
  simp only at h
  split at h
  · cases h
  · split at h
    · next s1 h1 =>
      have hs1 := stepConn_views h1 rfl
      split at h
      · cases h
        exact (drop_views _ _).trans hs1
      · cases h; exact hs1
    · cases h

theorem items_eq {s s' : State ε} (h : s'.wk = s.wk) : s'.items = s.items := by unfold State.items; rw [h]
theorem answers_eq {s s' : State ε} (h : s'.wk = s.wk) : s'.answers = s.answers := by unfold State.answers; rw [h]
theorem sents_eq {s s' : State ε} (h : s'.calls = s.calls) : s'.sents = s.sents := by unfold State.sents; rw [h]

theorem sents_set {s s' : State ε} {k : Nat} {c c' : Call ε} (hk : s.calls[k]? = some c) (h : s'.calls = s.calls.set k c') (hc : c'.sent = c.sent) : s'.sents = s.sents := by
  unfold State.sents
  rw [h, List.map_set, hc]
  apply List.ext_getElem?
  intro i
  by_cases hi : k = i
  · subst hi
    rw [List.getElem?_set_self (by simpa using (List.getElem?_eq_some_iff.1 hk).1)]
    simp [hk]
  · rw [List.getElem?_set_ne hi]

theorem sendsOf_other {l es : List (Wk.Event ε)} (h : ∀ e ∈ es, ∀ k h n d, e ≠ Wk.Event.sendOk k h n d) : sendsOf (l ++ es) = sendsOf l := by
  unfold sendsOf
  rw [List.filterMap_append]
  refine (congrArg _ ?_).trans (List.append_nil _)
  rw [List.filterMap_eq_nil_iff]
  intro e he
  cases e with
  | sendOk k h' n d => exact absurd rfl (h _ he k h' n d)
  | _ => rfl

/-- What one step of the node does to the traffic. -/
inductive TEff (s s' : State ε) : Prop
  | quiet : Adds s s' → s'.items = s.items → s'.answers = s.answers → (s'.sents = s.sents ∨ s'.sents = s.sents ++ [none]) → TEff s s'
  | deliver (j : Nat) (v : View) (m : Message) : s.views[j]? = some v → s'.views = s.views.set j { v with dl := v.dl ++ [m] } → s'.items = s.items ++ [⟨j, m⟩] →
      s'.answers = s.answers → s'.sents = s.sents → TEff s s'
  | answer (k : Nat) (it : Wk.Item) (data : Bytes) (v : View) : s.items[k]? = some it → s.views[it.client]? = some v →
      s'.views = s.views.set it.client { v with sb := v.sb ++ [⟨it.msg.nonce, data⟩] } → s'.items = s.items → s'.answers = s.answers ++ [(k, ⟨it.msg.nonce, data⟩)] →
      s'.sents = s.sents → TEff s s'
  | send (k : Nat) (c : Call ε) (j : Nat) (v : View) (m : Message) (r : Bool) : s.calls[k]? = some c → (c.pc = .got j ∨ ∃ i, c.pc = .reqSend j i) → s.views[j]? = some v →
      s'.views = s.views.set j { v with sb := v.sb ++ [m] } → s'.items = s.items → s'.answers = s.answers → s'.sents = s.sents.set k (some ⟨c.addr, m.data, r⟩) →
      (r = true ↔ m.nonce ≠ 0) → TEff s s'

theorem TEff.calm {s s' : State ε} (h1 : Adds s s') (h2 : s'.wk = s.wk) (h3 : s'.calls = s.calls) : TEff s s' := .quiet h1 (items_eq h2) (answers_eq h2) (.inl (sents_eq h3))

theorem TEff.work {s s' : State ε} {q q' : Wk.State ε} {a : Wk.Action ε} (h1 : Adds s s') (hq : s.wk = some q) (hq' : s'.wk = some q') (hs : Wk.step q a = some q') (h3 : s'.calls = s.calls)
    (h4 : ∀ it, a ≠ .enqueue it) (h5 : ∀ k h d, a ≠ .send k h d) : TEff s s' := by
  cases Link.weff_step hs with
  | enqueue => exact absurd rfl (h4 _)
  | sendOk => exact absurd rfl (h5 _ _ _)
  | sendErr => exact absurd rfl (h5 _ _ _)
  | other e1 e2 =>
    obtain ⟨es, e2, e3⟩ := e2
    exact .quiet h1 (by simp only [State.items, hq, hq', e1]) (by simp only [State.answers, hq, hq', e2, sendsOf_other e3]) (.inl (sents_eq h3))

theorem acceptStep_teff {cfg : Cfg ε} {s s' : State ε} (h : s.acceptStep cfg = some s') : TEff s s' := by
  unfold State.acceptStep at h
  split at h
  · cases h; exact .calm (.of_eq rfl) rfl rfl
  · have ha : Adds s s' := get_adds h (fun _ _ => rfl) (fun _ _ => rfl) (fun _ _ => rfl)
    refine get_pres (Q := fun s'' => Adds s s'' → TEff s s'') h (fun hs => .calm hs rfl rfl) (fun conns pool j => ⟨fun hs => ?_, fun hs => ?_, fun hs => ?_⟩) ha
    all_goals exact .calm hs rfl rfl
  · rcases closeClient_some h with rfl | h
    · exact .calm (.of_eq rfl) rfl rfl
    · exact .calm (.of_views (stepConn_views h rfl)) (stepConn_same h).wk (stepConn_same h).calls
  · split at h
    · cases h; exact .calm (.push rfl) rfl rfl
    · cases h
  · split at h
    · cases h; exact .calm (.of_eq rfl) rfl rfl
    · cases h
  · cases h; exact .calm (.of_eq rfl) rfl rfl
  · rcases closeClient_some h with rfl | h
    · exact .calm (.of_eq rfl) rfl rfl
    · exact .calm (.of_views (stepConn_views h rfl)) (stepConn_same h).wk (stepConn_same h).calls
  · split at h
    · cases h; exact .calm (.of_eq rfl) rfl rfl
    · cases h
  · split at h
    · next w hw =>
      cases hq : Wk.step w .closeQueue with
      | none => rw [hq] at h; cases h
      | some w' => rw [hq] at h; cases h; exact .work (.of_eq rfl) hw rfl hq rfl (by simp) (by simp)
    · cases h
  · split at h
    · split at h
      · cases h; exact .calm (.of_eq rfl) rfl rfl
      · cases h
    · cases h
  · cases h; exact .calm (.of_eq rfl) rfl rfl
  · cases h; exact .calm (.of_eq rfl) rfl rfl
  · cases h

theorem connStep_teff {s s' : State ε} {j : Nat} {a : Cl.Action ε} (h : s.connStep j a = some s') : TEff s s' := by
  unfold State.connStep at h
  split at h
  · next x hx =>
    split at h
    · split at h
      · have hv := remove_views h
        unfold State.remove at h
        simp only at h
        split at h
        · cases h
        · split at h
          · next s1 h1 =>
            split at h
            · next e _ =>
              cases h
              exact .calm (.of_views hv) ((drop_same _ _).wk.trans (stepConn_same h1).wk) ((drop_same _ _).calls.trans (stepConn_same h1).calls)
            · cases h; exact .calm (.of_views hv) (stepConn_same h1).wk (stepConn_same h1).calls
          · cases h
      · unfold State.route at h
        cases hc : Cl.step x.c .main with
        | none => rw [hc] at h; cases h
        | some c => rw [hc] at h; cases h; exact .calm (.of_views (views_set_same hx rfl (view_mute hc rfl))) rfl rfl
      · exact .calm (.of_views (stepConn_views h rfl)) (stepConn_same h).wk (stepConn_same h).calls
    · unfold State.deliver at h
      split at h
      · next m hm =>
        split at h
        · cases h
        · split at h
          · cases h
          · next w hw =>
            split at h
            · cases h; exact .calm (.of_eq rfl) rfl rfl
            · split at h
              · next w' hw' =>
                cases hq : s.stepConn j .deliver with
                | none => rw [hq] at h; cases h
                | some s1 =>
                  rw [hq] at h; cases h
                  obtain ⟨y, c, hy, hc, rfl⟩ := stepConn_some hq
                  rw [hx] at hy; cases hy
                  have h1 : submittedOf c.log = submittedOf x.c.log := Link.submitted_quiet hc (by simp) (by simp)
                  have h3 := Cl.side_step hc
                  have h4 : deliveredOf c.log = deliveredOf x.c.log ++ [m] := by
                    simp only [Cl.step, hm, Option.some.injEq] at hc
                    subst hc
                    simp [deliveredOf]
                  cases Link.weff_step hw' with
                  | enqueue e1 e2 =>
                    refine .deliver j x.view m (views_get hx) ?_ (by simp only [State.items, hw, e1]) (by simp only [State.answers, hw, e2]) rfl
                    rw [views_set (x' := { x with c := c }) rfl]
                    simp only [Conn.view, h1, h3, h4]
                  | other _ _ e => exact absurd rfl (e _)
              · cases h
      · cases h
    all_goals try (cases h)
    next hns hrs hrq hrt hrc hhe hcb hpd =>
      refine .calm (.of_views (stepConn_views h ?_)) (stepConn_same h).wk (stepConn_same h).calls
      cases a <;> first | rfl | exact absurd rfl (hns _) | exact absurd rfl (hrq _) | simp_all
  · cases h

theorem workStep_teff {s s' : State ε} {w : Nat} (h : s.workStep w = some s') : TEff s s' := by
  unfold State.workStep at h
  split at h
  · next q hq =>
    simp only at h
    cases hn : Wk.step q (.work w) with
    | none => rw [hn] at h; split at h <;> simp_all
    | some q' =>
      rw [hn] at h
      split at h
      · split at h
        · next heq =>
          cases heq
          exact .work (Adds.trans (s1 := { s with wk := some q' }) (.of_eq rfl) (.of_views (stepConn_views h rfl))) hq (stepConn_same h).wk hn (stepConn_same h).calls (by simp) (by simp)
        · cases h
      · split at h
        · next heq =>
          cases heq
          rcases closeClient_some h with rfl | h
          · exact .work (.of_eq rfl) hq rfl hn rfl (by simp) (by simp)
          · exact .calm (.of_views (stepConn_views h rfl)) (stepConn_same h).wk (stepConn_same h).calls
        · cases h
      · cases h; exact .work (.of_eq rfl) hq rfl hn rfl (by simp) (by simp)
  · cases h

theorem stepConn_send {s s' : State ε} {j : Nat} {m : Message} (h : s.stepConn j (.send m) = some s') : ∃ v, s.views[j]? = some v ∧ s'.views = s.views.set j { v with sb := v.sb ++ [m] } := by
  obtain ⟨x, c, hx, hc, rfl⟩ := stepConn_some h
  refine ⟨x.view, views_get hx, ?_⟩
  rw [views_set (x' := { x with c := c }) rfl]
  cases hc
  simp [Conn.view, Cl.State.send, deliveredOf, submittedOf]

theorem ctxSend_teff {s s' : State ε} {k h : Nat} {data : Bytes} (hs : s.ctxSend k h data = some s') : TEff s s' := by
  unfold State.ctxSend at hs
  split at hs
  · next q hq =>
    split at hs
    · next q' it hw hit =>
      cases Link.weff_step hw with
      | sendOk hit' hor e1 e2 =>
        rw [hit] at hit'; cases hit'
        split at hs
        · next hb => simp at hb; rcases hor with h1 | h1 <;> simp_all
        · obtain ⟨v, hv, hv'⟩ := stepConn_send hs
          have hsm := stepConn_same hs
          refine .answer k it data v (by simpa only [State.items, hq] using hit) hv hv' (by simp only [State.items, hq, hsm.wk, e1]) ?_ (sents_eq hsm.calls)
          simp only [State.answers, hq, hsm.wk, e2]
          simp [sendsOf]
      | sendErr hit' hor e1 e2 =>
        rw [hit] at hit'; cases hit'
        split at hs
        · cases hs
          refine .quiet (.of_eq rfl) (by simp only [State.items, hq, e1]) ?_ (.inl rfl)
          simp only [State.answers, hq, e2]
          exact sendsOf_other (by simp)
        · next hb => simp at hb; simp_all
      | other _ _ _ e => exact absurd rfl (e _ _ _)
    · cases hs
  · cases hs

theorem callStep_teff {cfg : Cfg ε} {s s' : State ε} {k : Nat} {c : Call ε} (hr : Reachable cfg s) (hk : s.calls[k]? = some c) (h : s.callStep cfg k c = some s') : TEff s s' := by
  have quiet : ∀ c' : Call ε, c.sent = none → c'.sent = none → s'.calls = s.calls.set k c' → s'.wk = s.wk → Adds s s' → TEff s s' :=
    fun c' h0 hc' hcalls hw hs => .quiet hs (items_eq hw) (answers_eq hw) (.inl (sents_set hk hcalls (hc'.trans h0.symm)))
  unfold State.callStep at h
  have s0 : (∀ r, c.pc ≠ .returned r) → (∀ j i, c.pc ≠ .reqWait j i) → c.sent = none := by
    intro hne hnw
    unfold Call.sent
    split
    · next h1 => exact absurd h1 (hne _)
    · next h1 => exact absurd h1 (hnw _ _)
    · next h1 => exact absurd h1 (hne _)
    · next h1 => exact absurd h1 (hne _)
    · next h1 => exact absurd h1 (hne _)
    · rfl
  split at h
  · next hpc =>
    replace s0 := s0 (by simp [hpc]) (by simp [hpc])
    split at h
    · cases h; exact quiet _ s0 (by simp [Call.sent]) rfl rfl (.of_eq rfl)
    · next n hl =>
      have hst : Adds s s' := get_adds h (fun _ _ => rfl) (fun _ _ => rfl) (fun _ _ => rfl)
      refine get_pres (Q := fun s'' => Adds s s'' → TEff s s'') h (fun hs => .calm hs rfl rfl) (fun conns pool j => ⟨fun hs => ?_, fun hs => ?_, fun hs => ?_⟩) hst
      all_goals exact .quiet hs (items_eq rfl) (answers_eq rfl) (.inl (sents_set hk rfl (by simp [Call.sent] at s0 ⊢; exact s0.symm)))
  · next hpc =>
    replace s0 := s0 (by simp [hpc]) (by simp [hpc])
    rcases closeClient_some h with rfl | h
    · exact quiet _ s0 (by simp [Call.sent]) rfl rfl (.of_eq rfl)
    · exact .calm (.of_views (stepConn_views h rfl)) (stepConn_same h).wk (stepConn_same h).calls
  · next hpc =>
    replace s0 := s0 (by simp [hpc]) (by simp [hpc])
    split at h
    · cases h
      exact quiet _ s0 (by simp [Call.sent]) rfl rfl (.push rfl)
    · cases h
  · next hpc =>
    replace s0 := s0 (by simp [hpc]) (by simp [hpc])
    rcases closeClient_some h with rfl | h
    · exact quiet _ s0 (by simp [Call.sent]) rfl rfl (.of_eq rfl)
    · exact .calm (.of_views (stepConn_views h rfl)) (stepConn_same h).wk (stepConn_same h).calls
  · next hpc =>
    replace s0 := s0 (by simp [hpc]) (by simp [hpc])
    split at h
    · cases h
      refine quiet _ s0 ?_ rfl rfl (.of_eq rfl)
      split <;> simp [Call.sent]
    · cases h
  · next hpc =>
    replace s0 := s0 (by simp [hpc]) (by simp [hpc])
    cases h; exact quiet _ s0 (by simp [Call.sent]) rfl rfl (.of_eq rfl)
  · next j hpc =>
    replace s0 := s0 (by simp [hpc]) (by simp [hpc])
    split at h
    · cases h; exact quiet _ s0 (by simp [Call.sent]) rfl rfl (.of_eq rfl)
    · next data hkind =>
      cases hq : s.stepConn j (.send ⟨0, data⟩) with
      | none => rw [hq] at h; cases h
      | some s1 =>
        rw [hq] at h; cases h
        obtain ⟨v, hv, hv'⟩ := stepConn_send hq
        have hsm := stepConn_same hq
        refine .send k c j v ⟨0, data⟩ false hk (.inl hpc) hv hv' (items_eq hsm.wk) (answers_eq hsm.wk) ?_ (by simp)
        simp [State.sents, State.setCall, hsm.calls, Call.sent, List.map_set, hkind]
    · next data _ =>
      split at h
      · next x hx =>
        cases hq : s.stepConn j (.reqStart data) with
        | none => rw [hq] at h; cases h
        | some s1 =>
          have hsm := stepConn_same hq
          rw [hq] at h; cases h
          have ha : Adds s s1 := .of_views (stepConn_views hq rfl)
          split
          · exact .quiet (ha.trans (.of_eq rfl)) (items_eq hsm.wk) (answers_eq hsm.wk)
              (.inl (sents_set (c' := { c with pc := .reqSend j x.c.calls.length }) hk (by simp only [State.setCall, hsm.calls]) (by rw [s0]; simp [Call.sent])))
          · exact .quiet (ha.trans (.of_eq rfl)) (items_eq hsm.wk) (answers_eq hsm.wk)
              (.inl (sents_set (c' := { c with pc := .returned .noNonce }) hk (by simp only [State.setCall, hsm.calls]) (by rw [s0]; simp [Call.sent])))
      · cases h
  · next j i hpc =>
    replace s0 := s0 (by simp [hpc]) (by simp [hpc])
    cases hq : s.stepConn j (.reqSend i) with
    | none => rw [hq] at h; cases h
    | some s1 =>
      have hsm := stepConn_same hq
      rw [hq] at h; cases h
      obtain ⟨x, cc, hx, hcc, rfl⟩ := stepConn_some hq
      obtain ⟨q, h1, h2⟩ := Cl.reqSend_some hcc
      have hkind : c.kind = .request q.data := by
        obtain ⟨f, hf, _⟩ := Mine.reach hr
        have hg := hf k c hk
        unfold Got at hg
        rw [hpc] at hg
        obtain ⟨_, y, ⟨⟨hy, _⟩, _⟩, q', hq', hkd⟩ := hg
        rw [hx] at hy; cases hy
        rw [h1] at hq'; cases hq'
        exact hkd
      have hnz : q.nonce ≠ 0 := (Cl.ReqsOK.reach (Reaches.reach hr j x hx)).nz i q h1
      refine .send k c j x.view ⟨q.nonce, q.data⟩ true hk (.inr ⟨i, hpc⟩) (views_get hx) ?_ rfl rfl ?_ (by simp [hnz])
      · rw [views_set (x' := { x with c := cc }) rfl]
        simp only [Conn.view, h2, Cl.side_step hcc, Link.deliveredOf_step hcc (by simp)]
      · simp [State.sents, State.setCall, Call.sent, List.map_set, hkind]
  · cases h

theorem step_teff {cfg : Cfg ε} {s s' : State ε} {a : Action ε} (hr : Reachable cfg s) (h : step cfg s a = some s') : TEff s s' := by
  have hw : s.accept = .none → s.wk = none := fun ha => (Stage.reach hr).init.1 ha
  unfold Node.step at h
  split at h
  · cases h
  cases a with
  | call kind addr =>
    cases h
    refine .quiet (.of_eq rfl) rfl rfl (.inr ?_)
    simp [State.sents, Call.sent]
  | expire k =>
    simp only at h
    cases hc : s.calls[k]? with
    | none => rw [hc] at h; cases h
    | some c =>
      rw [hc] at h; cases h
      exact .quiet (.of_eq rfl) rfl rfl (.inl (sents_set (c' := { c with ended := true }) hc rfl rfl))
  | callStep k =>
    simp only at h
    split at h
    · next c hc => exact callStep_teff hr hc h
    · cases h
  | select k b =>
    simp only at h
    split at h
    · next c hc =>
      split at h
      · next j hpc =>
        have s0 : c.sent = none := by simp [Call.sent, hpc]
        split at h
        · split at h
          · split at h
            · cases h
              exact .quiet (.of_eq rfl) rfl rfl (.inl (sents_set (c' := { c with pc := .got j }) hc rfl (by rw [s0]; simp [Call.sent])))
            · next w _ =>
              cases h
              exact .quiet (.of_eq rfl) rfl rfl (.inl (sents_set (c' := { c with pc := .closing j w }) hc rfl (by rw [s0]; simp [Call.sent])))
          · cases h
        · cases h
      · cases h
    · cases h
  | take k =>
    simp only at h
    split at h
    · next c hc =>
      split at h
      · next j i hpc =>
        have s0 : ∀ r, (∃ m, r = .response m) ∨ r = .eof ∨ r = .cancelled → ({ c with pc := .returned r } : Call ε).sent = c.sent := by
          rintro r (⟨m, rfl⟩ | rfl | rfl) <;> unfold Call.sent <;> rw [hpc] <;> cases c.kind <;> rfl
        split at h
        · next s1 hq =>
          have hsm := stepConn_same hq
          have ha : Adds s s1 := .of_views (stepConn_views hq rfl)
          split at h
          · split at h
            · next m _ _ =>
              cases h
              exact .quiet (ha.trans (.of_eq rfl)) (items_eq hsm.wk) (answers_eq hsm.wk)
                (.inl (sents_set (c' := { c with pc := .returned (.response m) }) hc (by simp only [State.setCall, hsm.calls]) (s0 _ (.inl ⟨m, rfl⟩))))
            · cases h
              exact .quiet (ha.trans (.of_eq rfl)) (items_eq hsm.wk) (answers_eq hsm.wk)
                (.inl (sents_set (c' := { c with pc := .returned .eof }) hc (by simp only [State.setCall, hsm.calls]) (s0 _ (.inr (.inl rfl)))))
          · cases h
        · cases h
      · cases h
    · cases h
  | cancel k =>
    simp only at h
    split at h
    · next c hc =>
      split at h
      · next j i hpc =>
        have s0 : ∀ r, (∃ m, r = .response m) ∨ r = .eof ∨ r = .cancelled → ({ c with pc := .returned r } : Call ε).sent = c.sent := by
          rintro r (⟨m, rfl⟩ | rfl | rfl) <;> unfold Call.sent <;> rw [hpc] <;> cases c.kind <;> rfl
        split at h
        · cases hq : s.stepConn j (.reqCancel i) with
          | none => rw [hq] at h; cases h
          | some s1 =>
            have hsm := stepConn_same hq
            rw [hq] at h; cases h
            exact .quiet ((Adds.of_views (stepConn_views hq rfl)).trans (.of_eq rfl)) (items_eq hsm.wk) (answers_eq hsm.wk)
              (.inl (sents_set (c' := { c with pc := .returned .cancelled }) hc (by simp only [State.setCall, hsm.calls]) (s0 _ (.inr (.inr rfl)))))
        · cases h
      · cases h
    · cases h
  | conn j act => exact connStep_teff h
  | work w => exact workStep_teff h
  | handlerReturn w r =>
    simp only at h
    split at h
    · next q hq =>
      cases hn : Wk.step q (.handlerReturn w r) with
      | none => rw [hn] at h; cases h
      | some q' => rw [hn] at h; cases h; exact .work (.of_eq rfl) hq rfl hn rfl (by simp) (by simp)
    · cases h
  | ctxSend k hh data => exact ctxSend_teff h
  | acceptStep => exact acceptStep_teff h
  | listen =>
    simp only at h
    split at h
    · next ha =>
      cases h
      refine .quiet (.of_eq rfl) ?_ ?_ (.inl rfl)
      · simp [State.items, hw ha, Wk.State.new]
      · simp [State.answers, hw ha, Wk.State.new, sendsOf]
    · cases h
  | acceptRelease l =>
    simp only at h
    split at h
    · split at h
      · cases h
        exact .calm (.of_views (drops_views l s)) (drops_same l s).wk (drops_same l s).calls
      · cases h
    · cases h
  | appClose j => exact .calm (.of_views (stepConn_views h rfl)) (stepConn_same h).wk (stepConn_same h).calls
  | _ =>
    simp only at h
    repeat' split at h
    all_goals try (cases h; done)
    all_goals (cases h; exact .calm (.of_eq rfl) rfl rfl)

/-! ### The invariant -/

/-- What the handlers have sent in answer to messages from connection `j`. -/
def answersOn (items : List Wk.Item) (answers : List (Nat × Message)) (j : Nat) : List Message :=
  answers.filterMap fun p => (items[p.1]?).bind fun it => if it.client = j then some p.2 else none

/-- How many calls have sent `m` through connection `j`; `via` has the connection and the nonce of each call. -/
def sentOn (via : Nat → Nat × UInt64) (sents : List (Option Sent)) (j : Nat) (m : Message) : Nat :=
  (List.range sents.length).countP fun k => decide (via k = (j, m.nonce) ∧ ((sents[k]?).join.map Sent.data) = some m.data)

structure Traffic (via : Nat → Nat × UInt64) (s : State ε) : Prop where
  dl : ∀ (j : Nat) (v : View), s.views[j]? = some v → v.dl = (s.items.filter fun it => it.client = j).map Wk.Item.msg
  src : ∀ it ∈ s.items, it.client < s.views.length
  ans : ∀ p ∈ s.answers, ∃ it, s.items[p.1]? = some it ∧ p.2.nonce = it.msg.nonce
  order : ∀ (j : Nat) (v : View), s.views[j]? = some v → (answersOn s.items s.answers j).Sublist v.sb
  count : ∀ (j : Nat) (v : View) (m : Message), s.views[j]? = some v → v.sb.count m = (answersOn s.items s.answers j).count m + sentOn via s.sents j m
  mine : ∀ (k : Nat) (p : Sent), s.sents[k]? = some (some p) → (∃ v, s.views[(via k).1]? = some v ∧ v.side = .outbound ∧ v.addr = p.addr) ∧ (p.req = true ↔ (via k).2 ≠ 0)

theorem countP_range_eq {p q : Nat → Bool} (n : Nat) (h : ∀ i < n, p i = q i) : (List.range n).countP p = (List.range n).countP q := by
  induction n with
  | zero => rfl
  | succ n ih => rw [List.range_succ, List.countP_append, List.countP_append, ih fun i hi => h i (by omega)]; simp [h n (by omega)]

theorem countP_range_one {p q : Nat → Bool} {k : Nat} (n : Nat) (h : ∀ i, i ≠ k → p i = q i) (hk : k < n) (hq : q k = false) :
    (List.range n).countP p = (List.range n).countP q + if p k then 1 else 0 := by
  induction n with
  | zero => omega
  | succ n ih =>
    rw [List.range_succ, List.countP_append, List.countP_append]
    by_cases hkn : k = n
    · subst hkn
      rw [countP_range_eq k fun i hi => h i (by omega)]
      simp [hq]
    · rw [ih (by omega)]
      simp only [List.countP_singleton, h n (Ne.symm hkn)]
      omega

theorem sentOn_none (via : Nat → Nat × UInt64) (sents : List (Option Sent)) (j : Nat) (m : Message) : sentOn via (sents ++ [none]) j m = sentOn via sents j m := by
  unfold sentOn
  rw [List.length_append, List.length_singleton, List.range_succ, List.countP_append]
  simp only [List.countP_singleton, List.getElem?_concat_length, Option.join_some, Option.map_none, reduceCtorEq, and_false, decide_false, Bool.false_eq_true, if_false, Nat.add_zero]
  exact countP_range_eq _ fun i hi => by rw [List.getElem?_append_left hi]

theorem sentOn_set {via : Nat → Nat × UInt64} {sents : List (Option Sent)} {k j0 : Nat} {n : UInt64} {p : Sent} (hk : sents[k]? = some none) (j : Nat) (m : Message) :
    sentOn (fun i => if i = k then (j0, n) else via i) (sents.set k (some p)) j m = sentOn via sents j m + if j0 = j ∧ (⟨n, p.data⟩ : Message) = m then 1 else 0 := by
  have hlt := (List.getElem?_eq_some_iff.1 hk).1
  unfold sentOn
  rw [List.length_set, countP_range_one (k := k) (q := fun i => decide (via i = (j, m.nonce) ∧ ((sents[i]?).join.map Sent.data) = some m.data)) _ ?_ hlt ?_]
  · obtain ⟨mn, md⟩ := m
    simp [hlt, and_assoc]
  · intro i hi
    have e : (sents.set k (some p))[i]? = sents[i]? := List.getElem?_set_ne (Ne.symm hi)
    rw [e]
    simp only [hi, if_false]
  · simp [hk]

theorem answersOn_items {items l : List Wk.Item} {answers : List (Nat × Message)} (h : ∀ p ∈ answers, ∃ it, items[p.1]? = some it ∧ p.2.nonce = it.msg.nonce) (j : Nat) :
    answersOn (items ++ l) answers j = answersOn items answers j := by
  unfold answersOn
  apply Link.filterMap_congr_mem
  intro p hp
  obtain ⟨it, hit, _⟩ := h p hp
  rw [hit, Wk.getElem?_append_some hit]

theorem answersOn_fresh {items : List Wk.Item} {answers : List (Nat × Message)} {n j : Nat} (h : ∀ it ∈ items, it.client < n) (hj : n ≤ j) : answersOn items answers j = [] := by
  unfold answersOn
  rw [List.filterMap_eq_nil_iff]
  intro p _
  cases hit : items[p.1]? with
  | none => rfl
  | some it =>
    have := h it (List.mem_of_getElem? hit)
    simp only [Option.bind_some]
    rw [if_neg (by omega)]

theorem sentOn_fresh {via : Nat → Nat × UInt64} {sents : List (Option Sent)} {n j : Nat} (h : ∀ (k : Nat) (p : Sent), sents[k]? = some (some p) → (via k).1 < n) (hj : n ≤ j) (m : Message) :
    sentOn via sents j m = 0 := by
  unfold sentOn
  rw [List.countP_eq_zero]
  intro k _
  rw [decide_eq_true_iff]
  rintro ⟨h1, h2⟩
  cases hk : sents[k]? with
  | none => rw [hk] at h2; cases h2
  | some o =>
    cases o with
    | none => rw [hk] at h2; cases h2
    | some p => have := h k p hk; rw [h1] at this; exact absurd hj (by simpa using this)

theorem Traffic.new : Traffic (fun _ => (0, 0)) (State.new : State ε) := by
  refine ⟨?_, ?_, ?_, ?_, ?_, ?_⟩ <;> simp [State.new, State.views, State.items, State.answers, State.sents]

theorem Traffic.quiet {via : Nat → Nat × UInt64} {s s' : State ε} (t : Traffic via s) (ha : Adds s s') (hi : s'.items = s.items) (han : s'.answers = s.answers)
    (hse : s'.sents = s.sents ∨ s'.sents = s.sents ++ [none]) : Traffic via s' := by
  obtain ⟨news, hv, hn⟩ := ha
  have hsent : ∀ j m, sentOn via s'.sents j m = sentOn via s.sents j m := by
    intro j m
    rcases hse with h | h
    · rw [h]
    · rw [h, sentOn_none]
  have hget : ∀ (k : Nat) (p : Sent), s'.sents[k]? = some (some p) → s.sents[k]? = some (some p) := by
    intro k p hk
    rcases hse with h | h
    · rw [h] at hk; exact hk
    · rw [h] at hk
      by_cases hlt : k < s.sents.length
      · rw [List.getElem?_append_left hlt] at hk; exact hk
      · rw [List.getElem?_append_right (by omega)] at hk
        have := List.mem_of_getElem? hk
        simp at this
  have hcase : ∀ (j : Nat) (v : View), s'.views[j]? = some v → s.views[j]? = some v ∨ (s.views.length ≤ j ∧ v.dl = [] ∧ v.sb = []) := by
    intro j v h
    rw [hv] at h
    by_cases hlt : j < s.views.length
    · rw [List.getElem?_append_left hlt] at h; exact .inl h
    · rw [List.getElem?_append_right (by omega)] at h
      exact .inr ⟨by omega, hn v (List.mem_of_getElem? h)⟩
  have hvia : ∀ (k : Nat) (p : Sent), s.sents[k]? = some (some p) → (via k).1 < s.views.length := fun k p h => by
    obtain ⟨⟨v, h1, _⟩, _⟩ := t.mine k p h
    exact (List.getElem?_eq_some_iff.1 h1).1
  refine ⟨?_, ?_, ?_, ?_, ?_, ?_⟩
  · intro j v h
    rw [hi]
    rcases hcase j v h with h | ⟨h1, h2, _⟩
    · exact t.dl j v h
    · rw [h2, eq_comm, List.map_eq_nil_iff, List.filter_eq_nil_iff]
      intro it hit
      have := t.src it hit
      simp only [decide_eq_true_iff]
      omega
  · intro it hit
    rw [hi] at hit
    have := t.src it hit
    rw [hv, List.length_append]
    omega
  · rw [hi, han]; exact t.ans
  · intro j v h
    rw [hi, han]
    rcases hcase j v h with h | ⟨h1, _⟩
    · exact t.order j v h
    · rw [answersOn_fresh t.src h1]; exact List.nil_sublist _
  · intro j v m h
    rw [hi, han, hsent]
    rcases hcase j v h with h | ⟨h1, _, h2⟩
    · exact t.count j v m h
    · rw [answersOn_fresh t.src h1, sentOn_fresh hvia h1, h2]; rfl
  · intro k p h
    obtain ⟨⟨v, h1, h2⟩, h3⟩ := t.mine k p (hget k p h)
    exact ⟨⟨v, by rw [hv]; exact Wk.getElem?_append_some h1, h2⟩, h3⟩

/-- The connections but for the one that has changed. -/
theorem set_cases {l : List View} {j : Nat} {v w : View} (hv : l[j]? = some v) {i : Nat} {u : View} (h : (l.set j w)[i]? = some u) : (i = j ∧ u = w) ∨ (i ≠ j ∧ l[i]? = some u) := by
  by_cases hi : i = j
  · subst hi
    rw [List.getElem?_set_self (List.getElem?_eq_some_iff.1 hv).1] at h
    cases h
    exact .inl ⟨rfl, rfl⟩
  · rw [List.getElem?_set_ne (Ne.symm hi)] at h
    exact .inr ⟨hi, h⟩

theorem set_mine {l : List View} {j : Nat} {v w : View} (hv : l[j]? = some v) (h1 : w.side = v.side) (h2 : w.addr = v.addr) {i : Nat} {a : Text} (h : ∃ u, l[i]? = some u ∧ u.side = .outbound ∧ u.addr = a) :
    ∃ u, (l.set j w)[i]? = some u ∧ u.side = .outbound ∧ u.addr = a := by
  obtain ⟨u, h3, h4, h5⟩ := h
  by_cases hi : i = j
  · subst hi
    rw [hv] at h3; cases h3
    exact ⟨w, List.getElem?_set_self (List.getElem?_eq_some_iff.1 hv).1, h1.trans h4, h2.trans h5⟩
  · exact ⟨u, by rw [List.getElem?_set_ne (Ne.symm hi)]; exact h3, h4, h5⟩

/-- What is known of a call that has its connection. -/
theorem got_view {cfg : Cfg ε} {s : State ε} (h : Reachable cfg s) {k j : Nat} {c : Call ε} (hk : s.calls[k]? = some c) (hpc : c.pc = .got j ∨ ∃ i, c.pc = .reqSend j i) {v : View} (hv : s.views[j]? = some v) :
    v.side = .outbound ∧ v.addr = c.addr := by
  obtain ⟨f, hf, _⟩ := Mine.reach h
  have hg := hf k c hk
  have : ∃ x, At s j c.addr x := by
    unfold Got at hg
    rcases hpc with hpc | ⟨i, hpc⟩
    · rw [hpc] at hg; obtain ⟨x, hx, _⟩ := hg; exact ⟨x, hx⟩
    · rw [hpc] at hg; obtain ⟨_, x, ⟨hx, _⟩, _⟩ := hg; exact ⟨x, hx⟩
  obtain ⟨x, h1, h2, h3⟩ := this
  rw [views_get h1] at hv; cases hv
  exact ⟨h3, h2⟩

theorem Traffic.eff {cfg : Cfg ε} {via : Nat → Nat × UInt64} {s s' : State ε} (hr : Reachable cfg s) (t : Traffic via s) (h : TEff s s') : ∃ via', Traffic via' s' := by
  cases h with
  | quiet h1 h2 h3 h4 => exact ⟨via, t.quiet h1 h2 h3 h4⟩
  | deliver j v m hv hv' hi ha hse =>
    refine ⟨via, ⟨?_, ?_, ?_, ?_, ?_, ?_⟩⟩
    · intro i u hu
      rw [hv'] at hu
      rw [hi, List.filter_append, List.map_append]
      rcases set_cases hv hu with ⟨rfl, rfl⟩ | ⟨hne, hu⟩
      · rw [← t.dl i v hv]; simp
      · rw [t.dl i u hu]; simp [Ne.symm hne]
    · intro it hit
      rw [hv', List.length_set]
      rw [hi] at hit
      rcases List.mem_append.1 hit with hit | hit
      · exact t.src it hit
      · rw [List.mem_singleton] at hit
        subst hit
        exact (List.getElem?_eq_some_iff.1 hv).1
    · rw [hi, ha]
      intro p hp
      obtain ⟨it, h1, h2⟩ := t.ans p hp
      exact ⟨it, Wk.getElem?_append_some h1, h2⟩
    · intro i u hu
      rw [hv'] at hu
      rw [hi, ha, answersOn_items t.ans]
      rcases set_cases hv hu with ⟨rfl, rfl⟩ | ⟨_, hu⟩
      · exact t.order i v hv
      · exact t.order i u hu
    · intro i u mm hu
      rw [hv'] at hu
      rw [hi, ha, answersOn_items t.ans, hse]
      rcases set_cases hv hu with ⟨rfl, rfl⟩ | ⟨_, hu⟩
      · exact t.count i v mm hv
      · exact t.count i u mm hu
    · intro k p hk
      rw [hse] at hk
      rw [hv']
      exact ⟨set_mine hv (by rfl) (by rfl) (t.mine k p hk).1, (t.mine k p hk).2⟩
  | answer k it data v hit hv hv' hi ha hse =>
    have hon : ∀ i, answersOn s'.items s'.answers i = answersOn s.items s.answers i ++ if it.client = i then [⟨it.msg.nonce, data⟩] else [] := by
      intro i
      unfold answersOn
      rw [hi, ha, List.filterMap_append]
      congr 1
      simp only [List.filterMap_cons, List.filterMap_nil, hit, Option.bind_some]
      split <;> simp_all
    refine ⟨via, ⟨?_, ?_, ?_, ?_, ?_, ?_⟩⟩
    · intro i u hu
      rw [hv'] at hu
      rw [hi]
      rcases set_cases hv hu with ⟨rfl, rfl⟩ | ⟨_, hu⟩
      · exact t.dl _ v hv
      · exact t.dl i u hu
    · rw [hv', List.length_set, hi]; exact t.src
    · rw [hi, ha]
      intro p hp
      rcases List.mem_append.1 hp with hp | hp
      · exact t.ans p hp
      · rw [List.mem_singleton] at hp
        subst hp
        exact ⟨it, hit, rfl⟩
    · intro i u hu
      rw [hv'] at hu
      rw [hon]
      rcases set_cases hv hu with ⟨rfl, rfl⟩ | ⟨hne, hu⟩
      · rw [if_pos rfl]; exact (t.order _ v hv).append (List.Sublist.refl _)
      · rw [if_neg (Ne.symm hne), List.append_nil]; exact t.order i u hu
    · intro i u mm hu
      rw [hv'] at hu
      rw [hon, hse, List.count_append]
      rcases set_cases hv hu with ⟨rfl, rfl⟩ | ⟨hne, hu⟩
      · have := t.count _ v mm hv
        simp only [if_true, List.count_append]
        omega
      · have := t.count i u mm hu
        rw [if_neg (Ne.symm hne), List.count_nil]
        omega
    · intro k p hk
      rw [hse] at hk
      rw [hv']
      exact ⟨set_mine hv (by rfl) (by rfl) (t.mine k p hk).1, (t.mine k p hk).2⟩
  | send k c j v m r hk hpc hv hv' hi ha hse hrn =>
    obtain ⟨hside, haddr⟩ := got_view hr hk hpc hv
    have hnone : s.sents[k]? = some none := by rcases hpc with hpc | ⟨i, hpc⟩ <;> simp [State.sents, hk, Call.sent, hpc]
    refine ⟨fun i => if i = k then (j, m.nonce) else via i, ⟨?_, ?_, ?_, ?_, ?_, ?_⟩⟩
    · intro i u hu
      rw [hv'] at hu
      rw [hi]
      rcases set_cases hv hu with ⟨rfl, rfl⟩ | ⟨_, hu⟩
      · exact t.dl _ v hv
      · exact t.dl i u hu
    · rw [hv', List.length_set, hi]; exact t.src
    · rw [hi, ha]; exact t.ans
    · intro i u hu
      rw [hv'] at hu
      rw [hi, ha]
      rcases set_cases hv hu with ⟨rfl, rfl⟩ | ⟨_, hu⟩
      · exact (t.order _ v hv).trans (List.sublist_append_left _ _)
      · exact t.order i u hu
    · intro i u mm hu
      rw [hv'] at hu
      rw [hi, ha, hse, sentOn_set hnone, show (⟨m.nonce, m.data⟩ : Message) = m from rfl]
      rcases set_cases hv hu with ⟨rfl, rfl⟩ | ⟨hne, hu⟩
      · have := t.count _ v mm hv
        simp only [true_and, List.count_append, List.count_singleton, beq_iff_eq]
        omega
      · have := t.count i u mm hu
        rw [if_neg (fun h => hne h.1.symm)]
        omega
    · intro i p hp
      rw [hse] at hp
      rw [hv']
      by_cases hik : i = k
      · subst hik
        rw [List.getElem?_set_self (List.getElem?_eq_some_iff.1 hnone).1] at hp
        cases hp
        rw [if_pos rfl]
        exact ⟨⟨_, List.getElem?_set_self (List.getElem?_eq_some_iff.1 hv).1, hside, haddr⟩, hrn⟩
      · rw [List.getElem?_set_ne (Ne.symm hik)] at hp
        rw [if_neg hik]
        exact ⟨set_mine hv (by rfl) (by rfl) (t.mine i p hp).1, (t.mine i p hp).2⟩

theorem Traffic.reach {cfg : Cfg ε} {s : State ε} (h : Reachable cfg s) : ∃ via, Traffic via s :=
  h.ind (P := fun s => ∃ via, Traffic via s) ⟨_, Traffic.new⟩ (fun _ _ _ hr ⟨_, t⟩ hs => t.eff hr (step_teff hr hs))

end Node
end Noise
