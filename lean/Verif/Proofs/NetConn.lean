import Verif.Proofs.NetRun
import Verif.Proofs.NodeReq
/-! # Fair executions of a network: messages and requests on a connection on which nothing fails -/
namespace Noise
open Spec
variable {ε : Type}

namespace Cl

/-- `ready` stays closed. -/
theorem ready_step {s s' : State ε} {a : Action ε} (hs : step s a = some s') (h : s.ready = true) : s'.ready = true := by
  cl_cases a hs
  all_goals first
    | assumption
    | (simp_all [State.closeReady, State.closeReaderDone, State.closeWriterDone, State.closeClientDone, State.report, State.send, State.setCall]; done)
    | grind [State.closeReady, State.closeReaderDone, State.closeWriterDone, State.closeClientDone, State.report, State.send, State.setCall]

theorem End.ready {side : Side} {c : Nat → State ε} {β : Nat → Option (Action ε)} {rd : Nat → Nat} {inp : Nat → List Message} (e : End side c β rd inp) (t : Nat) : ∃ t', t ≤ t' ∧ ∀ x, t' ≤ x → (c x).ready = true := by
  obtain ⟨t', h1, h2⟩ := e.loops t
  refine ⟨t', h1, fun x hx => ?_⟩
  refine Fair.stays (P := fun x => (c x).ready = true) ?_ hx ?_
  · intro x h
    rcases e.step x with ⟨_, h'⟩ | ⟨a, _, _, h'⟩
    · rw [h']; exact h
    · exact ready_step h' h
  · rw [(Life.reach (e.reach t')).ready]
    cases hm : (c t').main <;> rw [hm] at h2 <;> first | rfl | cases h2

end Cl

namespace Link

/-- There is a nonce for the next request. -/
theorem Rpc.free {N H : Nat} {s : State ε} (i : Rpc s) (b : Base N H s) (hb : s.a.calls.length < 2 ^ 64 - 1) : ∃ v, (s.a.reqs.nextNonce s.a.calls.length).2 = some v := by
  have hcand : s.a.reqs.candidate.toNat = s.a.calls.length + 1 := by
    unfold RequestMap.candidate
    have hne : s.a.reqs.nonce ≠ 18446744073709551615 := by
      intro e
      have := i.nonce
      rw [e] at this
      have : (18446744073709551615 : UInt64).toNat = 18446744073709551615 := rfl
      omega
    simp only [if_neg hne, UInt64.toNat_add, i.nonce]
    have : (1 : UInt64).toNat = 1 := rfl
    omega
  have hfree : s.a.reqs.entries s.a.reqs.candidate = none := by
    cases he : s.a.reqs.entries s.a.reqs.candidate with
    | none => rfl
    | some j =>
      obtain ⟨c, h1, h2, _⟩ := (Cl.ReqsOK.reach b.ra).entCall _ j he
      have := i.callN j c h1
      have hlt := (List.getElem?_eq_some_iff.1 h1).1
      rw [h2] at this
      omega
  refine ⟨s.a.reqs.candidate, ?_⟩
  simp only [RequestMap.nextNonce, hfree]

end Link

namespace Node

theorem callStep_alone {cfg : Cfg ε} {s s' : State ε} {k : Nat} {c : Call ε} (h : s.callStep cfg k c = some s') : s'.calls = s.calls ∨ ∃ c', s'.calls = s.calls.set k c' := by
  have hsame : ∀ {j : Nat} {a : Cl.Action ε} {s1 : State ε}, s.stepConn j a = some s1 → s1.calls = s.calls := fun h => by
    obtain ⟨x, c, _, _, rfl⟩ := stepConn_some h; rfl
  have hcc : ∀ {j : Nat} {c' : Call ε} {s2 : State ε}, s.closeClient j (s.setCall k c') = some s2 → s2.calls = s.calls ∨ ∃ c', s2.calls = s.calls.set k c' := fun h => by
    rcases closeClient_some h with rfl | h
    · exact .inr ⟨_, rfl⟩
    · exact .inl (hsame h)
  have hdrop : ∀ (s : State ε) (j : Nat), (s.drop j).calls = s.calls := fun s j => by
    unfold State.drop
    cases h : s.stepConn j .poolDrop with
    | none => rfl
    | some s1 => obtain ⟨x, c, _, _, rfl⟩ := stepConn_some h; rfl
  unfold State.callStep at h
  split at h
  · split at h
    · cases h; exact .inr ⟨_, rfl⟩
    · unfold State.get at h
      simp only at h
      split at h
      · cases h
      · split at h
        · cases h; exact .inr ⟨_, rfl⟩
        · split at h
          · split at h
            · cases h; simp only [State.setCall, hdrop]; exact .inr ⟨_, rfl⟩
            · cases h; exact .inl rfl
          · cases h; exact .inr ⟨_, rfl⟩
  · exact hcc h
  · split at h
    · cases h; exact .inr ⟨_, rfl⟩
    · cases h
  · exact hcc h
  · split at h
    · cases h; exact .inr ⟨_, rfl⟩
    · cases h
  · cases h; exact .inr ⟨_, rfl⟩
  · next j _ =>
    split at h
    · cases h; exact .inr ⟨_, rfl⟩
    · next data _ =>
      cases hq : s.stepConn j (.send ⟨0, data⟩) with
      | none => rw [hq] at h; cases h
      | some s1 => rw [hq] at h; cases h; right; exact ⟨_, congrArg (fun l : List (Call ε) => l.set k _) (hsame hq)⟩
    · next data _ =>
      split at h
      · cases hq : s.stepConn j (.reqStart data) with
        | none => rw [hq] at h; cases h
        | some s1 =>
          rw [hq] at h; cases h
          split <;> · right; exact ⟨_, congrArg (fun l : List (Call ε) => l.set k _) (hsame hq)⟩
      · cases h
  · next j i _ =>
    cases hq : s.stepConn j (.reqSend i) with
    | none => rw [hq] at h; cases h
    | some s1 => rw [hq] at h; cases h; right; exact ⟨_, congrArg (fun l : List (Call ε) => l.set k _) (hsame hq)⟩
  · cases h

/-- A call is moved only by its own goroutine, and by the end of its context. -/
theorem call_alone {cfg : Cfg ε} {s s' : State ε} {a : Action ε} {k : Nat} {c : Call ε} (h : step cfg s a = some s') (hk : s.calls[k]? = some c) :
    s'.calls[k]? = some c ∨ a = .expire k ∨ a = .callStep k ∨ (∃ b, a = .select k b) ∨ a = .take k ∨ a = .cancel k := by
  have hlt := (List.getElem?_eq_some_iff.1 hk).1
  have same : s'.calls = s.calls → s'.calls[k]? = some c := fun h => by rw [h]; exact hk
  have set : ∀ {j : Nat} {c' : Call ε}, j ≠ k → s'.calls = s.calls.set j c' → s'.calls[k]? = some c := fun hj h => by rw [h, List.getElem?_set_ne hj]; exact hk
  have hdrops : ∀ (l : List Nat) (s : State ε), (l.foldl State.drop s).calls = s.calls := fun l => by
    induction l with
    | nil => intro s; rfl
    | cons j l ih =>
      intro s
      rw [List.foldl_cons, ih]
      unfold State.drop
      cases h : s.stepConn j .poolDrop with
      | none => rfl
      | some s1 => obtain ⟨x, c, _, _, rfl⟩ := stepConn_some h; rfl
  have hsame : ∀ {j : Nat} {a : Cl.Action ε} {s1 : State ε}, s.stepConn j a = some s1 → s1.calls = s.calls := fun h => by
    obtain ⟨x, c, _, _, rfl⟩ := stepConn_some h; rfl
  unfold Node.step at h
  split at h
  · cases h
  cases a with
  | conn j act => exact .inl (same (connStep_calls h))
  | listen => simp only at h; split at h; cases h; exact .inl hk; cases h
  | acceptConn a => simp only at h; split at h; cases h; exact .inl hk; cases h
  | acceptFail => simp only at h; split at h; cases h; exact .inl hk; cases h
  | acceptStep => exact .inl (same (acceptStep_calls h))
  | acceptRelease l =>
    simp only at h
    split at h
    · split at h
      · cases h; exact .inl (same (hdrops l s))
      · cases h
    · cases h
  | close => simp only at h; split at h <;> · cases h; exact .inl hk
  | closeListener c => simp only at h; split at h; cases h; exact .inl hk; cases h
  | closeRecv c =>
    simp only at h
    split at h
    · split at h
      · cases h; exact .inl hk
      · split at h
        · cases h; exact .inl hk
        · cases h
    · cases h
  | list side => simp only at h; split at h; cases h; exact .inl hk; cases h
  | appClose j => exact .inl (same (hsame h))
  | call kind addr => cases h; exact .inl (by simp only; rw [List.getElem?_append_left hlt]; exact hk)
  | expire j =>
    by_cases hj : j = k
    · subst hj; exact .inr (.inl rfl)
    · simp only at h
      cases hc : s.calls[j]? with
      | none => rw [hc] at h; cases h
      | some c => rw [hc] at h; cases h; exact .inl (set hj rfl)
  | callStep j =>
    by_cases hj : j = k
    · subst hj; exact .inr (.inr (.inl rfl))
    · simp only at h
      split at h
      · rcases callStep_alone h with h | ⟨c', h⟩
        · exact .inl (same h)
        · exact .inl (set hj h)
      · cases h
  | select j b =>
    by_cases hj : j = k
    · subst hj; exact .inr (.inr (.inr (.inl ⟨b, rfl⟩)))
    · simp only at h
      repeat' split at h
      all_goals first
        | (cases h; done)
        | (cases h; exact .inl (set hj rfl))
  | take j =>
    by_cases hj : j = k
    · subst hj; exact .inr (.inr (.inr (.inr (.inl rfl))))
    · simp only at h
      split at h
      · split at h
        · split at h
          · next s1 h1 =>
            split at h
            · split at h <;> · cases h; exact .inl (set (c' := _) hj (congrArg (fun l : List (Call ε) => l.set j _) (hsame h1)))
            · cases h
          · cases h
        · cases h
      · cases h
  | cancel j =>
    by_cases hj : j = k
    · subst hj; exact .inr (.inr (.inr (.inr (.inr rfl))))
    · simp only at h
      split at h
      · split at h
        · next v r _ =>
          split at h
          · cases hq : s.stepConn v (.reqCancel r) with
            | none => rw [hq] at h; cases h
            | some s1 => rw [hq] at h; cases h; exact .inl (set (c' := _) hj (congrArg (fun l : List (Call ε) => l.set j _) (hsame hq)))
          · cases h
        · cases h
      · cases h
  | work w => exact .inl (same (workStep_calls h))
  | handlerReturn w r =>
    simp only at h
    split at h
    · next q hq =>
      cases hn' : Wk.step q (.handlerReturn w r) with
      | none => rw [hn'] at h; cases h
      | some q' => rw [hn'] at h; cases h; exact .inl hk
    · cases h
  | ctxSend k h' data => exact .inl (same (ctxSend_calls h))

end Node

namespace Net
variable {cfg : Nat → Node.Cfg ε} {n : Nat} {σ : Nat → State ε} {α : Nat → Option (Action ε)} {o i : End}

/-! ### The connection -/

theorem Inv.one {s : State ε} (v : Inv cfg s) {o i : End} {w w' : Wire} (hw : w ∈ s.wires) (hw' : w' ∈ s.wires) {e : End} (h : e = w.out ∨ e = w.inn) (h' : e = w'.out ∨ e = w'.inn) : w = w' := by
  obtain ⟨k, hk⟩ := List.getElem?_of_mem hw
  obtain ⟨k', hk'⟩ := List.getElem?_of_mem hw'
  by_cases hkk : k = k'
  · subst hkk
    rw [hk] at hk'; injection hk'
  · have := ends_one v.nodup hk hk' hkk h
    rcases h' with h' | h'
    · exact absurd h'.symm this.1
    · exact absurd h'.symm this.2

theorem Linked.ends {s : State ε} (v : Inv cfg s) (h : Linked s o i) : (∃ x, s.conn o = some x ∧ x.c.side = .outbound) ∧ ∃ y, s.conn i = some y ∧ y.c.side = .inbound := by
  obtain ⟨w, hw, rfl, rfl⟩ := h
  obtain ⟨k, hk⟩ := List.getElem?_of_mem hw
  exact v.sides k w hk

theorem FairRun.sides (r : FairRun cfg n σ α) {e : End} {d : Cl.Side} {t0 : Nat} (h : ∃ x, (σ t0).conn e = some x ∧ x.c.side = d) (t : Nat) (x : Node.Conn ε) (hx : (σ t).conn e = some x) : x.c.side = d := by
  obtain ⟨y, h1, h2⟩ := h
  rcases Nat.le_total t t0 with hle | hle
  · obtain ⟨z, h3, h4⟩ := r.keeps hle hx
    rw [h1] at h3; cases h3
    exact h4.symm.trans h2
  · obtain ⟨z, h3, h4⟩ := r.keeps hle h1
    rw [hx] at h3; cases h3
    exact h4.trans h2

theorem FairRun.exist (r : FairRun cfg n σ α) {e : End} {t : Nat} {x : Node.Conn ε} (h : (σ t).conn e = some x) : e.node < n := by
  obtain ⟨X, hX, _⟩ := conn_split h
  rw [← r.len t]
  exact (List.getElem?_eq_some_iff.1 hX).1

theorem Unbroken.out (u : Unbroken σ α o i) (r : FairRun cfg n σ α) {t0 : Nat} (hl : Linked (σ t0) o i) : Calm cfg n σ α o .outbound t0 := by
  obtain ⟨hx, _⟩ := hl.ends (r.inv t0)
  obtain ⟨x, h1, h2⟩ := hx
  exact ⟨r, r.exist h1, r.sides ⟨x, h1, h2⟩, fun t ht => by obtain ⟨y, hy, _⟩ := r.keeps ht h1; exact ⟨y, hy⟩, fun t y => u.ends t o y (.inl rfl), fun t X => u.nodes t _ X (.inl rfl),
    fun t w x => u.handlers t _ w x (.inl rfl), u.listens⟩

theorem Unbroken.inn (u : Unbroken σ α o i) (r : FairRun cfg n σ α) {t0 : Nat} (hl : Linked (σ t0) o i) : Calm cfg n σ α i .inbound t0 := by
  obtain ⟨_, hx⟩ := hl.ends (r.inv t0)
  obtain ⟨x, h1, h2⟩ := hx
  refine ⟨r, r.exist h1, r.sides ⟨x, h1, h2⟩, fun t ht => by obtain ⟨y, hy, _⟩ := r.keeps ht h1; exact ⟨y, hy⟩, fun t y => u.ends t i y (.inr rfl), fun t X => u.nodes t _ X (.inr rfl),
    fun t w x => u.handlers t _ w x (.inr rfl), ?_⟩
  intro t y X hy hX hw
  have hr := (r.inv t).nodes _ _ hX
  rw [conn_join hX] at hy
  have hs : y.c.side = .inbound := r.sides ⟨x, h1, h2⟩ t y (by rw [conn_join hX]; exact hy)
  exact (Node.NilInv.reach hr _ y hy hs).1 ((Node.Stage.reach hr).init.2 hw)

/-- How much has been read at the two ends. -/
noncomputable def readsAt (s : State ε) (o i : End) : Nat × Nat := by
  classical exact if h : Linked s o i then (h.choose.readOut, h.choose.readIn) else (0, 0)

theorem reads_linked {s : State ε} (h : Linked s o i) : ∃ w ∈ s.wires, w.out = o ∧ w.inn = i ∧ readsAt s o i = (w.readOut, w.readIn) := by
  obtain ⟨h1, h2, h3⟩ := h.choose_spec
  exact ⟨h.choose, h1, h2, h3, by unfold readsAt; rw [dif_pos h]⟩

theorem reads_not {s : State ε} (h : ¬ Linked s o i) : readsAt s o i = (0, 0) := by unfold readsAt; rw [dif_neg h]

/-- The part of the network that concerns these two ends, with what they have read. -/
noncomputable def linkAt (cfg : Nat → Node.Cfg ε) (s : State ε) (o i : End) : Link.State ε := s.lk cfg o i (readsAt s o i).1 (readsAt s o i).2

theorem FairRun.before (r : FairRun cfg n σ α) {t0 : Nat} (hl : Linked (σ t0) o i) (t : Nat) (hn : ¬ Linked (σ t) o i) {e : End} (he : e = o ∨ e = i) : (σ t).used e = false := by
  have hlt : t ≤ t0 := by
    rcases Nat.le_total t t0 with h | h
    · exact h
    · exact absurd (r.linked h hl) hn
  obtain ⟨w, hw, h1, h2⟩ := hl
  have hee : e = w.out ∨ e = w.inn := by rcases he with rfl | rfl; exacts [.inl h1.symm, .inr h2.symm]
  rw [used_iff]
  refine ⟨fun hf => ?_, fun hm => ?_⟩
  · obtain ⟨k, hk⟩ := List.getElem?_of_mem hw
    have := (r.inv t0).apart e (r.foreign hlt hf)
    rcases hee with rfl | rfl
    · exact this (ends_mem hk).1
    · exact this (ends_mem hk).2
  · obtain ⟨v, hv, hve⟩ := List.mem_flatMap.1 hm
    simp only [List.mem_cons, List.not_mem_nil, or_false] at hve
    obtain ⟨v', hv', g1, g2⟩ := r.linked hlt (o := v.out) (i := v.inn) ⟨v, hv, rfl, rfl⟩
    have : w = v' := (r.inv t0).one (o := o) (i := i) hw hv' hee (by rw [g1, g2]; exact hve)
    subst this
    exact hn ⟨v, hv, g1.symm.trans h1, g2.symm.trans h2⟩

theorem FairRun.link (r : FairRun cfg n σ α) {t0 : Nat} (hl : Linked (σ t0) o i) (t : Nat) : Link.Reachable (cfg i.node).numWorkers (cfg i.node).numHandlers (linkAt cfg (σ t) o i) := by
  unfold linkAt
  by_cases h : Linked (σ t) o i
  · obtain ⟨w, hw, h1, h2, h3⟩ := reads_linked h
    obtain ⟨k, hk⟩ := List.getElem?_of_mem hw
    have := (r.inv t).link k w hk
    rw [h3]
    rw [h1, h2] at this
    exact this
  · rw [reads_not h]
    obtain ⟨hx, hy⟩ := hl.ends (r.inv t0)
    exact (r.inv t).free o i (r.before hl t h (.inl rfl)) (r.before hl t h (.inr rfl)) ⟨r.sides hx t, r.sides hy t⟩

/-- The two ends and the workers, as `Proofs/LiveCall.lean` wants them. -/
theorem Unbroken.parts (u : Unbroken σ α o i) (r : FairRun cfg n σ α) (hNo : 0 < (cfg o.node).numWorkers) (hNi : 0 < (cfg i.node).numWorkers) :
    ∃ (βa βb : Nat → Option (Cl.Action ε)) (γ : Nat → Option (Wk.Action ε)),
      Link.Parts (cfg i.node).numWorkers (cfg i.node).numHandlers (fun t => linkAt cfg (σ t) o i) βa βb (fun t => (γ t).map (Wk.Action.rn (ren i.conn))) ∧
      (∀ t, EndStep σ α o .outbound t (βa t)) ∧ ∀ t w r, α t = some (.node i.node (.handlerReturn w r)) ↔ γ t = some (.handlerReturn w r) := by
  obtain ⟨t0, hl⟩ := u.linked
  have co := u.out r hl
  have ci := u.inn r hl
  obtain ⟨βa, ha⟩ := co.acts
  obtain ⟨βb, hb⟩ := ci.acts
  obtain ⟨γ, hγ, hret⟩ := ci.workers
  have base : ∀ t, Link.Base (cfg i.node).numWorkers (cfg i.node).numHandlers (linkAt cfg (σ t) o i) := fun t => .reach (r.link hl t)
  have lko : ∀ t, t0 ≤ t → Wired (σ t) o := fun t ht => by obtain ⟨w, h1, h2, _⟩ := r.linked ht hl; exact ⟨w, h1, .inl h2⟩
  have lki : ∀ t, t0 ≤ t → Wired (σ t) i := fun t ht => by obtain ⟨w, h1, _, h2⟩ := r.linked ht hl; exact ⟨w, h1, .inr h2⟩
  have avo : ∀ t, t0 ≤ t → (linkAt cfg (σ t) o i).readA < (flushedOf (linkAt cfg (σ t) o i).b.log).length → Fed (σ t) o ∧ o ∉ (σ t).foreign ∧ ∃ m ws, readWire (σ t) o m (σ t).wires = some ws := by
    intro t ht hlt
    have hlt' := r.linked ht hl
    obtain ⟨w, hw, h1, h2, h3⟩ := reads_linked hlt'
    obtain ⟨_, y, hy, _⟩ := hlt'.ends (r.inv t)
    obtain ⟨k, hk⟩ := List.getElem?_of_mem hw
    have e1 : (linkAt cfg (σ t) o i).readA = w.readOut := by unfold linkAt; rw [h3]; rfl
    have e2 : (linkAt cfg (σ t) o i).b = y.c := cl_some hy
    rw [e1, e2] at hlt
    rw [← h2] at hy
    obtain ⟨ws, hws⟩ := readable (r.inv t).nodup hw (.inl ⟨h1, hy, List.getElem?_eq_getElem (Link.wire_lt hlt)⟩)
    exact ⟨⟨w, hw, .inl ⟨h1, y, hy, hlt⟩⟩, fun hf => (r.inv t).apart _ hf (by rw [← h1]; exact (ends_mem hk).1), _, ws, hws⟩
  have avi : ∀ t, t0 ≤ t → (linkAt cfg (σ t) o i).readB < (flushedOf (linkAt cfg (σ t) o i).a.log).length → Fed (σ t) i ∧ i ∉ (σ t).foreign ∧ ∃ m ws, readWire (σ t) i m (σ t).wires = some ws := by
    intro t ht hlt
    have hlt' := r.linked ht hl
    obtain ⟨w, hw, h1, h2, h3⟩ := reads_linked hlt'
    obtain ⟨⟨y, hy, _⟩, _⟩ := hlt'.ends (r.inv t)
    obtain ⟨k, hk⟩ := List.getElem?_of_mem hw
    have e1 : (linkAt cfg (σ t) o i).readB = w.readIn := by unfold linkAt; rw [h3]; rfl
    have e2 : (linkAt cfg (σ t) o i).a = y.c := cl_some hy
    rw [e1, e2] at hlt
    rw [← h1] at hy
    obtain ⟨ws, hws⟩ := readable (r.inv t).nodup hw (.inr ⟨h2, hy, List.getElem?_eq_getElem (Link.wire_lt hlt)⟩)
    exact ⟨⟨w, hw, .inr ⟨h2, y, hy, hlt⟩⟩, fun hf => (r.inv t).apart _ hf (by rw [← h2]; exact (ends_mem hk).2), _, ws, hws⟩
  have mono : ∀ {e : End} {d : Cl.Side} {β : Nat → Option (Cl.Action ε)}, (∀ t, EndStep σ α e d t (β t)) → ∀ t, flushedOf ((σ t).cl e d).log <+: flushedOf ((σ (t + 1)).cl e d).log := by
    intro e d β hβ t
    rcases (hβ t).step with ⟨_, e⟩ | ⟨act, _, _, e⟩
    · rw [e]; exact List.prefix_refl _
    · exact Cl.flushed_mono e
  refine ⟨βa, βb, γ, ⟨base, ⟨co.init, fun t => (ha t).step, ?_, mono hb, co.main ha avo, co.net ha lko fun t h1 h2 => (avo t h1 h2).1, co.writer ha, co.deliver ha hNo⟩,
    ⟨ci.init, fun t => (hb t).step, ?_, mono ha, ci.main hb avi, ci.net hb lki fun t h1 h2 => (avi t h1 h2).1, ci.writer hb, ci.deliver hb hNi⟩, hγ.rn _⟩, ha, hret⟩
  · intro t
    have b := base t
    have := congrArg List.length b.readA
    simp only [Link.readBy, List.length_append, List.length_take] at this
    have := b.leA
    omega
  · intro t
    have b := base t
    have := congrArg List.length b.readB
    simp only [Link.readBy, List.length_append, List.length_take] at this
    have := b.leB
    omega

end Net
end Noise
