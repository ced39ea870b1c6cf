import Verif.Model.KadBind
import Verif.Props.KadNode
/-! # Property C122: the overlay network before the node listens (kademlia/protocol.go) -/
set_option linter.unusedSimpArgs false
namespace Noise.KadBind
open Spec Cl
variable {ε : Type}

/-- What holds of the connections of a node that has not crashed. -/
structure Inv (s : State ε) : Prop where
  conns : ∀ c ∈ s.conns, ∃ side, Cl.Reachable side c
  /-- the crash is of a nil table -/
  nil : s.crashed = true → s.kad = none
  /-- as long as the table is nil, no handshake has been completed -/
  early : s.crashed = false → s.kad = none → ∀ c ∈ s.conns, ∀ e, .connected (some e) ∈ c.log → e.id = zeroPublicKey
  bound : ∀ k, s.kad = some k → ∃ self, KadNode.Inv self ⟨k, s.conns, s.user⟩

theorem connected_acks {c c' : Cl.State ε} {act : Cl.Action ε} {side : Side} (hr : Cl.Reachable side c') (hs : Cl.step c act = some c') {e : ID} (he : .connected (some e) ∈ c'.log) (hn : .connected (some e) ∉ c.log) : e ∈ KadNode.acks c c' := by
  rcases log_step_one hs with hl | ⟨x, hl⟩
  · rw [hl] at he; exact absurd he hn
  · have hx : x = .connected (some e) := by
      rw [hl] at he
      rcases List.mem_append.1 he with he | he
      · exact absurd he hn
      · exact (List.mem_singleton.1 he).symm
    subst hx
    have hid : c'.id = some e := by
      have h1 := (CbInv.reach hr).conn
      have hm : c'.main ≠ .hsVerified := by
        refine KadNode.callback_step (fun hm => (ConnInv.reach hr).early (by rw [hm]; rfl)) hs hl (.inl ⟨_, rfl⟩)
      have hmem : some e ∈ connectedOf c'.log := List.mem_filterMap.2 ⟨_, he, rfl⟩
      rw [h1] at hmem
      split at hmem
      · cases hmem
      · split at hmem
        · exact (List.mem_singleton.1 hmem).symm
        · cases hmem
    unfold KadNode.acks
    rw [hl, List.drop_left]
    simp [KadNode.clientID, hid]

theorem Inv.step {s s' : State ε} {a : Action ε} (h : Inv s) (hs : step s a = some s') : Inv s' := by
  unfold KadBind.step at hs
  split at hs
  · cases hs
  rename_i hc
  have hc : s.crashed = false := by simpa using hc
  split at hs
  · rename_i self hk
    obtain ⟨t, ht, rfl⟩ := Option.map_eq_some_iff.1 hs
    refine ⟨h.conns, fun hx => ?_, fun _ hx => (by cases hx), fun k hk' => ?_⟩
    · rw [hc] at hx; cases hx
    · cases hk'
      exact ⟨self, h.conns, ((KadNode.Inv.reach (ε := ε) ⟨t, ht, .refl _⟩).src).mono (by
        rintro e (he | he | ⟨c, hcm, _⟩)
        · exact .inl he
        · cases he
        · cases hcm)⟩
  · cases hs
  · rename_i hk
    cases hs
    exact ⟨h.conns, fun _ => hk, fun hx => (by cases hx), h.bound⟩
  · cases hs; exact h
  · rename_i a hk
    have hb : ∀ k, s.kad = some k → ∀ P : Prop, P := fun k hx => by rw [hk] at hx; cases hx
    unfold stepNil at hs
    split at hs
    · cases hs
    · cases hs
      refine ⟨?_, fun _ => hk, ?_, fun k hx => hb k hx _⟩
      · intro c hcm
        rcases List.mem_append.1 hcm with hcm | hcm
        · exact h.conns c hcm
        · rw [List.mem_singleton.1 hcm]; exact ⟨.outbound, [], rfl⟩
      · intro _ _ c hcm e he
        rcases List.mem_append.1 hcm with hcm | hcm
        · exact h.early hc hk c hcm e he
        · rw [List.mem_singleton.1 hcm] at he; cases he
    · split at hs
      · rename_i i act _ c hi
        obtain ⟨c', hst, rfl⟩ := Option.map_eq_some_iff.1 hs
        obtain ⟨side, hr⟩ := h.conns c (List.mem_of_getElem? hi)
        refine ⟨?_, fun _ => hk, ?_, fun k hx => hb k hx _⟩
        · intro d hd
          rcases List.mem_or_eq_of_mem_set hd with hd | rfl
          · exact h.conns d hd
          · exact ⟨side, hr.step hst⟩
        · intro hx _ d hd e he
          rcases List.mem_or_eq_of_mem_set hd with hd | rfl
          · exact h.early hc hk d hd e he
          · by_cases hn : .connected (some e) ∈ c.log
            · exact h.early hc hk c (List.mem_of_getElem? hi) e hn
            · have := List.any_eq_false.1 hx e (connected_acks (hr.step hst) hst he hn)
              simpa [panics] using this
      · cases hs
    all_goals first
      | (cases hs; done)
      | (cases hs; exact ⟨h.conns, fun _ => hk, fun _ hx c hcm => h.early hc hk c hcm, fun k hx => hb k hx _⟩)
  · rename_i a k hk
    obtain ⟨n, hn, rfl⟩ := Option.map_eq_some_iff.1 hs
    obtain ⟨self, hi⟩ := h.bound k hk
    have hi' := hi.step hn
    exact ⟨hi'.conns, fun hx => (by rw [hc] at hx; cases hx), fun _ hx => (by cases hx), fun k' hk' => by cases hk'; exact ⟨self, hi'⟩⟩

theorem Inv.reach {s : State ε} (h : Reachable s) : Inv s :=
  h.inv (P := Inv) (fun _ _ _ h hs => h.step hs) ⟨fun c hc => (by cases hc), fun h => (by cases h), fun _ _ c hc => (by cases hc), fun k hk => (by cases hk)⟩

end KadBind

open KadBind in
/-- **C122 is false of the code**: as long as a node with the overlay network has not called `Listen`, connections are of no use to it: if the process has not crashed, no handshake with a peer (other than one with the zero key) has been completed,
and it crashes as soon as one is, or a dial fails, or the application calls `Find`, `Discover`, gossip's `Push` or `Ack`: the routing table is nil until then. -/
theorem C122_crash_before_listen_refuted {ε : Type} (s : KadBind.State ε) (h : KadBind.Reachable s) (hk : s.kad = none) (hc : s.crashed = false) :
    (∀ c ∈ s.conns, ∀ e, .connected (some e) ∈ c.log → e.id = zeroPublicKey) ∧
    (∀ i c act c' e, s.conns[i]? = some c → Cl.step c act = some c' → .connected (some e) ∈ c'.log → e.id ≠ zeroPublicKey →
      ∃ s', KadBind.step s (.node (.conn i act)) = some s' ∧ s'.crashed = true) ∧
    (∀ a, a = .find ∨ (∃ addr, a = .node (.dialFailed addr)) ∨ (∃ e, e.id ≠ zeroPublicKey ∧ a = .node (.userAck e)) → ∃ s', KadBind.step s a = some s' ∧ s'.crashed = true) := by
  have hi := Inv.reach h
  refine ⟨hi.early hc hk, ?_, ?_⟩
  · intro i c act c' e hci hst he hz
    obtain ⟨side, hr⟩ := hi.conns c (List.mem_of_getElem? hci)
    have hn : .connected (some e) ∉ c.log := fun hx => hz (hi.early hc hk c (List.mem_of_getElem? hci) e hx)
    refine ⟨{ s with conns := s.conns.set i c', crashed := (KadNode.acks c c').any panics }, by simp [KadBind.step, hc, hk, stepNil, hci, hst], ?_⟩
    exact List.any_eq_true.2 ⟨e, connected_acks (hr.step hst) hst he hn, by simpa [panics] using hz⟩
  · rintro a (rfl | ⟨addr, rfl⟩ | ⟨e, hz, rfl⟩)
    · exact ⟨{ s with crashed := true }, by simp [KadBind.step, hc, hk], rfl⟩
    · exact ⟨{ s with crashed := true }, by simp [KadBind.step, hc, hk, stepNil], rfl⟩
    · exact ⟨{ s with crashed := true }, by simp [KadBind.step, hc, hk, stepNil, panics, hz], rfl⟩

/-- **C122, witness**: a node with the overlay network that has not called `Listen` connects to a peer. -/
theorem C122_witness : ∃ s : KadBind.State Unit, KadBind.Reachable s ∧ s.crashed = true ∧ ∃ c ∈ s.conns, some kpeer ∈ Spec.connectedOf c.log := by
  obtain ⟨s, h1, h2⟩ := witness (st := KadBind.step) (s0 := KadBind.State.new) (as := [.node (.connect .outbound), .node (.conn 0 .main), .node (.conn 0 .dialOK), .node (.conn 0 .arrive), .node (.conn 0 .arrive), .node (.conn 0 .hsKey), .node (.conn 0 (.hsOK kpeer)), .node (.conn 0 .main)])
    (f := fun s : KadBind.State Unit => (s.crashed, decide (∃ c ∈ s.conns, some kpeer ∈ Spec.connectedOf c.log))) (x := (true, true)) (by decide +kernel)
  simp only [Prod.mk.injEq, decide_eq_true_eq] at h2
  exact ⟨s, ⟨_, h1⟩, h2⟩

/-- **C122, what holds** (missing: anything before `Listen`). Once `Listen` has bound the protocol, the table is there for good: no callback and no call of the application meets a nil table any more, also on connections that were begun before; and
what is in the table is the node itself, what the application has put there, and peers with which a handshake was completed (C103). -/
theorem C122_after_listen_partial {ε : Type} (s : KadBind.State ε) (h : KadBind.Reachable s) :
    (s.crashed = true → s.kad = none) ∧
    (∀ k, s.kad = some k → (∀ s', ReachFrom KadBind.step s s' → s'.crashed = false ∧ s'.kad ≠ none) ∧
      ∃ self, ∀ e ∈ k.table.all, e = self ∨ e ∈ s.user ∨ ∃ c ∈ s.conns, .connected (some e) ∈ c.log) := by
  have hi := KadBind.Inv.reach h
  refine ⟨hi.nil, fun k hk => ⟨?_, ?_⟩⟩
  · intro s' hr
    have hk' : s'.kad ≠ none := by
      refine hr.inv (P := fun s => s.kad ≠ none) (fun s a s' hx hs => ?_) (by rw [hk]; exact fun hx => (by cases hx))
      unfold KadBind.step at hs
      split at hs
      · cases hs
      split at hs
      · obtain ⟨t, _, rfl⟩ := Option.map_eq_some_iff.1 hs; exact fun hx => (by cases hx)
      · cases hs
      · rename_i hn; exact absurd hn hx
      · cases hs; exact hx
      · rename_i hn; exact absurd hn hx
      · obtain ⟨t, _, rfl⟩ := Option.map_eq_some_iff.1 hs; exact fun hx => (by cases hx)
    refine ⟨?_, hk'⟩
    cases hx : s'.crashed with
    | false => rfl
    | true => exact absurd ((KadBind.Inv.reach (h.trans hr)).nil hx) hk'
  · obtain ⟨self, hb⟩ := hi.bound k hk
    exact ⟨self, hb.src.table⟩

/-- A node that listens first, and then connects, records its peer; and a connection that was begun before `Listen` and completes its handshake after it does no harm. -/
example : (∃ s : KadBind.State Unit, KadBind.Reachable s ∧ s.crashed = false ∧ ∃ k, s.kad = some k ∧ kpeer ∈ k.table.all) := by
  obtain ⟨s, h1, h2⟩ := witness (st := KadBind.step) (s0 := KadBind.State.new) (as := [.node (.connect .outbound), .node (.conn 0 .main), .node (.conn 0 .dialOK), .listen kself, .node (.conn 0 .arrive), .node (.conn 0 .arrive), .node (.conn 0 .hsKey), .node (.conn 0 (.hsOK kpeer)), .node (.conn 0 .main), .find, .node (.step 0), .node (.step 0)])
    (f := fun s : KadBind.State Unit => (s.crashed, decide (kpeer ∈ (s.kad.map fun k => k.table.all).getD []))) (x := (false, true)) (by decide +kernel)
  simp only [Prod.mk.injEq, decide_eq_true_eq] at h2
  refine ⟨s, ⟨_, h1⟩, h2.1, ?_⟩
  cases hk : s.kad with
  | none => rw [hk] at h2; exact absurd h2.2 (by simp)
  | some k => rw [hk] at h2; exact ⟨k, rfl, h2.2⟩

end Noise
