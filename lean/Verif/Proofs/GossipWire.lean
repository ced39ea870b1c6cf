import Verif.Spec.GossipWire
import Verif.Proofs.Gossip
import Verif.Proofs.ClientFifo
import Verif.Props.Net
import Verif.Proofs.SearchNode
/-! # Gossip on a network of whole nodes: invariants -/
namespace Noise.Gossip

/-- Where pushes, calls of `Handle` and deliveries come from. -/
structure Sources (a : Action) (s s' : State) : Prop where
  pushes : ∀ (k : Nat) (q' : Pushing), s'.pushes[k]? = some q' → (∃ q, s.pushes[k]? = some q ∧ q'.data = q.data) ∨ (k = s.pushes.length ∧ q'.gors = [] ∧ (a = .push q'.data ∨ ∃ h ∈ s.handlers, h.data = q'.data))
  keep : ∀ (k : Nat) (q : Pushing), s.pushes[k]? = some q → ∃ q', s'.pushes[k]? = some q' ∧ q'.data = q.data ∧ (q.Wf → ∀ (j : Nat) (g : Gor), q.gors[j]? = some g → ∃ g', q'.gors[j]? = some g' ∧ g'.peer = g.peer)
  handlers : ∀ (i : Nat) (h' : Handler), s'.handlers[i]? = some h' → (∃ h, s.handlers[i]? = some h ∧ h'.sender = h.sender ∧ h'.data = h.data) ∨ (i = s.handlers.length ∧ a = .receive h'.sender h'.data)
  hkeep : ∀ (i : Nat) (h : Handler), s.handlers[i]? = some h → ∃ h', s'.handlers[i]? = some h' ∧ h'.sender = h.sender ∧ h'.data = h.data
  delivered : ∀ e ∈ s'.delivered, e ∈ s.delivered ∨ ∃ h ∈ s.handlers, h.sender = e.1 ∧ h.data = e.2

theorem sources_set {l : List Handler} {i : Nat} {h : Handler} (pc : HPc) (hi : l[i]? = some h) (k : Nat) :
    (∀ h', (l.set i { h with pc := pc })[k]? = some h' → ∃ x, l[k]? = some x ∧ h'.sender = x.sender ∧ h'.data = x.data) ∧
    (∀ x, l[k]? = some x → ∃ h', (l.set i { h with pc := pc })[k]? = some h' ∧ h'.sender = x.sender ∧ h'.data = x.data) := by
  have hlt := (List.getElem?_eq_some_iff.1 hi).1
  by_cases hk : i = k
  · subst hk
    simp only [List.getElem?_set_self hlt, Option.some.injEq]
    exact ⟨by rintro _ rfl; exact ⟨h, hi, rfl, rfl⟩, fun x hx => ⟨_, rfl, by rw [hi] at hx; cases hx; exact ⟨rfl, rfl⟩⟩⟩
  · rw [List.getElem?_set_ne hk]
    exact ⟨fun h' hh => ⟨h', hh, rfl, rfl⟩, fun x hx => ⟨x, hx, rfl, rfl⟩⟩

theorem pushes_set {l : List Pushing} {i : Nat} {q q1 : Pushing} (hi : l[i]? = some q) (hd : q1.data = q.data) (hg : q.Wf → ∀ (j : Nat) (g : Gor), q.gors[j]? = some g → ∃ g', q1.gors[j]? = some g' ∧ g'.peer = g.peer) (k : Nat) :
    (∀ q', (l.set i q1)[k]? = some q' → ∃ x, l[k]? = some x ∧ q'.data = x.data) ∧
    (∀ x, l[k]? = some x → ∃ q', (l.set i q1)[k]? = some q' ∧ q'.data = x.data ∧ (x.Wf → ∀ (j : Nat) (g : Gor), x.gors[j]? = some g → ∃ g', q'.gors[j]? = some g' ∧ g'.peer = g.peer)) := by
  have hlt := (List.getElem?_eq_some_iff.1 hi).1
  by_cases hk : i = k
  · subst hk
    simp only [List.getElem?_set_self hlt, Option.some.injEq]
    exact ⟨by rintro _ rfl; exact ⟨q, hi, hd⟩, fun x hx => ⟨_, rfl, by rw [hi] at hx; cases hx; exact ⟨hd, hg⟩⟩⟩
  · rw [List.getElem?_set_ne hk]
    exact ⟨fun h' hh => ⟨h', hh, rfl⟩, fun x hx => ⟨x, hx, rfl, fun _ j g hg => ⟨g, hg, rfl⟩⟩⟩

theorem gors_set {l : List Gor} {i : Nat} {g0 : Gor} (pc : GPc) (hi : l[i]? = some g0) (j : Nat) (g : Gor) (hg : l[j]? = some g) : ∃ g', (l.set i { g0 with pc := pc })[j]? = some g' ∧ g'.peer = g.peer := by
  have hlt := (List.getElem?_eq_some_iff.1 hi).1
  by_cases hk : i = j
  · subst hk
    rw [hi] at hg; cases hg
    exact ⟨_, List.getElem?_set_self hlt, rfl⟩
  · exact ⟨g, by rw [List.getElem?_set_ne hk]; exact hg, rfl⟩

theorem step_sources {c : Cfg} {s s' : State} {a : Action} (hs : step c s a = some s') : Sources a s s' := by
  have same : ∀ (l : List Pushing) (k : Nat) (q : Pushing), l[k]? = some q → ∃ q', l[k]? = some q' ∧ q'.data = q.data ∧ (q.Wf → ∀ (j : Nat) (g : Gor), q.gors[j]? = some g → ∃ g', q'.gors[j]? = some g' ∧ g'.peer = g.peer) :=
    fun l k q h => ⟨q, h, rfl, fun _ j g hg => ⟨g, hg, rfl⟩⟩
  have grow : ∀ (l : List Pushing) (p : Pushing) (k : Nat) (q : Pushing), l[k]? = some q → ∃ q', (l ++ [p])[k]? = some q' ∧ q'.data = q.data ∧ (q.Wf → ∀ (j : Nat) (g : Gor), q.gors[j]? = some g → ∃ g', q'.gors[j]? = some g' ∧ g'.peer = g.peer) :=
    fun l p k q h => ⟨q, by rw [List.getElem?_append_left (List.getElem?_eq_some_iff.1 h).1]; exact h, rfl, fun _ j g hg => ⟨g, hg, rfl⟩⟩
  have last : ∀ {α : Type} (l : List α) (p : α) (k : Nat) (q : α), (l ++ [p])[k]? = some q → l[k]? = some q ∨ (k = l.length ∧ q = p) := by
    intro α l p k q h
    rcases Nat.lt_or_ge k l.length with hk | hk
    · rw [List.getElem?_append_left hk] at h; exact .inl h
    · rw [List.getElem?_append_right hk] at h
      have : k - l.length = 0 := by
        by_contra hne
        rw [List.getElem?_eq_none (by simp; omega)] at h; cases h
      rw [this] at h
      simp only [List.getElem?_cons_zero, Option.some.injEq] at h
      exact .inr ⟨by omega, h.symm⟩
  cases a with
  | receive sender data =>
    simp only [step] at hs
    split at hs
    · cases hs
      refine ⟨fun k q' h => .inl ⟨q', h, rfl⟩, same _, fun i h' h => ?_, fun i h hh => ⟨h, ?_, rfl, rfl⟩, fun e he => .inl he⟩
      · rcases last _ _ _ _ h with h | ⟨e1, e2⟩
        · exact .inl ⟨h', h, rfl, rfl⟩
        · exact .inr ⟨e1, by rw [e2]⟩
      · simp only
        rw [List.getElem?_append_left (List.getElem?_eq_some_iff.1 hh).1]; exact hh
    · cases hs
  | handler i =>
    simp only [step] at hs
    split at hs
    · cases hs
    rename_i h hi
    have hset := fun pc k => sources_set (l := s.handlers) pc hi k
    split at hs
    · cases hs
      exact ⟨fun k q' h => .inl ⟨q', h, rfl⟩, same _, fun k h' hh => .inl ((hset _ k).1 h' hh), fun k x hx => (hset _ k).2 x hx, fun e he => .inl he⟩
    · cases hs
      exact ⟨fun k q' h => .inl ⟨q', h, rfl⟩, same _, fun k h' hh => .inl ((hset _ k).1 h' hh), fun k x hx => (hset _ k).2 x hx, fun e he => .inl he⟩
    · cases hs
      exact ⟨fun k q' h => .inl ⟨q', h, rfl⟩, same _, fun k h' hh => .inl ((hset _ k).1 h' hh), fun k x hx => (hset _ k).2 x hx, fun e he => .inl he⟩
    · split at hs
      · cases hs
        refine ⟨fun k q' h' => ?_, grow _ _, fun k h' hh => .inl ((hset _ k).1 h' hh), fun k x hx => (hset _ k).2 x hx, fun e he => .inl he⟩
        rcases last _ _ _ _ h' with h' | ⟨e1, e2⟩
        · exact .inl ⟨q', h', rfl⟩
        · exact .inr ⟨e1, by rw [e2], .inr ⟨h, List.mem_of_getElem? hi, by rw [e2]⟩⟩
      · cases hs
    · split at hs
      · split at hs
        · cases hs
          exact ⟨fun k q' h => .inl ⟨q', h, rfl⟩, same _, fun k h' hh => .inl ((hset _ k).1 h' hh), fun k x hx => (hset _ k).2 x hx, fun e he => .inl he⟩
        · cases hs
      · cases hs
    · cases hs
    · cases hs
  | callback i accept =>
    simp only [step] at hs
    split at hs
    · rename_i h hi
      have hset := fun pc k => sources_set (l := s.handlers) pc hi k
      split at hs
      · cases hs
        refine ⟨fun k q' h => .inl ⟨q', h, rfl⟩, same _, fun k h' hh => .inl ((hset _ k).1 h' hh), fun k x hx => (hset _ k).2 x hx, fun e he => ?_⟩
        rcases List.mem_append.1 he with he | he
        · exact .inl he
        · rw [List.mem_singleton.1 he]; exact .inr ⟨h, List.mem_of_getElem? hi, rfl, rfl⟩
      · cases hs
    · cases hs
  | push data =>
    simp only [step] at hs
    split at hs
    · cases hs
      refine ⟨fun k q' h' => ?_, grow _ _, fun k h' hh => .inl ⟨h', hh, rfl, rfl⟩, fun k x hx => ⟨x, hx, rfl, rfl⟩, fun e he => .inl he⟩
      rcases last _ _ _ _ h' with h' | ⟨e1, e2⟩
      · exact .inl ⟨q', h', rfl⟩
      · exact .inr ⟨e1, by rw [e2], .inl (by rw [e2])⟩
    · cases hs
  | pushing k entries =>
    have fin : ∀ (q q1 : Pushing) (cache : List Bytes), s.pushes[k]? = some q → q1.data = q.data → (q.Wf → ∀ (j : Nat) (g : Gor), q.gors[j]? = some g → ∃ g', q1.gors[j]? = some g' ∧ g'.peer = g.peer) →
        some (State.setP { s with cache := cache } k q1) = some s' → Sources (.pushing k entries) s s' := by
      intro q q1 cache hq hd hg he
      cases he
      have hset := fun k => pushes_set hq hd hg k
      exact ⟨fun k' q' h => .inl ((hset k').1 q' h), fun k' x hx => (hset k').2 x hx, fun k h' hh => .inl ⟨h', hh, rfl, rfl⟩, fun k x hx => ⟨x, hx, rfl, rfl⟩, fun e he => .inl he⟩
    simp only [step] at hs
    split at hs
    · cases hs
    rename_i q hq
    split at hs
    · exact fin q { q with pc := .entries } _ hq rfl (fun _ j g hg => ⟨g, hg, rfl⟩) hs
    · rename_i hpc
      split at hs
      · refine fin q { q with pc := .running, gors := entries.map fun e => ⟨e, .check⟩ } s.cache hq rfl (fun hw j g hg => ?_) hs
        rw [hw.2.1 (.inr hpc)] at hg
        simp at hg
      · cases hs
    · split at hs
      · exact fin q { q with pc := .done } s.cache hq rfl (fun _ j g hg => ⟨g, hg, rfl⟩) hs
      · cases hs
    · cases hs
  | gor k j =>
    have fin : ∀ (q : Pushing) (g : Gor) (pc : GPc) (cache : List Bytes), s.pushes[k]? = some q → q.gors[j]? = some g → 
        some (State.setP { s with cache := cache } k { q with gors := q.gors.set j { g with pc := pc } }) = some s' → Sources (.gor k j) s s' := by
      intro q g pc cache hq hg he
      cases he
      have hset := fun k => pushes_set (q1 := { q with gors := q.gors.set j { g with pc := pc } }) hq rfl (fun _ j' g' hg' => gors_set pc hg j' g' hg') k
      exact ⟨fun k' q' h => .inl ((hset k').1 q' h), fun k' x hx => (hset k').2 x hx, fun k h' hh => .inl ⟨h', hh, rfl, rfl⟩, fun k x hx => ⟨x, hx, rfl, rfl⟩, fun e he => .inl he⟩
    simp only [step] at hs
    split at hs
    · cases hs
    rename_i q hq
    split at hs
    · cases hs
    rename_i g hg
    split at hs
    · exact fin q g _ s.cache hq hg hs
    · exact fin q g _ _ hq hg hs
    · cases hs
    · cases hs
  | sent k j ok =>
    have fin : ∀ (q : Pushing) (g : Gor) (pc : GPc) (sent : List (ID × Bytes)), s.pushes[k]? = some q → q.gors[j]? = some g → 
        some (State.setP { s with sent := sent } k { q with gors := q.gors.set j { g with pc := pc } }) = some s' → Sources (.sent k j ok) s s' := by
      intro q g pc cache hq hg he
      cases he
      have hset := fun k => pushes_set (q1 := { q with gors := q.gors.set j { g with pc := pc } }) hq rfl (fun _ j' g' hg' => gors_set pc hg j' g' hg') k
      exact ⟨fun k' q' h => .inl ((hset k').1 q' h), fun k' x hx => (hset k').2 x hx, fun k h' hh => .inl ⟨h', hh, rfl, rfl⟩, fun k x hx => ⟨x, hx, rfl, rfl⟩, fun e he => .inl he⟩
    simp only [step] at hs
    split at hs
    · cases hs
    rename_i q hq
    split at hs
    · cases hs
    rename_i g hg
    split at hs
    · split at hs
      · exact fin q g _ _ hq hg hs
      · exact fin q g _ s.sent hq hg hs
    · cases hs

/-- What has been sent was sent by a goroutine. -/
theorem step_sent {c : Cfg} {s s' : State} {a : Action} (hs : step c s a = some s') : ∀ e ∈ s'.sent, e ∈ s.sent ∨ ∃ (k j : Nat) (q : Pushing) (g : Gor), a = .sent k j true ∧ s.pushes[k]? = some q ∧ q.gors[j]? = some g ∧ e = (g.peer, q.data) := by
  intro e he
  cases a with
  | sent k j ok =>
    simp only [step] at hs
    split at hs
    · cases hs
    rename_i q hq
    split at hs
    · cases hs
    rename_i g hg
    split at hs
    · split at hs
      · rename_i hok
        cases hs
        rcases List.mem_append.1 he with he | he
        · exact .inl he
        · rw [List.mem_singleton.1 he]
          exact .inr ⟨k, j, q, g, by rw [show ok = true from hok], hq, hg, rfl⟩
      · cases hs; exact .inl he
    · cases hs
  | receive sender data =>
    simp only [step] at hs
    split at hs <;> cases hs
    exact .inl he
  | handler i =>
    simp only [step] at hs
    split at hs
    · cases hs
    split at hs
    all_goals first
      | (cases hs; done)
      | (cases hs; exact .inl he)
      | (split at hs
         all_goals first
          | (cases hs; done)
          | (cases hs; exact .inl he)
          | (split at hs <;> cases hs; exact .inl he))
  | callback i accept =>
    simp only [step] at hs
    split at hs
    · split at hs <;> cases hs
      exact .inl he
    · cases hs
  | push data =>
    simp only [step] at hs
    split at hs <;> cases hs
    exact .inl he
  | pushing k entries =>
    simp only [step] at hs
    split at hs
    · cases hs
    split at hs
    all_goals first
      | (cases hs; done)
      | (cases hs; exact .inl he)
      | (split at hs <;> cases hs; exact .inl he)
  | gor k j =>
    simp only [step] at hs
    split at hs
    · cases hs
    split at hs
    · cases hs
    split at hs
    all_goals first
      | (cases hs; done)
      | (cases hs; exact .inl he)

end Noise.Gossip

namespace Noise.Node
open Spec
variable {ε : Type}

/-- What stays of a node. -/
structure Later (x x' : State ε) : Prop where
  conns : Grows x x'
  calls : ∀ (k : Nat) (c : Call ε), x.calls[k]? = some c → ∃ c', x'.calls[k]? = some c' ∧ c'.kind = c.kind ∧ c'.addr = c.addr ∧ Next c c'
  wk : ∀ q, x.wk = some q → ∃ q', x'.wk = some q' ∧ q.items <+: q'.items ∧ q.log <+: q'.log

theorem Later.refl (x : State ε) : Later x x := ⟨.of_eq rfl, fun k c h => ⟨c, h, rfl, rfl, .refl c⟩, fun q h => ⟨q, h, List.prefix_refl _, List.prefix_refl _⟩⟩

theorem Later.step {cfg : Cfg ε} {x x' : State ε} {a : Action ε} (hr : Reachable cfg x) (h : step cfg x a = some x') : Later x x' := by
  refine ⟨step_grows h, fun k c hk => call_keeps hr h hk, fun q hq => ?_⟩
  rcases step_wkBy h with h1 | ⟨h1, -⟩ | ⟨w, w', act, h1, h2, h3, -⟩
  · exact ⟨q, h1.trans hq, List.prefix_refl _, List.prefix_refl _⟩
  · rw [(Stage.reach hr).init.1 h1] at hq; cases hq
  · rw [h1] at hq; cases hq
    exact ⟨w', h2, Link.w_mono h3⟩

theorem prefix_get {α : Type} {l l' : List α} (h : l <+: l') {i : Nat} {a : α} (hi : l[i]? = some a) : l'[i]? = some a := by
  obtain ⟨t, rfl⟩ := h
  rw [List.getElem?_append_left (List.getElem?_eq_some_iff.1 hi).1]; exact hi

theorem Later.handled {x x' : State ε} (h : Later x x') {j : Nat} {m : Message} (hm : m ∈ handledFrom x j) : m ∈ handledFrom x' j := by
  unfold handledFrom at hm ⊢
  cases hq : x.wk with
  | none => rw [hq] at hm; cases hm
  | some q =>
    obtain ⟨q', h1, h2, -⟩ := h.wk q hq
    rw [hq] at hm
    rw [h1]
    exact ((h2.filter _).map _).subset hm

theorem Later.answered {x x' : State ε} (h : Later x x') {j : Nat} {m : Message} (hm : m ∈ answeredOn x j) : m ∈ answeredOn x' j := by
  unfold answeredOn at hm ⊢
  cases hq : x.wk with
  | none => rw [hq] at hm; cases hm
  | some q =>
    obtain ⟨q', h1, h2, h3⟩ := h.wk q hq
    rw [hq] at hm
    rw [h1]
    simp only at hm ⊢
    obtain ⟨e, he, hm⟩ := List.mem_filterMap.1 hm
    refine List.mem_filterMap.2 ⟨e, h3.subset he, ?_⟩
    cases e with
    | sendOk k hh n d =>
      simp only at hm ⊢
      obtain ⟨it, h4, h5⟩ := Option.bind_eq_some_iff.1 hm
      exact Option.bind_eq_some_iff.2 ⟨it, prefix_get h2 h4, h5⟩
    | _ => cases hm

/-- The peer of a connection over which something has come stays. -/
theorem Later.peer {cfg : Cfg ε} {x x' : State ε} (h : Later x x') (hr : Reachable cfg x) (hr' : Reachable cfg x') {j : Nat} {m : Message} {y : Conn ε} (hy : x.conns[j]? = some y) (hm : m ∈ handledFrom x j) :
    ∃ y', x'.conns[j]? = some y' ∧ y'.c.id = y.c.id := by
  obtain ⟨y', hy', -, -, as, hrun⟩ := h.conns j y hy
  refine ⟨y', hy', ?_⟩
  rw [(C131_attribution hr).1 j y hy] at hm
  obtain ⟨e, he, hm⟩ := List.mem_filterMap.1 hm
  cases e with
  | delivered m' i b =>
    obtain ⟨l, hl⟩ := Cl.log_run hrun
    have h1 := (Cl.CbInv.reach (Reaches.reach hr j y hy)).deliv m' i b he
    have h2 := (Cl.CbInv.reach (Reaches.reach hr' j y' hy')).deliv m' i b (by rw [hl]; exact List.mem_append_left _ he)
    rw [← h2.1, ← h1.1]
  | _ => cases hm

end Noise.Node

namespace Noise.Net
variable {ε : Type}

/-- What stays of a network. -/
structure Later (s s' : State ε) : Prop where
  nodes : ∀ (n : Nat) (x : Node.State ε), s.nodes[n]? = some x → ∃ x', s'.nodes[n]? = some x' ∧ Node.Later x x'
  foreign : ∀ e ∈ s.foreign, e ∈ s'.foreign

theorem Later.refl (s : State ε) : Later s s := ⟨fun _ x h => ⟨x, h, .refl x⟩, fun _ h => h⟩

theorem Later.set {cfg : Nat → Node.Cfg ε} {s : State ε} (v : Inv cfg s) {n : Nat} {x x' : Node.State ε} {a : Node.Action ε} {ws : List Wire} (hn : s.nodes[n]? = some x) (h : Node.step (cfg n) x a = some x') : Later s { s.setNode n x' with wires := ws } := by
  refine ⟨fun m z hz => ?_, fun _ h => h⟩
  by_cases hm : n = m
  · subst hm
    rw [hn] at hz; cases hz
    exact ⟨x', List.getElem?_set_self (List.getElem?_eq_some_iff.1 hn).1, .step (v.nodes n x hn) h⟩
  · exact ⟨z, by show (s.nodes.set n x')[m]? = _; rw [List.getElem?_set_ne hm]; exact hz, .refl z⟩

theorem Later.step {cfg : Nat → Node.Cfg ε} {s s' : State ε} {a : Action ε} (v : Inv cfg s) (h : step cfg s a = some s') : Later s s' := by
  cases a with
  | connect o i =>
    simp only [Net.step] at h
    split at h
    · split at h
      · cases h; exact ⟨fun _ x h => ⟨x, h, .refl x⟩, fun _ h => h⟩
      · cases h
    · cases h
  | connectOut e =>
    simp only [Net.step] at h
    split at h
    · split at h
      · cases h; exact ⟨fun _ x h => ⟨x, h, .refl x⟩, fun _ h => List.mem_append_left _ h⟩
      · cases h
    · cases h
  | node n act =>
    simp only [Net.step] at h
    split at h
    · rename_i x hn
      split at h
      · split at h
        · obtain ⟨x', h1, h2⟩ := Option.map_eq_some_iff.1 h
          subst h2; exact Later.set (ws := s.wires) v hn h1
        · split at h
          · obtain ⟨x', h1, h2⟩ := Option.map_eq_some_iff.1 h
            subst h2; exact Later.set v hn h1
          · cases h
      · obtain ⟨x', h1, h2⟩ := Option.map_eq_some_iff.1 h
        subst h2; exact Later.set (ws := s.wires) v hn h1
    · cases h

end Noise.Net

namespace Noise.GWire
open Spec
variable {ε : Type}

theorem decode_some {op : UInt16} {m : Message} {data : Bytes} (h : decode op m = some data) : m = ⟨0, gossipBytes op data⟩ := by
  unfold decode at h
  split at h
  · cases h
  · rename_i h1
    split at h
    · rename_i h2
      cases h
      obtain ⟨n, d⟩ := m
      have hn : n = 0 := by
        simp only [Message.isRequest, gt_iff_lt, decide_eq_true_eq] at h1
        by_contra hne
        exact h1 (UInt64.pos_iff_ne_zero.2 hne)
      subst hn
      have : d = gossipBytes op (d.drop 2) := by
        have := List.take_append_drop 2 d
        rw [h2] at this
        exact this.symm
      exact congrArg _ this
    · cases h

theorem bytes_inj {op : UInt16} {a b : Bytes} (h : gossipBytes op a = gossipBytes op b) : a = b := by
  simpa [gossipBytes] using h

/-- What one step is. -/
inductive Eff (c : Cfg ε) (s s' : State ε) : Prop
  | net (b : Net.Action ε) : Net.step c.node s.net b = some s'.net → s'.parts = s.parts → Eff c s s'
  | gossip (n : Nat) (x : Node.State ε) (p p' : Part ε) (a : Gossip.Action) : s.net.nodes[n]? = some x → s.parts[n]? = some p → s'.net = s.net → s'.parts = s.parts.set n p' → Gossip.step (c.gossip n) p.g a = some p'.g → p'.asks = p.asks →
      (∀ d ∈ p.pushed, d ∈ p'.pushed) → (∀ d, a = .push d → d ∈ p'.pushed) → (∀ e d, a = .receive e d → CameFrom c.op s n e d) →
      (∀ k j ok, a = .sent k j ok → ∃ q ∈ p.asks, q.push = k ∧ q.gor = j ∧ ∃ d r, x.calls[q.call]? = some d ∧ d.pc = .returned r ∧ (ok = true → r = .sent)) → Eff c s s'
  | send (n : Nat) (x : Node.State ε) (p : Part ε) (k j : Nat) (q : Gossip.Pushing) (g : Gossip.Gor) : s.net.nodes[n]? = some x → s.parts[n]? = some p → p.g.pushes[k]? = some q → q.gors[j]? = some g → g.pc = .send →
      (∀ a ∈ p.asks, ¬ (a.push = k ∧ a.gor = j)) →
      Net.step c.node s.net (.node n (.call (.send (gossipBytes c.op q.data)) g.peer.address)) = some s'.net → s'.parts = s.parts.set n { p with asks := p.asks ++ [⟨k, j, x.calls.length⟩] } → Eff c s s'

theorem with_some {s s' : State ε} {n : Nat} {f : Node.State ε → Part ε → Option (Part ε)} (h : s.with n f = some s') :
    ∃ x p p', s.net.nodes[n]? = some x ∧ s.parts[n]? = some p ∧ x.crashed = false ∧ f x p = some p' ∧ s' = { s with parts := s.parts.set n p' } := by
  unfold State.with at h
  split at h
  · rename_i x p hx hp
    split at h
    · cases h
    · rename_i hc
      obtain ⟨p', h1, h2⟩ := Option.map_eq_some_iff.1 h
      exact ⟨x, p, p', hx, hp, by simpa using hc, h1, h2.symm⟩
  · cases h

theorem invocation_some {c : Cfg ε} {x : Node.State ε} {w k : Nat} {it : Wk.Item} (h : invocation c x w = some (k, it)) : ∃ q, x.wk = some q ∧ q.workers[w]? = some (.inside k c.handler) ∧ q.items[k]? = some it := by
  unfold invocation at h
  split at h
  · rename_i q hq
    split at h
    · rename_i k' h' hw
      split at h
      · rename_i hh
        obtain ⟨it', h1, h2⟩ := Option.map_eq_some_iff.1 h
        cases h2
        exact ⟨q, hq, by rw [hw, hh], h1⟩
      · cases h
    · cases h
  · cases h

theorem sending_some {g : Gossip.State} {k j : Nat} {data : Bytes} {peer : ID} (h : sending g k j = some (data, peer)) : ∃ q r, g.pushes[k]? = some q ∧ q.gors[j]? = some r ∧ r.pc = .send ∧ data = q.data ∧ peer = r.peer := by
  unfold sending at h
  split at h
  · rename_i q hq
    split at h
    · rename_i r hr
      split at h
      · rename_i hs
        cases h
        exact ⟨q, r, hq, hr, hs, rfl, rfl⟩
      · cases h
    · cases h
  · cases h

theorem step_eff {c : Cfg ε} {s s' : State ε} {a : Action ε} (h : step c s a = some s') : Eff c s s' := by
  cases a with
  | net b =>
    simp only [step] at h
    split at h
    · cases h
    · obtain ⟨y, h1, h2⟩ := Option.map_eq_some_iff.1 h
      subst h2
      exact .net b h1 rfl
  | push n data =>
    obtain ⟨x, p, p', hx, hp, -, hf, rfl⟩ := with_some h
    obtain ⟨g, h1, h2⟩ := Option.map_eq_some_iff.1 hf
    subst h2
    exact .gossip n x p _ (.push data) hx hp rfl rfl h1 rfl (fun d hd => List.mem_append_left _ hd) (by rintro d ⟨⟩; simp) (by simp) (by simp)
  | own n b =>
    obtain ⟨x, p, p', hx, hp, -, hf, rfl⟩ := with_some h
    cases b with
    | receive | callback | push | sent => cases hf
    | handler | pushing | gor =>
      obtain ⟨g, h1, h2⟩ := Option.map_eq_some_iff.1 hf
      subst h2
      exact .gossip n x p _ _ hx hp rfl rfl h1 rfl (fun d hd => hd) (by simp) (by simp) (by simp)
  | callback n i r =>
    obtain ⟨x, p, p', hx, hp, -, hf, rfl⟩ := with_some h
    obtain ⟨g, h1, h2⟩ := Option.map_eq_some_iff.1 hf
    subst h2
    exact .gossip n x p _ _ hx hp rfl rfl h1 rfl (fun d hd => hd) (by simp) (by simp) (by simp)
  | enter n w =>
    obtain ⟨x, p, p', hx, hp, -, hf, rfl⟩ := with_some h
    split at hf
    · rename_i k it hi
      split at hf
      · rename_i data y hd hy
        split at hf
        · cases hf
        · obtain ⟨g, h1, h2⟩ := Option.map_eq_some_iff.1 hf
          subst h2
          refine .gossip n x p _ _ hx hp rfl rfl h1 rfl (fun d hd => hd) (by simp) ?_ (by simp)
          rintro e d ⟨⟩
          obtain ⟨q, hq, -, hk⟩ := invocation_some hi
          refine ⟨x, it.client, y, hx, hy, rfl, ?_⟩
          unfold handledFrom
          rw [hq]
          refine List.mem_map.2 ⟨it, List.mem_filter.2 ⟨List.mem_of_getElem? hk, by simp⟩, decode_some hd⟩
      · cases hf
    · cases hf
  | leave n w =>
    simp only [step] at h
    split at h
    · split at h
      · split at h
        · split at h
          · obtain ⟨y, h1, h2⟩ := Option.map_eq_some_iff.1 h
            subst h2
            exact .net _ h1 rfl
          · cases h
        · cases h
      · cases h
    · cases h
  | send n k j =>
    simp only [step] at h
    split at h
    · rename_i x p hx hp
      split at h
      · rename_i data peer hs
        obtain ⟨q, r, hq, hr, hpc, rfl, rfl⟩ := sending_some hs
        split at h
        · cases h
        · rename_i hany
          obtain ⟨y, h1, h2⟩ := Option.map_eq_some_iff.1 h
          subst h2
          refine .send n x p k j q r hx hp hq hr hpc (fun a ha hkj => hany ?_) h1 rfl
          exact List.any_eq_true.2 ⟨a, ha, by simpa using hkj⟩
      · cases h
    · cases h
  | sent n k j =>
    obtain ⟨x, p, p', hx, hp, -, hf, rfl⟩ := with_some h
    split at hf
    · rename_i a hfind
      split at hf
      · rename_i d hd
        split at hf
        · rename_i r hr
          obtain ⟨g, h1, h2⟩ := Option.map_eq_some_iff.1 hf
          subst h2
          refine .gossip n x p _ _ hx hp rfl rfl h1 rfl (fun d hd => hd) (by simp) (by simp) ?_
          intro k' j' ok e
          simp only [Gossip.Action.sent.injEq] at e
          have hm := List.mem_of_find?_eq_some hfind
          have hp := List.find?_some hfind
          simp only [decide_eq_true_eq] at hp
          exact ⟨a, hm, hp.1.trans e.1, hp.2.trans e.2.1, d, r, hd, hr, fun h => by rw [← e.2.2] at h; exact of_decide_eq_true h⟩
        · cases hf
      · cases hf
    · cases hf

/-- What stays. -/
structure Later (s s' : State ε) : Prop where
  net : Net.Later s.net s'.net
  parts : ∀ (n : Nat) (p : Part ε), s.parts[n]? = some p → ∃ p', s'.parts[n]? = some p' ∧ (∀ d ∈ p.pushed, d ∈ p'.pushed) ∧ ∀ a ∈ p'.asks, a ∈ p.asks ∨ ∀ x, s.net.nodes[n]? = some x → a.call = x.calls.length

theorem parts_set {l : List (Part ε)} {n : Nat} {p p' : Part ε} (hp : l[n]? = some p) {m : Nat} {r : Part ε} : (l.set n p')[m]? = some r ↔ (m = n ∧ r = p') ∨ (m ≠ n ∧ l[m]? = some r) := by
  have hlt := (List.getElem?_eq_some_iff.1 hp).1
  by_cases h : n = m
  · subst h
    simp [List.getElem?_set_self hlt, eq_comm]
  · rw [List.getElem?_set_ne h]
    simp [Ne.symm h]

theorem Eff.later {c : Cfg ε} {s s' : State ε} (v : Net.Inv c.node s.net) (h : Eff c s s') : Later s s' := by
  cases h with
  | net b h1 h2 => exact ⟨.step v h1, fun n p hp => ⟨p, by rw [h2]; exact hp, fun _ h => h, fun _ h => .inl h⟩⟩
  | gossip n x p p' a hx hp hn hps hg ha hpu =>
    refine ⟨by rw [hn]; exact .refl _, fun m r hr => ?_⟩
    by_cases hm : m = n
    · subst hm
      rw [hp] at hr; cases hr
      exact ⟨p', by rw [hps]; exact (parts_set hp).2 (.inl ⟨rfl, rfl⟩), hpu, fun b hb => .inl (by rw [← ha]; exact hb)⟩
    · exact ⟨r, by rw [hps]; exact (parts_set hp).2 (.inr ⟨hm, hr⟩), fun _ h => h, fun _ h => .inl h⟩
  | send n x p k j q g hx hp hq hg hpc hno hn hps =>
    refine ⟨.step v hn, fun m r hr => ?_⟩
    by_cases hm : m = n
    · subst hm
      rw [hp] at hr; cases hr
      refine ⟨{ p with asks := p.asks ++ [⟨k, j, x.calls.length⟩] }, by rw [hps]; exact (parts_set hp).2 (.inl ⟨rfl, rfl⟩), fun _ h => h, fun b hb => ?_⟩
      rcases List.mem_append.1 hb with hb | hb
      · exact .inl hb
      · rw [List.mem_singleton.1 hb]
        exact .inr fun y hy => by rw [hx] at hy; cases hy; rfl
    · exact ⟨r, by rw [hps]; exact (parts_set hp).2 (.inr ⟨hm, hr⟩), fun _ h => h, fun _ h => .inl h⟩

theorem Later.began {op : UInt16} {s s' : State ε} (h : Later s s') {data : Bytes} (hb : Began op s data) : Began op s' data := by
  cases hb with
  | push n p hp hd =>
    obtain ⟨p', h1, h2, -⟩ := h.parts n p hp
    exact .push n p' h1 (h2 _ hd)
  | foreign b j B hB hf hm =>
    obtain ⟨B', h1, h2⟩ := h.net.nodes b B hB
    exact .foreign b j B' h1 (h.net.foreign _ hf) (h2.handled hm)
  | sent a k A p d hA hp hd hno hk hr =>
    obtain ⟨A', h1, h2⟩ := h.net.nodes a A hA
    obtain ⟨p', h3, -, h4⟩ := h.parts a p hp
    obtain ⟨d', h5, h6, -, h7⟩ := h2.calls k d hd
    refine .sent a k A' p' d' h1 h3 h5 (fun q hq hqk => ?_) (h6.trans hk) (h7.returned _ hr)
    rcases h4 q hq with h | h
    · exact hno q h hqk
    · have := (List.getElem?_eq_some_iff.1 hd).1
      rw [← hqk, h A hA] at this
      omega
  | reply a j A hA hm =>
    obtain ⟨A', h1, h2⟩ := h.net.nodes a A hA
    exact .reply a j A' h1 (h2.answered hm)

theorem Later.came {op : UInt16} {c : Cfg ε} {s s' : State ε} (h : Later s s') (v : Net.Inv c.node s.net) (v' : Net.Inv c.node s'.net) {n : Nat} {e : ID} {data : Bytes} (hc : CameFrom op s n e data) : CameFrom op s' n e data := by
  obtain ⟨x, j, y, h1, h2, h3, h4⟩ := hc
  obtain ⟨x', h5, h6⟩ := h.net.nodes n x h1
  obtain ⟨y', h7, h8⟩ := h6.peer (v.nodes n x h1) (v'.nodes n x' h5) h2 h4
  exact ⟨x', j, y', h5, h7, by rw [h8]; exact h3, h6.handled h4⟩

theorem Later.went {op : UInt16} {s s' : State ε} (h : Later s s') {n : Nat} {e : ID} {data : Bytes} (hc : WentTo op s n e data) : WentTo op s' n e data := by
  obtain ⟨x, k, d, h1, h2, h3, h4, h5⟩ := hc
  obtain ⟨x', h6, h7⟩ := h.net.nodes n x h1
  obtain ⟨d', h8, h9, h10, h11⟩ := h7.calls k d h2
  exact ⟨x', k, d', h6, h8, h9.trans h3, h10.trans h4, h11.returned _ h5⟩

/-- An ask is for a goroutine and a call. -/
def Asked (op : UInt16) (s : State ε) (n : Nat) (p : Part ε) (a : Ask) : Prop :=
  ∃ (q : Gossip.Pushing) (g : Gossip.Gor) (x : Node.State ε) (d : Node.Call ε), p.g.pushes[a.push]? = some q ∧ q.gors[a.gor]? = some g ∧ s.net.nodes[n]? = some x ∧ x.calls[a.call]? = some d ∧
    d.kind = .send (gossipBytes op q.data) ∧ d.addr = g.peer.address

structure Good (op : UInt16) (s : State ε) (n : Nat) (p : Part ε) : Prop where
  wf : ∀ q ∈ p.g.pushes, q.Wf
  handlers : ∀ h ∈ p.g.handlers, CameFrom op s n h.sender h.data ∧ Began op s h.data
  pushes : ∀ q ∈ p.g.pushes, Began op s q.data
  asks : ∀ a ∈ p.asks, Asked op s n p a
  delivered : ∀ e ∈ p.g.delivered, CameFrom op s n e.1 e.2 ∧ Began op s e.2
  sent : ∀ e ∈ p.g.sent, WentTo op s n e.1 e.2

structure Inv (c : Cfg ε) (N : Nat) (s : State ε) : Prop where
  net : Net.Reachable c.node N s.net
  good : ∀ (n : Nat) (p : Part ε), s.parts[n]? = some p → Good c.op s n p
  same : s.parts.length = s.net.nodes.length

theorem nodes_len {cfg : Nat → Node.Cfg ε} {s s' : Net.State ε} {a : Net.Action ε} (h : Net.step cfg s a = some s') : s'.nodes.length = s.nodes.length := by
  cases a with
  | connect o i =>
    simp only [Net.step] at h
    split at h
    · split at h <;> cases h; rfl
    · cases h
  | connectOut e =>
    simp only [Net.step] at h
    split at h
    · split at h <;> cases h; rfl
    · cases h
  | node n act =>
    simp only [Net.step] at h
    split at h
    · split at h
      · split at h
        · obtain ⟨x', -, rfl⟩ := Option.map_eq_some_iff.1 h
          exact List.length_set
        · split at h
          · obtain ⟨x', -, rfl⟩ := Option.map_eq_some_iff.1 h
            exact List.length_set
          · cases h
      · obtain ⟨x', -, rfl⟩ := Option.map_eq_some_iff.1 h
        exact List.length_set
    · cases h

theorem Good.later {c : Cfg ε} {s s' : State ε} (h : Later s s') (v : Net.Inv c.node s.net) (v' : Net.Inv c.node s'.net) {n : Nat} {p : Part ε} (g : Good c.op s n p) : Good c.op s' n p :=
  ⟨g.wf, fun x hx => ⟨h.came v v' (g.handlers x hx).1, h.began (g.handlers x hx).2⟩, fun x hx => h.began (g.pushes x hx), fun a ha => by
    obtain ⟨q, gg, x, d, h1, h2, h3, h4, h5, h6⟩ := g.asks a ha
    obtain ⟨x', h7, h8⟩ := h.net.nodes n x h3
    obtain ⟨d', h9, h10, h11, -⟩ := h8.calls _ d h4
    exact ⟨q, gg, x', d', h1, h2, h7, h9, h10.trans h5, h11.trans h6⟩, fun x hx => ⟨h.came v v' (g.delivered x hx).1, h.began (g.delivered x hx).2⟩, fun x hx => h.went (g.sent x hx)⟩

/-- What comes was put into the network by somebody. -/
theorem Inv.origin {c : Cfg ε} {N : Nat} {s : State ε} (i : Inv c N s) {n : Nat} {e : ID} {data : Bytes} (h : CameFrom c.op s n e data) : Began c.op s data := by
  obtain ⟨B, j, y, hB, -, -, hm⟩ := h
  rcases C132_origin i.net hB hm with hf | ⟨a, j', A, -, hA, hans | ⟨k, d, -, hk, hs, hz, -⟩⟩ | ⟨a, j', A, -, hA, hans⟩
  · exact .foreign n j B hB hf hm
  · exact .reply a j' A hA hans
  · have hkind := hz.1 rfl
    simp only at hkind hs
    have hret : d.pc = .returned .sent := by
      unfold hasSent at hs
      rw [hkind] at hs
      split at hs
      · assumption
      · rename_i e _; cases e
      · rename_i e _; cases e
      · rename_i e _; cases e
      · rename_i e _; cases e
      · cases hs
    have hlt : a < s.parts.length := by rw [i.same]; exact (List.getElem?_eq_some_iff.1 hA).1
    have hp : s.parts[a]? = some s.parts[a] := List.getElem?_eq_getElem hlt
    by_cases hq : ∃ q ∈ s.parts[a].asks, q.call = k
    · obtain ⟨q, hq1, hq2⟩ := hq
      obtain ⟨pu, gg, x, d', h1, h2, h3, h4, h5, -⟩ := (i.good a _ hp).asks q hq1
      rw [hA] at h3; cases h3
      rw [hq2, hk] at h4; cases h4
      rw [hkind] at h5
      simp only [Node.Kind.send.injEq] at h5
      rw [bytes_inj h5]
      exact (i.good a _ hp).pushes pu (List.mem_of_getElem? h1)
    · exact .sent a k A _ d hA hp hk (fun q hq1 hq2 => hq ⟨q, hq1, hq2⟩) hkind hret
  · exact .reply a j' A hA hans

theorem Inv.step {c : Cfg ε} {N : Nat} {s s' : State ε} {a : Action ε} (i : Inv c N s) (h : step c s a = some s') : Inv c N s' := by
  have v := Net.Inv.reach i.net
  have he := step_eff h
  have hl := he.later v
  cases he with
  | net b h1 h2 =>
    have hr := i.net.snoc h1
    exact ⟨hr, fun n p hp => (i.good n p (by rw [← h2]; exact hp)).later hl v (Net.Inv.reach hr), by rw [h2, nodes_len h1]; exact i.same⟩
  | gossip n x p p' b hx hp hn hps hg ha hpu hpush hrecv hsent =>
    have hr : Net.Reachable c.node N s'.net := by rw [hn]; exact i.net
    have v' := Net.Inv.reach hr
    refine ⟨hr, fun m r hrr => ?_, by rw [hps, List.length_set, hn]; exact i.same⟩
    rw [hps] at hrr
    rcases (parts_set hp).1 hrr with ⟨rfl, rfl⟩ | ⟨-, hrr⟩
    swap
    · exact (i.good m r hrr).later hl v v'
    have g := i.good m p hp
    have src := Gossip.step_sources hg
    refine ⟨Gossip.wf_step g.wf hg, fun z hz => ?_, fun q hq => ?_, fun q hq => ?_, fun e he => ?_, fun e he => ?_⟩
    · obtain ⟨j, hj⟩ := List.getElem?_of_mem hz
      rcases src.handlers j z hj with ⟨z0, h1, h2, h3⟩ | ⟨-, h1⟩
      · rw [h2, h3]
        have := g.handlers z0 (List.mem_of_getElem? h1)
        exact ⟨hl.came v v' this.1, hl.began this.2⟩
      · have := hrecv _ _ h1
        exact ⟨hl.came v v' this, hl.began (i.origin this)⟩
    · obtain ⟨k, hk⟩ := List.getElem?_of_mem hq
      rcases src.pushes k q hk with ⟨q0, h1, h2⟩ | ⟨-, -, h1 | ⟨z, hz, h1⟩⟩
      · rw [h2]; exact hl.began (g.pushes q0 (List.mem_of_getElem? h1))
      · exact .push m r (by rw [hps]; exact hrr) (hpush _ h1)
      · rw [← h1]; exact hl.began (g.handlers z hz).2
    · rw [ha] at hq
      obtain ⟨pu, gg, y, d, h1, h2, h3, h4, h5, h6⟩ := g.asks q hq
      obtain ⟨pu', h7, h8, h9⟩ := src.keep _ pu h1
      obtain ⟨gg', h10, h11⟩ := h9 (g.wf pu (List.mem_of_getElem? h1)) _ gg h2
      exact ⟨pu', gg', y, d, h7, h10, by rw [hn]; exact h3, h4, by rw [h8]; exact h5, by rw [h11]; exact h6⟩
    · rcases src.delivered e he with h1 | ⟨z, hz, h1, h2⟩
      · have := g.delivered e h1
        exact ⟨hl.came v v' this.1, hl.began this.2⟩
      · have := g.handlers z hz
        rw [← h1, ← h2]
        exact ⟨hl.came v v' this.1, hl.began this.2⟩
    · rcases Gossip.step_sent hg e he with h1 | ⟨k, j, q, gg, h1, h2, h3, h4⟩
      · exact hl.went (g.sent e h1)
      · obtain ⟨ak, hak, e1, e2, d, r0, hd, hret, hok⟩ := hsent k j true h1
        rw [hok rfl] at hret
        obtain ⟨pu, g2, y, d', h5, h6, h7, h8, h9, h10⟩ := g.asks ak hak
        rw [e1, h2] at h5; cases h5
        rw [e2, h3] at h6; cases h6
        rw [hx] at h7; cases h7
        rw [hd] at h8; cases h8
        rw [h4]
        exact ⟨x, ak.call, d, by rw [hn]; exact hx, hd, h9, h10, hret⟩
  | send n x p k j q gg hx hp hq hgg hpc hno hn hps =>
    have hr := i.net.snoc hn
    have v' := Net.Inv.reach hr
    refine ⟨hr, fun m r hrr => ?_, by rw [hps, List.length_set, nodes_len hn]; exact i.same⟩
    rw [hps] at hrr
    rcases (parts_set hp).1 hrr with ⟨rfl, rfl⟩ | ⟨-, hrr⟩
    swap
    · exact (i.good m r hrr).later hl v v'
    have g := (i.good m p hp).later hl v v'
    refine ⟨g.wf, g.handlers, g.pushes, fun b hb => ?_, g.delivered, g.sent⟩
    rcases List.mem_append.1 hb with hb | hb
    · exact g.asks b hb
    · rw [List.mem_singleton.1 hb]
      simp only [Net.step, hx] at hn
      obtain ⟨x', h1, h2⟩ := Option.map_eq_some_iff.1 hn
      have hxs : s'.net.nodes[m]? = some x' := by
        rw [← h2]; exact List.getElem?_set_self (List.getElem?_eq_some_iff.1 hx).1
      unfold Node.step at h1
      split at h1
      · cases h1
      · simp only [Option.some.injEq] at h1
        refine ⟨q, gg, x', _, hq, hgg, hxs, by rw [← h1]; exact List.getElem?_concat_length, rfl, rfl⟩

theorem Inv.init (c : Cfg ε) (N : Nat) : Inv c N (State.new N) := by
  refine ⟨.refl _, fun n p hp => ?_, by simp [State.new, Net.State.new]⟩
  have := List.mem_of_getElem? hp
  rw [(List.mem_replicate.1 this).2]
  constructor <;> simp [Part.new, Gossip.State.new]

theorem Inv.reach {c : Cfg ε} {N : Nat} {s : State ε} (h : Reachable c N s) : Inv c N s := h.inv (fun _ _ _ => Inv.step) (Inv.init c N)

end Noise.GWire
