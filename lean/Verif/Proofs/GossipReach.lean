import Verif.Proofs.GossipArrive
/-! # What `Push` does for a peer of the table -/
namespace Noise.Gossip

/-- What the cache holds comes from what was handled, pushed and sent. -/
theorem step_cache {c : Cfg} {s s' : State} {a : Action} (hs : step c s a = some s') {m : Bytes} (hm : m ∈ s'.cache) :
    m ∈ s.cache ∨ (∃ h ∈ s.handlers, m = hash h.sender.id h.data) ∨ (∃ d, m = hash c.self d) ∨ ∃ p ∈ s.pushes, ∃ g ∈ p.gors, g.pc = .set ∧ m = hash g.peer.id p.data := by
  g_cases a hs
  all_goals first
    | exact .inl hm
    | (rcases mem_cacheSet.1 hm with hm | ⟨rfl, -⟩
       · exact .inl hm
       · first
         | exact .inr (.inr (.inl ⟨_, rfl⟩))
         | (rename_i h _ _; exact .inr (.inl ⟨_, List.mem_of_getElem? (by assumption), rfl⟩))
         | exact .inr (.inr (.inr ⟨_, List.mem_of_getElem? (by assumption), _, List.mem_of_getElem? (by assumption), by assumption, rfl⟩)))

/-- A goroutine that has sent has sent. -/
theorem step_set {c : Cfg} {s s' : State} {a : Action} (hs : step c s a = some s') {p' : Pushing} (hp : p' ∈ s'.pushes) {g : Gor} (hg : g ∈ p'.gors) (hpc : g.pc = .set) :
    (∃ p ∈ s.pushes, p.data = p'.data ∧ g ∈ p.gors) ∨ (g.peer, p'.data) ∈ s'.sent := by
  have set : ∀ (k : Nat) (p q : Pushing), s.pushes[k]? = some p → s'.pushes = s.pushes.set k q → q.data = p.data → (∀ g ∈ q.gors, g.pc = .set → g ∈ p.gors ∨ (g.peer, p.data) ∈ s'.sent) →
      (∃ p ∈ s.pushes, p.data = p'.data ∧ g ∈ p.gors) ∨ (g.peer, p'.data) ∈ s'.sent := by
    intro k p q hk he hd hall
    rw [he] at hp
    rcases List.mem_or_eq_of_mem_set hp with h | rfl
    · exact .inl ⟨p', h, rfl, hg⟩
    · rcases hall g hg hpc with h | h
      · exact .inl ⟨p, List.mem_of_getElem? hk, hd.symm, h⟩
      · exact .inr (by rw [hd]; exact h)
  have same : s'.pushes = s.pushes → (∃ p ∈ s.pushes, p.data = p'.data ∧ g ∈ p.gors) ∨ (g.peer, p'.data) ∈ s'.sent := fun h => .inl ⟨p', by rw [← h]; exact hp, rfl, hg⟩
  have new : ∀ d, s'.pushes = s.pushes ++ [⟨d, .mark, []⟩] → (∃ p ∈ s.pushes, p.data = p'.data ∧ g ∈ p.gors) ∨ (g.peer, p'.data) ∈ s'.sent := by
    intro d he
    rw [he] at hp
    rcases List.mem_append.1 hp with h | h
    · exact .inl ⟨p', h, rfl, hg⟩
    · rw [List.mem_singleton.1 h] at hg; cases hg
  have gor : ∀ (l : List Gor) (j : Nat) (g0 : Gor) (P : Gor → Prop), (g0.pc ≠ .set ∨ P g0) → ∀ g ∈ l.set j g0, g.pc = .set → g ∈ l ∨ P g := by
    intro l j g0 P h g hg hpc
    rcases List.mem_or_eq_of_mem_set hg with h1 | rfl
    · exact .inl h1
    · rcases h with h | h
      · exact (h hpc).elim
      · exact .inr h
  cases a with
  | receive e d =>
    simp only [step] at hs
    split at hs <;> cases hs
    exact same rfl
  | handler j =>
    simp only [step] at hs
    repeat' split at hs
    all_goals first | (cases hs; done) | (cases hs; first | exact same rfl | exact new _ rfl)
  | callback j accept =>
    simp only [step] at hs
    repeat' split at hs
    all_goals first | (cases hs; done) | (cases hs; exact same rfl)
  | push data =>
    simp only [step] at hs
    split at hs <;> cases hs
    exact new _ rfl
  | pushing k l =>
    simp only [step] at hs
    split at hs
    · cases hs
    rename_i p hk
    split at hs
    · cases hs; exact set k p _ hk rfl rfl (fun g h _ => .inl h)
    · split at hs <;> cases hs
      refine set k p _ hk rfl rfl (fun g h h1 => ?_)
      obtain ⟨e, -, rfl⟩ := List.mem_map.1 h
      cases h1
    · split at hs <;> cases hs
      exact set k p _ hk rfl rfl (fun g h _ => .inl h)
    · cases hs
  | gor k j =>
    simp only [step] at hs
    split at hs
    · cases hs
    rename_i p hk
    split at hs
    · cases hs
    split at hs
    · cases hs
      exact set k p _ hk rfl rfl (gor _ _ _ _ (.inl (by simp only; split <;> simp)))
    · cases hs
      exact set k p _ hk rfl rfl (gor _ _ _ _ (.inl (by simp)))
    · cases hs
    · cases hs
  | sent k j ok =>
    simp only [step] at hs
    split at hs
    · cases hs
    rename_i p hk
    split at hs
    · cases hs
    rename_i g0 hj
    split at hs
    · split at hs <;> cases hs
      · exact set k p _ hk rfl rfl (gor _ _ _ (fun g => (g.peer, p.data) ∈ s.sent ++ [(g0.peer, p.data)]) (.inr (by simp)))
      · exact set k p _ hk rfl rfl (gor _ _ _ _ (.inl (by simp)))
    · cases hs

theorem step_sent_mono {c : Cfg} {s s' : State} {a : Action} (hs : step c s a = some s') : s.sent <+: s'.sent := by
  g_cases a hs
  all_goals first | exact List.prefix_refl _ | exact List.prefix_append _ _

/-- Why data is marked for a key. -/
def Why (self : PublicKey) (s : State) (k : PublicKey) (d : Bytes) : Prop := (∃ h ∈ s.handlers, h.sender.id = k ∧ h.data = d) ∨ k = self ∨ ∃ e ∈ s.sent, e.1.id = k ∧ e.2 = d

theorem Why.step {c : Cfg} {s s' : State} {a : Action} (hs : step c s a = some s') {k : PublicKey} {d : Bytes} (h : Why c.self s k d) : Why c.self s' k d := by
  rcases h with ⟨h, h1, h2, h3⟩ | h | ⟨e, h1, h2⟩
  · obtain ⟨i, hi⟩ := List.getElem?_of_mem h1
    obtain ⟨h', g1, g2, g3⟩ := (step_sources hs).hkeep i h hi
    exact .inl ⟨h', List.mem_of_getElem? g1, by rw [g2]; exact h2, by rw [g3]; exact h3⟩
  · exact .inr (.inl h)
  · exact .inr (.inr ⟨e, (step_sent_mono hs).subset h1, h2⟩)

structure Marks (c : Cfg) (s : State) : Prop where
  cache : ∀ m ∈ s.cache, ∃ k d, m = hash k d ∧ Why c.self s k d
  set : ∀ p ∈ s.pushes, ∀ g ∈ p.gors, g.pc = .set → (g.peer, p.data) ∈ s.sent

theorem Marks.step {c : Cfg} {s s' : State} {a : Action} (i : Marks c s) (hs : step c s a = some s') : Marks c s' where
  cache m hm := by
    rcases step_cache hs hm with h | ⟨h, h1, rfl⟩ | ⟨d, rfl⟩ | ⟨p, h1, g, h2, h3, rfl⟩
    · obtain ⟨k, d, h1, h2⟩ := i.cache m h
      exact ⟨k, d, h1, h2.step hs⟩
    · exact ⟨_, _, rfl, Why.step hs (.inl ⟨h, h1, rfl, rfl⟩)⟩
    · exact ⟨_, _, rfl, .inr (.inl rfl)⟩
    · exact ⟨_, _, rfl, Why.step hs (.inr (.inr ⟨_, i.set p h1 g h2 h3, rfl, rfl⟩))⟩
  set p hp g hg hpc := by
    rcases step_set hs hp hg hpc with ⟨q, h1, h2, h3⟩ | h
    · rw [← h2]; exact (step_sent_mono hs).subset (i.set q h1 g h3 hpc)
    · exact h

theorem Marks.reach {c : Cfg} {s : State} (h : ReachFrom (Gossip.step c) State.new s) : Marks c s :=
  h.inv (P := Marks c) (fun _ _ _ i hs => i.step hs) ⟨by simp [State.new], by simp [State.new]⟩

theorem Marks.why {c : Cfg} {s : State} (i : Marks c s) {k : PublicKey} {d : Bytes} (h : hash k d ∈ s.cache) : Why c.self s k d := by
  obtain ⟨k', d', h1, h2⟩ := i.cache _ h
  obtain ⟨rfl, rfl⟩ := hash_inj h1
  exact h2

/-- A goroutine looks into the cache first. -/
theorem step_check {c : Cfg} {s s' : State} {a : Action} (hs : step c s a = some s') {k j : Nat} {p p' : Pushing} {g g' : Gor} (hp : s.pushes[k]? = some p) (hw : p.Wf) (hg : p.gors[j]? = some g) (hpc : g.pc = .check)
    (hp' : s'.pushes[k]? = some p') (hg' : p'.gors[j]? = some g') : g'.pc = .check ∨ g'.pc = .send ∨ hash g.peer.id p.data ∈ s.cache := by
  have hlt := (List.getElem?_eq_some_iff.1 hp).1
  have hjlt := (List.getElem?_eq_some_iff.1 hg).1
  obtain ⟨p1, h1, h2⟩ := step_push hs hp
  rw [hp'] at h1; cases h1
  cases h2 with
  | same h => rw [h, hg] at hg'; cases hg'; exact .inl hpc
  | mark h h' => rw [h'] at hg'; simp only at hg'; rw [hg] at hg'; cases hg'; exact .inl hpc
  | entries h h' => rw [hw.2.1 (.inr h)] at hg; cases hg
  | done h h' => rw [h'] at hg'; simp only at hg'; rw [hg] at hg'; cases hg'; exact .inl hpc
  | gor j0 g0 pc hj0 h hl hb hc =>
    by_cases hj : j0 = j
    swap
    · rw [h] at hg'
      simp only [List.getElem?_set_ne hj] at hg'
      rw [hg] at hg'; cases hg'; exact .inl hpc
    subst hj
    rw [hg] at hj0; cases hj0
    rw [hc hpc] at hs
    simp only [step, hp, hg, hpc] at hs
    injection hs with hs
    rw [← hs] at hp'
    simp only [State.setP, List.getElem?_set_self hlt, Option.some.injEq] at hp'
    rw [← hp'] at hg'
    simp only [List.getElem?_set_self hjlt, Option.some.injEq] at hg'
    rw [← hg']
    simp only
    split
    · rename_i hh; exact .inr (.inr (cacheHas_iff.1 hh))
    · exact .inr (.inl rfl)

end Noise.Gossip

namespace Noise.Gossip

/-- A goroutine of a push stays, and only goes forward. -/
theorem step_gor {c : Cfg} {s s' : State} {a : Action} (hs : step c s a = some s') {k j : Nat} {p : Pushing} {g : Gor} (hp : s.pushes[k]? = some p) (hw : p.Wf) (hg : p.gors[j]? = some g) :
    ∃ p' g', s'.pushes[k]? = some p' ∧ p'.gors[j]? = some g' ∧ p'.data = p.data ∧ g'.peer = g.peer ∧ (g' = g ∨ g'.left < g.left) := by
  have hjlt := (List.getElem?_eq_some_iff.1 hg).1
  obtain ⟨p', h1, h2⟩ := step_push hs hp
  cases h2 with
  | same h => exact ⟨p', g, h1, by rw [h]; exact hg, by rw [h], rfl, .inl rfl⟩
  | mark h h' => exact ⟨p', g, h1, by rw [h']; exact hg, by rw [h'], rfl, .inl rfl⟩
  | entries h h' => rw [hw.2.1 (.inr h)] at hg; cases hg
  | done h h' => exact ⟨p', g, h1, by rw [h']; exact hg, by rw [h'], rfl, .inl rfl⟩
  | gor j0 g0 pc hj0 h hl =>
    by_cases hj : j0 = j
    · subst hj
      rw [hg] at hj0; cases hj0
      exact ⟨p', { g with pc := pc }, h1, by rw [h]; exact List.getElem?_set_self hjlt, by rw [h], rfl, .inr hl⟩
    · exact ⟨p', g, h1, by rw [h]; simp only [List.getElem?_set_ne hj]; exact hg, by rw [h], rfl, .inl rfl⟩

end Noise.Gossip

namespace Noise.GWire
open Spec Net
variable {ε : Type}

/-- A goroutine that has gone past its send has found a mark or has called `SendMessage`. -/
def Tried (p : Part ε) : Prop := ∀ (k j : Nat) (q : Gossip.Pushing) (g : Gossip.Gor), p.g.pushes[k]? = some q → q.gors[j]? = some g → g.pc = .set ∨ g.pc = .done →
  Gossip.hash g.peer.id q.data ∈ p.g.cache ∨ ∃ a ∈ p.asks, a.push = k ∧ a.gor = j

theorem Tried.reach {c : Cfg ε} {N : Nat} {s : State ε} (h : Reachable c N s) : ∀ (n : Nat) (p : Part ε), s.parts[n]? = some p → Tried p := by
  refine h.ind (P := fun s => ∀ (n : Nat) (p : Part ε), s.parts[n]? = some p → Tried p) ?_ ?_
  · intro n p hp k j q g hq
    have := List.mem_of_getElem? hp
    rw [(List.mem_replicate.1 this).2] at hq
    cases hq
  intro s a s' hr ih hs
  have i := Inv.reach hr
  cases step_eff hs with
  | net b h1 h2 => exact fun n p hp => ih n p (by rw [← h2]; exact hp)
  | gossip n x p p' b hx hp hn hps hg ha hpu hpush hrecv hsent =>
    intro m r hrr
    rw [hps] at hrr
    rcases (parts_set hp).1 hrr with ⟨rfl, rfl⟩ | ⟨-, hrr⟩
    swap
    · exact ih m r hrr
    intro k j q' g' hq' hg' hpc
    have w := ih m p hp
    rw [ha]
    rcases (Gossip.step_sources hg).pushes k q' hq' with ⟨q, hq, hd⟩ | ⟨-, h, -⟩
    swap
    · rw [h] at hg'; cases hg'
    have old : ∀ g, q.gors[j]? = some g → g.peer = g'.peer → g.pc = .set ∨ g.pc = .done → Gossip.hash g'.peer.id q'.data ∈ r.g.cache ∨ ∃ a ∈ p.asks, a.push = k ∧ a.gor = j := by
      intro g h1 h2 h3
      rcases w k j q g hq h1 h3 with h | h
      · rw [h2, ← hd] at h
        exact .inl (Gossip.cache_mono hg h)
      · exact .inr h
    have hwf := (i.good m p hp).wf q (List.mem_of_getElem? hq)
    obtain ⟨q1, h1, h2⟩ := Gossip.step_push hg hq
    rw [hq'] at h1; cases h1
    cases h2 with
    | same h => rw [h] at hg'; exact old g' hg' rfl hpc
    | mark h h' => rw [h'] at hg'; exact old g' hg' rfl hpc
    | entries h h' hnew =>
      rw [hnew g' (List.mem_of_getElem? hg')] at hpc
      rcases hpc with hpc | hpc <;> cases hpc
    | done h h' => rw [h'] at hg'; exact old g' hg' rfl hpc
    | gor j0 g pc hj0 h hl hb hc =>
      by_cases hj : j0 = j
      swap
      · rw [h] at hg'
        simp only [List.getElem?_set_ne hj] at hg'
        exact old g' hg' rfl hpc
      subst hj
      have hpeer : g'.peer = g.peer := by
        rw [h] at hg'
        simp only [List.getElem?_set_self (List.getElem?_eq_some_iff.1 hj0).1, Option.some.injEq] at hg'
        rw [← hg']
      cases hgp : g.pc with
      | check =>
        rcases Gossip.step_check hg hq hwf hj0 hgp hq' hg' with e | e | e
        · rw [e] at hpc; rcases hpc with hpc | hpc <;> cases hpc
        · rw [e] at hpc; rcases hpc with hpc | hpc <;> cases hpc
        · rw [hpeer, hd]; exact .inl (Gossip.cache_mono hg e)
      | send =>
        obtain ⟨ok, rfl⟩ := hb hgp
        obtain ⟨b, hb1, hb2, hb3, -⟩ := hsent _ _ ok rfl
        exact .inr ⟨b, hb1, hb2, hb3⟩
      | set => exact old g hj0 hpeer.symm (.inl hgp)
      | done => exact old g hj0 hpeer.symm (.inr hgp)
  | send n x p k j q gg hx hp hq hgg hpc hno hn hps =>
    intro m r hrr
    rw [hps] at hrr
    rcases (parts_set hp).1 hrr with ⟨rfl, rfl⟩ | ⟨-, hrr⟩
    swap
    · exact ih m r hrr
    intro k' j' q' g' hq' hg' hpc'
    rcases ih m p hp k' j' q' g' hq' hg' hpc' with h | ⟨a, h1, h2⟩
    · exact .inl h
    · exact .inr ⟨a, List.mem_append_left _ h1, h2⟩

section
variable {c : Cfg ε} {N n : Nat} {σ : Nat → State ε} {α : Nat → Option (Action ε)}

/-- Goroutine `j` of push `k` on node `n` is for this peer and data. -/
def GorIs (σ : Nat → State ε) (n k j : Nat) (peer : ID) (data : Bytes) (t : Nat) : Prop :=
  ∃ (p : Part ε) (q : Gossip.Pushing) (g : Gossip.Gor), (σ t).parts[n]? = some p ∧ p.g.pushes[k]? = some q ∧ q.gors[j]? = some g ∧ g.peer = peer ∧ q.data = data

/-- Each goroutine of a push finds a mark or calls `SendMessage`. -/
theorem gor_asks (hrun : GossipRuns c N n σ α) (hn : n < N) {k j t : Nat} {peer : ID} {data : Bytes} (h : GorIs σ n k j peer data t) :
    ∃ (t' : Nat) (p : Part ε), t ≤ t' ∧ (σ t').parts[n]? = some p ∧ (Gossip.hash peer.id data ∈ p.g.cache ∨ ∃ a ∈ p.asks, a.push = k ∧ a.gor = j) := by
  suffices key : ∃ t', t ≤ t' ∧ ∃ p : Part ε, (σ t').parts[n]? = some p ∧ (Gossip.hash peer.id data ∈ p.g.cache ∨ ∃ a ∈ p.asks, a.push = k ∧ a.gor = j) by
    obtain ⟨t', h1, p, h2⟩ := key
    exact ⟨t', p, h1, h2⟩
  refine Fair.well1 (hrun.spread k j) (P := GorIs σ n k j peer data)
    (fun t => (((((σ t).parts[n]?).bind fun p => p.g.pushes[k]?).bind fun q => q.gors[j]?).map Gossip.Gor.left).getD 0) ?_ t h
  rintro t ⟨p, q, g, hp, hq, hg, hpeer, hdata⟩
  by_cases hG : Gossip.hash peer.id data ∈ p.g.cache ∨ ∃ a ∈ p.asks, a.push = k ∧ a.gor = j
  · exact .inl ⟨p, hp, hG⟩
  have hr := run_reach hrun t
  have hwf := ((Inv.reach hr).good n p hp).wf q (List.mem_of_getElem? hq)
  have hpc : g.pc = .check ∨ g.pc = .send := by
    cases hgp : g.pc with
    | check => exact .inl rfl
    | send => exact .inr rfl
    | set => exact (hG (by rw [← hpeer, ← hdata]; exact Tried.reach hr n p hp k j q g hq hg (.inl hgp))).elim
    | done => exact (hG (by rw [← hpeer, ← hdata]; exact Tried.reach hr n p hp k j q g hq hg (.inr hgp))).elim
  have hany : (p.asks.any fun a => decide (a.push = k ∧ a.gor = j)) = false := by
    rw [List.any_eq_false]
    intro a ha
    simp only [decide_eq_true_eq]
    exact fun h => hG (.inr ⟨a, ha, h⟩)
  refine .inr ⟨?_, ?_⟩
  · rcases hpc with hpc | hpc
    · exact ⟨_, .inl rfl, own_able hrun hn hp (.inr ⟨k, j, rfl⟩) (by simp [Gossip.step, hq, hg, hpc])⟩
    · have hs : sending p.g k j = some (q.data, g.peer) := by simp [sending, hq, hg, hpc]
      exact ⟨_, .inr (.inl rfl), by
        simp only [step, node_some hrun hn t, hp, hs, hany, Bool.false_eq_true, if_false, Net.step, Node.step, hrun.alive t, Option.map_some, Option.isSome_some]⟩
  rcases hrun.exec t with ⟨ha, e⟩ | ⟨a, ha, hs⟩
  · refine .inr ⟨⟨p, q, g, by rw [e]; exact hp, hq, hg, hpeer, hdata⟩, .inr ⟨by simp only [e], ?_⟩⟩
    rintro ⟨a, e1, -⟩
    rw [ha] at e1; cases e1
  obtain ⟨p', hp', -, ⟨hpg, hsend, hown, hsent⟩ | ⟨b, hb, hasks, hnsend, hown, hsent⟩⟩ := part_step hs hp
  · by_cases hse : a = .send n k j
    · obtain ⟨q0, h1, h2⟩ := hsend k j hse
      exact .inl ⟨p', hp', .inr ⟨q0, h1, h2⟩⟩
    refine .inr ⟨⟨p', q, g, hp', by rw [hpg]; exact hq, hg, hpeer, hdata⟩, .inr ⟨by simp only [hp', hp, Option.bind_some, hpg], ?_⟩⟩
    rintro ⟨a', e1, e2⟩
    rw [ha] at e1; cases e1
    rcases e2 with rfl | rfl | rfl
    · exact hown _ rfl
    · exact hse rfl
    · exact hsent _ _ rfl
  · obtain ⟨q', g', hq', hg', hd', hpe', hleft⟩ := Gossip.step_gor hb hq hwf hg
    refine .inr ⟨⟨p', q', g', hp', hq', hg', hpe'.trans hpeer, hd'.trans hdata⟩, ?_⟩
    simp only [hp', hp, Option.bind_some, hq', hq, hg', hg, Option.map_some, Option.getD_some]
    rcases hleft with rfl | hlt
    swap
    · exact .inl hlt
    refine .inr ⟨rfl, ?_⟩
    rintro ⟨a', e1, e2⟩
    rw [ha] at e1; cases e1
    rcases e2 with rfl | rfl | rfl
    · rw [hown _ rfl] at hb
      rcases hpc with hpc | hpc
      · simp only [Gossip.step, hq, hg, hpc] at hb
        injection hb with hb
        rw [← hb] at hq'
        simp only [Gossip.State.setP, List.getElem?_set_self (List.getElem?_eq_some_iff.1 hq).1, Option.some.injEq] at hq'
        rw [← hq'] at hg'
        simp only [List.getElem?_set_self (List.getElem?_eq_some_iff.1 hg).1, Option.some.injEq] at hg'
        have := congrArg Gossip.Gor.pc hg'
        simp only [hpc] at this
        split at this <;> cases this
      · simp only [Gossip.step, hq, hg, hpc] at hb
        cases hb
    · exact hnsend _ _ rfl
    · obtain ⟨x, r, r', hx, hr', -, hf, -⟩ := with_some hs
      rw [hp] at hr'; cases hr'
      split at hf
      · rename_i a0 hfind
        have := List.find?_some hfind
        simp only [decide_eq_true_eq] at this
        exact hG (.inr ⟨a0, List.mem_of_find?_eq_some hfind, this⟩)
      · cases hf

end
end Noise.GWire
