import Verif.Proofs.GossipForget
/-! # Coverage although the caches forget

A network whose caches forget is compared with one whose caches keep everything, but sometimes answer that they do not have an entry although they do (`Miss`). -/
namespace Noise.Gossip

/-- `Has` answers no although the entry is there -/
def Miss (s : State) (a : Action) (t : State) : Prop :=
  (∃ i h, a = .handler i ∧ s.handlers[i]? = some h ∧ h.pc = .check ∧ t = s.setH i h .mark) ∨
  ∃ k j p g, a = .gor k j ∧ s.pushes[k]? = some p ∧ p.gors[j]? = some g ∧ g.pc = .check ∧ t = s.setP k { p with gors := p.gors.set j { g with pc := .send } }

/-- the same but for the cache, which has at least the same entries -/
structure Less (s g : State) : Prop where
  handlers : g.handlers = s.handlers
  pushes : g.pushes = s.pushes
  delivered : g.delivered = s.delivered
  sent : g.sent = s.sent
  cache : ∀ k ∈ s.cache, k ∈ g.cache

theorem Less.set {s g : State} (h : Less s g) (key : Bytes) : ∀ k ∈ cacheSet s.cache key, k ∈ cacheSet g.cache key := by
  intro k hk
  rw [mem_cacheSet] at hk ⊢
  exact hk.imp (h.cache k) id

theorem Less.step {c : Cfg} {s s' g : State} {a : Action} (h : Less s g) (hs : step c s a = some s') :
    ∃ g', (step c g a = some g' ∨ Miss g a g') ∧ Less s' g' := by
  obtain ⟨gc, gh, gp, gd, gs⟩ := g
  obtain ⟨e1, e2, e3, e4, e5⟩ := h
  simp only at e1 e2 e3 e4 e5
  subst e1 e2 e3 e4
  have hset : ∀ key k, k ∈ cacheSet s.cache key → k ∈ cacheSet gc key := fun key k hk => by
    rw [mem_cacheSet] at hk ⊢
    exact hk.imp (e5 k) id
  by_cases hm : ∃ i h, a = .handler i ∧ s.handlers[i]? = some h ∧ h.pc = .check ∧ cacheHas s.cache (hash c.self h.data) = false ∧ cacheHas gc (hash c.self h.data) = true
  · obtain ⟨i, h, rfl, hh, hpc, hc, hc'⟩ := hm
    refine ⟨_, Or.inr (Or.inl ⟨i, h, rfl, hh, hpc, rfl⟩), ?_⟩
    simp only [Gossip.step, hh, hpc, hc, State.setH, Bool.false_eq_true, if_false, Option.some.injEq] at hs
    subst hs
    exact ⟨rfl, rfl, rfl, rfl, e5⟩
  by_cases hm' : ∃ k j p g, a = .gor k j ∧ s.pushes[k]? = some p ∧ p.gors[j]? = some g ∧ g.pc = .check ∧ cacheHas s.cache (hash g.peer.id p.data) = false ∧
      cacheHas gc (hash g.peer.id p.data) = true
  · obtain ⟨k, j, p, g, rfl, hp, hg, hpc, hc, hc'⟩ := hm'
    refine ⟨_, Or.inr (Or.inr ⟨k, j, p, g, rfl, hp, hg, hpc, rfl⟩), ?_⟩
    simp only [Gossip.step, hp, hg, hpc, hc, State.setP, Bool.false_eq_true, if_false, Option.some.injEq] at hs
    subst hs
    exact ⟨rfl, rfl, rfl, rfl, e5⟩
  rcases hg : Gossip.step c ⟨gc, s.handlers, s.pushes, s.delivered, s.sent⟩ a with _ | g'
  · exfalso
    g_cases a hs
    all_goals simp only [Gossip.step, State.setH, State.setP, *, if_true, if_false, reduceCtorEq] at hg
  · refine ⟨g', Or.inl rfl, ?_⟩
    g_cases a hs
    all_goals simp only [Gossip.step, State.setH, State.setP, *, if_true, if_false, Bool.false_eq_true, Option.some.injEq] at hg
    all_goals first
      | (subst hg; exact ⟨rfl, rfl, rfl, rfl, e5⟩)
      | (subst hg; exact ⟨rfl, rfl, rfl, rfl, hset _⟩)
      | skip
    · rename_i i _ h hh _ hpc hc
      subst hg
      rw [if_pos (cacheHas_iff.2 (e5 _ (cacheHas_iff.1 hc)))]
      exact ⟨rfl, rfl, rfl, rfl, e5⟩
    · rename_i i _ h hh _ hpc hc
      subst hg
      rw [if_neg fun hc' => hm ⟨i, h, rfl, hh, hpc, by simpa using hc, hc'⟩]
      exact ⟨rfl, rfl, rfl, rfl, e5⟩
    · rename_i k j _ p hp _ g hgg _ hpc hc
      subst hg
      rw [if_pos (cacheHas_iff.2 (e5 _ (cacheHas_iff.1 hc)))]
      exact ⟨rfl, rfl, rfl, rfl, e5⟩
    · rename_i k j _ p hp _ g hgg _ hpc hc
      subst hg
      rw [if_neg fun hc' => hm' ⟨k, j, p, g, rfl, hp, hgg, hpc, by simpa using hc, hc'⟩]
      exact ⟨rfl, rfl, rfl, rfl, e5⟩

/-! ## Coverage with misses -/

/-- A step of one node that is not about its cache. -/
theorem Cov.local {s s' : Net} {d : Bytes} (h : Cov d s) {n : Nat} {x : Node} {t : State} (hx : s.nodes[n]? = some x) (hn : s'.nodes = s.nodes.set n { x with st := t }) (hf : s'.flight = s.flight)
    (hc : t.cache = x.st.cache) (hw : ∀ p ∈ t.pushes, p.Wf)
    (hh : ∀ h' ∈ t.handlers, h'.data = d → ∃ h ∈ x.st.handlers, h.sender = h'.sender ∧ h.data = d)
    (he : ∀ h ∈ x.st.handlers, h.data = d → (h.pc = .sender ∨ h.pc = .check ∨ h.pc = .mark) → ∃ h' ∈ t.handlers, h'.data = d ∧ (h'.pc = .sender ∨ h'.pc = .check ∨ h'.pc = .mark))
    (hp : ∀ p' ∈ t.pushes, p'.data = d → p'.pc ≠ .mark → ∃ p ∈ x.st.pushes, p.data = d ∧ p.pc ≠ .mark)
    (hg : ∀ p' ∈ t.pushes, p'.data = d → ∀ g' ∈ p'.gors, g'.pc = .set → ∃ p ∈ x.st.pushes, p.data = d ∧ ∃ g ∈ p.gors, g.peer = g'.peer ∧ g.pc = .set)
    (hpass : Passes d x.table x.st → Passes d x.table t) : Cov d s' := by
  have hxm := List.mem_of_getElem? hx
  have hxt : ({ x with st := t } : Node) ∈ s'.nodes := by rw [hn]; exact Iter.mem_set_self hx
  have old : ∀ y ∈ s'.nodes, y ∈ s.nodes ∨ y = { x with st := t } := fun y hy => List.mem_or_eq_of_mem_set (hn ▸ hy)
  have hasx : ({ x with st := t } : Node).has d ↔ x.has d := by unfold Node.has; rw [hc]
  have hhas : ∀ k, Has d s k → Has d s' k := by
    rintro k ⟨y, hy, hyk, hyh⟩
    rcases node_after hx hn hy with h | ⟨rfl, h⟩
    · exact ⟨y, h, hyk, hyh⟩
    · exact ⟨_, h, hyk, hasx.2 hyh⟩
  have hcome : ∀ k, Coming d s k → Coming d s' k := by
    rintro k (⟨m, hm, hto, hmd⟩ | ⟨y, hy, hyk, h, hhm, hhd, hpc⟩)
    · exact Or.inl ⟨m, by rw [hf]; exact hm, hto, hmd⟩
    · rcases node_after hx hn hy with h' | ⟨rfl, h'⟩
      · exact Or.inr ⟨y, h', hyk, h, hhm, hhd, hpc⟩
      · obtain ⟨h2, a, b, c⟩ := he h hhm hhd hpc
        exact Or.inr ⟨_, h', hyk, h2, a, b, c⟩
  have hboth : ∀ k, Has d s k ∨ Coming d s k → Has d s' k ∨ Coming d s' k := fun k hk => hk.imp (hhas k) (hcome k)
  refine ⟨by rw [keys_step hx hn]; exact h.nodup, ?_, ?_, ?_, ?_, ?_, ?_, ?_⟩
  · intro y hy
    rcases old y hy with hy | rfl
    · exact h.wf y hy
    · exact hw
  · intro m hm hmd
    rw [hf] at hm
    exact hhas _ (h.fromFlight m hm hmd)
  · intro y hy h' hh' hd'
    rcases old y hy with hy | rfl
    · exact hhas _ (h.fromHandler y hy h' hh' hd')
    · obtain ⟨h0, a, b, c⟩ := hh h' hh' hd'
      rw [← b]
      exact hhas _ (h.fromHandler x hxm h0 a c)
  · intro y hy p hpm hpd hpc
    rcases old y hy with hy | rfl
    · exact h.marked y hy p hpm hpd hpc
    · obtain ⟨p0, a, b, c⟩ := hp p hpm hpd hpc
      exact hasx.2 (h.marked x hxm p0 a b c)
  · intro y hy k hk
    rcases old y hy with hy | rfl
    · exact hboth k (h.noted y hy k hk)
    · simp only [hc] at hk
      exact hboth k (h.noted x hxm k hk)
  · intro y hy p hpm hpd g hgm hgs
    rcases old y hy with hy | rfl
    · exact hboth _ (h.sending y hy p hpm hpd g hgm hgs)
    · obtain ⟨p0, a, b, g0, c, e, f⟩ := hg p hpm hpd g hgm hgs
      rw [← e]
      exact hboth _ (h.sending x hxm p0 a b g0 c f)
  · intro y hy hyh
    rcases old y hy with hy | rfl
    · exact h.passes y hy hyh
    · exact hpass (h.passes x hxm (hasx.1 hyh))

theorem Cov.miss {s s' : Net} {d : Bytes} (h : Cov d s) {n : Nat} {x : Node} {t : State} {a : Action} (hx : s.nodes[n]? = some x) (hm : Miss x.st a t) (hn : s'.nodes = s.nodes.set n { x with st := t })
    (hf : s'.flight = s.flight) : Cov d s' := by
  have hxm := List.mem_of_getElem? hx
  rcases hm with ⟨i, g, rfl, hg, hpc, rfl⟩ | ⟨k, j, p, g, rfl, hp, hg, hpc, rfl⟩
  · refine h.local hx hn hf rfl (h.wf x hxm) ?_ ?_ ?_ ?_ ?_ <;> simp only [State.setH]
    · intro h' hh' hd'
      rcases List.mem_or_eq_of_mem_set hh' with hh' | rfl
      · exact ⟨h', hh', rfl, hd'⟩
      · exact ⟨g, List.mem_of_getElem? hg, rfl, hd'⟩
    · intro h0 hh0 hd0 he
      rcases mem_set_cases (y := { g with pc := .mark }) hg hh0 with rfl | hh
      · exact ⟨_, Iter.mem_set_self hg, hd0, Or.inr (Or.inr rfl)⟩
      · exact ⟨h0, hh, hd0, he⟩
    · exact fun p hp a b => ⟨p, hp, a, b⟩
    · exact fun p hp a g hg b => ⟨p, hp, a, g, hg, rfl, b⟩
    · rintro (⟨h0, hh0, hd0, he⟩ | h2)
      · rcases mem_set_cases (y := { g with pc := .mark }) hg hh0 with rfl | hh
        · rw [hpc] at he; simp at he
        · exact Or.inl ⟨h0, hh, hd0, he⟩
      · exact Or.inr h2
  · have hpm := List.mem_of_getElem? hp
    have hwp := h.wf x hxm p hpm
    refine h.local hx hn hf rfl ?_ ?_ ?_ ?_ ?_ ?_ <;> simp only [State.setP]
    · intro q hq
      rcases List.mem_or_eq_of_mem_set hq with hq | rfl
      · exact h.wf x hxm q hq
      · exact wf_set _ hwp hg (by rw [hpc]; simp)
    · exact fun h' hh' hd' => ⟨h', hh', rfl, hd'⟩
    · exact fun h' hh' hd' he => ⟨h', hh', hd', he⟩
    · intro q hq hqd hqp
      rcases List.mem_or_eq_of_mem_set hq with hq | rfl
      · exact ⟨q, hq, hqd, hqp⟩
      · exact ⟨p, hpm, hqd, hqp⟩
    · intro q hq hqd g' hg' hgs
      rcases List.mem_or_eq_of_mem_set hq with hq | rfl
      · exact ⟨q, hq, hqd, g', hg', rfl, hgs⟩
      · rcases List.mem_or_eq_of_mem_set hg' with hg' | rfl
        · exact ⟨p, hpm, hqd, g', hg', rfl, hgs⟩
        · cases hgs
    · rintro (h1 | ⟨q, hq, hqd, hqp⟩ | h3)
      · exact Or.inl h1
      · rcases mem_set_cases (y := { p with gors := p.gors.set j { g with pc := .send } }) hp hq with rfl | hq
        · exact Or.inr (Or.inl ⟨_, Iter.mem_set_self hp, hqd, hqp⟩)
        · exact Or.inr (Or.inl ⟨q, hq, hqd, hqp⟩)
      · refine Or.inr (Or.inr fun e he => ?_)
        rcases h3 e he with h3 | ⟨q, hq, hqd, g', hg', hge, hgp⟩
        · exact Or.inl h3
        · refine Or.inr ?_
          rcases mem_set_cases (y := { p with gors := p.gors.set j { g with pc := .send } }) hp hq with rfl | hq
          · refine ⟨_, Iter.mem_set_self hp, hqd, ?_⟩
            rcases mem_set_cases (y := { g with pc := .send }) hg hg' with rfl | hg'
            · exact ⟨_, Iter.mem_set_self hg, hge, by simp⟩
            · exact ⟨g', hg', hge, hgp⟩
          · exact ⟨q, hq, hqd, g', hg', hge, hgp⟩

theorem Got.miss {x : Node} {t : State} {a : Action} {d : Bytes} {U : Prop} (hm : Miss x.st a t) (hp : Got d U x) : Got d U { x with st := t } := by
  obtain ⟨h1, h2, h3⟩ := hp
  rcases hm with ⟨i, g, rfl, hg, hpc, rfl⟩ | ⟨k, j, p, g, rfl, hp, hg, hpc, rfl⟩
  · refine ⟨fun hh => ?_, h2, ?_⟩
    · rcases h1 hh with h | ⟨h0, hh0, hd0, he⟩ | h
      · exact Or.inl h
      · rcases mem_set_cases (y := { g with pc := .mark }) hg hh0 with rfl | hh
        · rw [hpc] at he; cases he
        · exact Or.inr (Or.inl ⟨h0, hh, hd0, he⟩)
      · exact Or.inr (Or.inr h)
    · intro h' hh' hd' hpc'
      rcases List.mem_or_eq_of_mem_set hh' with hh' | rfl
      · exact h3 h' hh' hd' hpc'
      · cases hpc'
  · refine ⟨h1, ?_, h3⟩
    intro q hq hqd
    rcases List.mem_or_eq_of_mem_set hq with hq | rfl
    · exact h2 q hq hqd
    · exact h2 p (List.mem_of_getElem? hp) hqd

end Noise.Gossip
