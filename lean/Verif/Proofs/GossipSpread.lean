import Verif.Props.GossipLive
import Verif.Spec.GossipSpread
/-! # How gossip spreads: what `Push` reads, what it has called, and what becomes of what is reported -/
namespace Noise.Gossip

/-- A push that is about to read the table reads it or stays. -/
theorem step_entries {c : Cfg} {s s' : State} {a : Action} (hs : step c s a = some s') {k : Nat} {p p' : Pushing} (hp : s.pushes[k]? = some p) (hpc : p.pc = .entries) (hw : p.gors = []) (hp' : s'.pushes[k]? = some p') :
    p' = p ∨ ∃ l, a = .pushing k l ∧ p' = { p with pc := .running, gors := l.map fun e => ⟨e, .check⟩ } := by
  have hlt := (List.getElem?_eq_some_iff.1 hp).1
  have same : s'.pushes = s.pushes → p' = p := fun h => by rw [h, hp] at hp'; cases hp'; rfl
  have grow : ∀ r : Pushing, s'.pushes = s.pushes ++ [r] → p' = p := fun r h => by rw [h, List.getElem?_append_left hlt, hp] at hp'; cases hp'; rfl
  have other : ∀ (i : Nat) (r : Pushing), i ≠ k → s'.pushes = s.pushes.set i r → p' = p := fun i r hi h => by rw [h, List.getElem?_set_ne hi, hp] at hp'; cases hp'; rfl
  cases a with
  | receive e d =>
    simp only [step] at hs
    split at hs <;> cases hs
    exact .inl (same rfl)
  | handler i =>
    simp only [step] at hs
    split at hs
    · cases hs
    split at hs
    · cases hs; exact .inl (same rfl)
    · cases hs; exact .inl (same rfl)
    · cases hs; exact .inl (same rfl)
    · split at hs <;> cases hs
      exact .inl (grow _ rfl)
    · split at hs
      · split at hs <;> cases hs
        exact .inl (same rfl)
      · cases hs
    · cases hs
    · cases hs
  | callback i accept =>
    simp only [step] at hs
    split at hs
    · split at hs <;> cases hs
      exact .inl (same rfl)
    · cases hs
  | push data =>
    simp only [step] at hs
    split at hs <;> cases hs
    exact .inl (grow _ rfl)
  | pushing i l =>
    by_cases hik : i = k
    · subst hik
      simp only [step, hp, hpc] at hs
      split at hs <;> cases hs
      refine .inr ⟨l, rfl, ?_⟩
      have : (s.setP i { p with pc := .running, gors := l.map fun e => ⟨e, .check⟩ }).pushes[i]? = some { p with pc := .running, gors := l.map fun e => ⟨e, .check⟩ } := List.getElem?_set_self hlt
      rw [this] at hp'
      exact (Option.some.inj hp').symm
    · simp only [step] at hs
      split at hs
      · cases hs
      split at hs
      · cases hs; exact .inl (other i _ hik rfl)
      · split at hs <;> cases hs
        exact .inl (other i _ hik rfl)
      · split at hs <;> cases hs
        exact .inl (other i _ hik rfl)
      · cases hs
  | gor i j =>
    simp only [step] at hs
    split at hs
    · cases hs
    rename_i q hq
    split at hs
    · cases hs
    rename_i g hg
    have hik : i ≠ k := by
      rintro rfl
      rw [hp] at hq; cases hq
      rw [hw] at hg; cases hg
    split at hs <;> cases hs
    · exact .inl (other i _ hik rfl)
    · exact .inl (other i _ hik rfl)
  | sent i j ok =>
    simp only [step] at hs
    split at hs
    · cases hs
    rename_i q hq
    split at hs
    · cases hs
    rename_i g hg
    have hik : i ≠ k := by
      rintro rfl
      rw [hp] at hq; cases hq
      rw [hw] at hg; cases hg
    split at hs
    · split at hs <;> cases hs
      · exact .inl (other i _ hik rfl)
      · exact .inl (other i _ hik rfl)
    · cases hs

/-- What becomes of the calls of `Handle` that have reported something: they push it, unless the application has refused it. `E i`: it has refused what call `i` reported. -/
def Onward (E : Nat → Prop) (s : State) : Prop := ∀ e ∈ s.delivered, ∃ (i : Nat) (h : Handler), s.handlers[i]? = some h ∧ h.data = e.2 ∧ (h.pc = .push ∨ (∃ q ∈ s.pushes, q.data = e.2) ∨ E i)

theorem step_has {c : Cfg} {s s' : State} {a : Action} (hs : step c s a = some s') {d : Bytes} (h : ∃ q ∈ s.pushes, q.data = d) : ∃ q ∈ s'.pushes, q.data = d := by
  obtain ⟨q, hq, rfl⟩ := h
  obtain ⟨k, hk⟩ := List.getElem?_of_mem hq
  obtain ⟨q', h1, h2, -⟩ := (step_sources hs).keep k q hk
  exact ⟨q', List.mem_of_getElem? h1, h2⟩

/-- A call of `Handle` that is about to push does so or stays. -/
theorem step_topush {c : Cfg} {s s' : State} {a : Action} (hs : step c s a = some s') {i : Nat} {h : Handler} (hi : s.handlers[i]? = some h) (hk : h.pc = .push) :
    s'.handlers[i]? = some h ∨ ∃ q ∈ s'.pushes, q.data = h.data := by
  have hlt := (List.getElem?_eq_some_iff.1 hi).1
  have same : s'.handlers = s.handlers → s'.handlers[i]? = some h := fun e => by rw [e]; exact hi
  have set : ∀ (j : Nat) (h1 : Handler) (pc : HPc), s.handlers[j]? = some h1 → h1.pc ≠ .push → s'.handlers = s.handlers.set j { h1 with pc := pc } → s'.handlers[i]? = some h := by
    intro j h1 pc hj hne he
    have : j ≠ i := by
      rintro rfl
      rw [hi] at hj; cases hj
      exact hne hk
    rw [he, List.getElem?_set_ne this]; exact hi
  cases a with
  | receive e d =>
    simp only [step] at hs
    split at hs <;> cases hs
    exact .inl (by simp only [List.getElem?_append_left hlt]; exact hi)
  | handler j =>
    simp only [step] at hs
    split at hs
    · cases hs
    rename_i h1 hj
    split at hs
    · rename_i hpc; cases hs; exact .inl (set j h1 _ hj (by rw [hpc]; simp) rfl)
    · rename_i hpc; cases hs; exact .inl (set j h1 _ hj (by rw [hpc]; simp) rfl)
    · rename_i hpc; cases hs; exact .inl (set j h1 _ hj (by rw [hpc]; simp) rfl)
    · split at hs <;> cases hs
      by_cases hji : j = i
      · subst hji
        rw [hi] at hj; cases hj
        exact .inr ⟨⟨h.data, .mark, []⟩, List.mem_append_right _ (List.mem_singleton_self _), rfl⟩
      · exact .inl (by simp only [State.setH, List.getElem?_set_ne hji]; exact hi)
    · rename_i hpc
      split at hs
      · split at hs <;> cases hs
        exact .inl (set j h1 _ hj (by rw [hpc]; simp) rfl)
      · cases hs
    · cases hs
    · cases hs
  | callback j accept =>
    simp only [step] at hs
    split at hs
    · rename_i h1 hj
      split at hs
      · rename_i hpc; cases hs; exact .inl (set j h1 _ hj (by rw [hpc]; simp) rfl)
      · cases hs
    · cases hs
  | push data =>
    simp only [step] at hs
    split at hs <;> cases hs
    exact .inl (same rfl)
  | pushing k l =>
    simp only [step] at hs
    split at hs
    · cases hs
    split at hs
    · cases hs; exact .inl (same rfl)
    · split at hs <;> cases hs
      exact .inl (same rfl)
    · split at hs <;> cases hs
      exact .inl (same rfl)
    · cases hs
  | gor k j =>
    simp only [step] at hs
    split at hs
    · cases hs
    split at hs
    · cases hs
    split at hs <;> cases hs <;> exact .inl (same rfl)
  | sent k j ok =>
    simp only [step] at hs
    split at hs
    · cases hs
    split at hs
    · cases hs
    split at hs
    · split at hs <;> cases hs <;> exact .inl (same rfl)
    · cases hs

theorem Onward.step {c : Cfg} {s s' : State} {a : Action} {E E' : Nat → Prop} (i : Onward E s) (hs : step c s a = some s') (hE : ∀ i, E i → E' i) (hn : ∀ i, a = .callback i false → E' i) : Onward E' s' := by
  have keep : ∀ e ∈ s.delivered, ∃ (i : Nat) (h : Handler), s'.handlers[i]? = some h ∧ h.data = e.2 ∧ (h.pc = .push ∨ (∃ q ∈ s'.pushes, q.data = e.2) ∨ E' i) := by
    intro e he
    obtain ⟨k, h, h1, h2, h3⟩ := i e he
    obtain ⟨h', g1, -, g2⟩ := (step_sources hs).hkeep k h h1
    rcases h3 with h3 | h3 | h3
    · rcases step_topush hs h1 h3 with h4 | h4
      · exact ⟨k, h, h4, h2, .inl h3⟩
      · exact ⟨k, h', g1, g2.trans h2, .inr (.inl (by rw [← h2]; exact h4))⟩
    · exact ⟨k, h', g1, g2.trans h2, .inr (.inl (step_has hs h3))⟩
    · exact ⟨k, h', g1, g2.trans h2, .inr (.inr (hE k h3))⟩
  have same : s'.delivered = s.delivered → Onward E' s' := fun h e he => keep e (by rw [← h]; exact he)
  cases a with
  | callback j accept =>
    simp only [Gossip.step] at hs
    split at hs
    · rename_i h hj
      split at hs
      · rename_i hpc
        cases hs
        intro e he
        rcases List.mem_append.1 he with he | he
        · exact keep e he
        · rw [List.mem_singleton.1 he]
          refine ⟨j, { h with pc := if accept then .push else .done }, List.getElem?_set_self (List.getElem?_eq_some_iff.1 hj).1, rfl, ?_⟩
          cases accept with
          | true => exact .inl rfl
          | false => exact .inr (.inr (hn j rfl))
      · cases hs
    · cases hs
  | receive | handler | push | pushing | gor | sent =>
    apply same
    simp only [Gossip.step] at hs
    repeat' split at hs
    all_goals first | (cases hs; done) | (cases hs; rfl)

/-- A new push is at its beginning. -/
theorem step_new {c : Cfg} {s s' : State} {a : Action} (hs : step c s a = some s') {k : Nat} {p' : Pushing} (hp : s.pushes[k]? = none) (hp' : s'.pushes[k]? = some p') : p'.pc = .mark := by
  have same : s'.pushes = s.pushes → p'.pc = .mark := fun h => by rw [h, hp] at hp'; cases hp'
  have set : ∀ (i : Nat) (r : Pushing), s'.pushes = s.pushes.set i r → p'.pc = .mark := fun i r h => by
    have h1 := (List.getElem?_eq_some_iff.1 hp').1
    rw [h, List.length_set] at h1
    rw [List.getElem?_eq_getElem h1] at hp; cases hp
  have grow : ∀ r : Pushing, s'.pushes = s.pushes ++ [r] → r.pc = .mark → p'.pc = .mark := fun r h hr => by
    rw [h] at hp'
    rcases List.mem_append.1 (List.mem_of_getElem? hp') with h1 | h1
    · have h2 : s.pushes.length ≤ k := List.getElem?_eq_none_iff.1 hp
      rw [List.getElem?_append_right h2] at hp'
      rw [List.mem_singleton.1 (List.mem_of_getElem? hp')]; exact hr
    · rw [List.mem_singleton.1 h1]; exact hr
  cases a with
  | receive e d =>
    simp only [step] at hs
    split at hs <;> cases hs
    exact same rfl
  | handler i =>
    simp only [step] at hs
    split at hs
    · cases hs
    split at hs
    · cases hs; exact same rfl
    · cases hs; exact same rfl
    · cases hs; exact same rfl
    · split at hs <;> cases hs
      exact grow _ rfl rfl
    · split at hs
      · split at hs <;> cases hs
        exact same rfl
      · cases hs
    · cases hs
    · cases hs
  | callback i accept =>
    simp only [step] at hs
    split at hs
    · split at hs <;> cases hs
      exact same rfl
    · cases hs
  | push data =>
    simp only [step] at hs
    split at hs <;> cases hs
    exact grow _ rfl rfl
  | pushing i l =>
    simp only [step] at hs
    split at hs
    · cases hs
    split at hs
    · cases hs; exact set _ _ rfl
    · split at hs <;> cases hs
      exact set _ _ rfl
    · split at hs <;> cases hs
      exact set _ _ rfl
    · cases hs
  | gor i j =>
    simp only [step] at hs
    split at hs
    · cases hs
    split at hs
    · cases hs
    split at hs <;> cases hs <;> exact set _ _ rfl
  | sent i j ok =>
    simp only [step] at hs
    split at hs
    · cases hs
    split at hs
    · cases hs
    split at hs
    · split at hs <;> cases hs <;> exact set _ _ rfl
    · cases hs

end Noise.Gossip

namespace Noise.GWire
open Spec Net
variable {ε : Type}

/-- What a step does with gossip on node `n`. -/
theorem part_own {c : Cfg ε} {s s' : State ε} {a : Action ε} (h : step c s a = some s') {n : Nat} {p : Part ε} (hp : s.parts[n]? = some p) : ∃ p', s'.parts[n]? = some p' ∧ p.asks <+: p'.asks ∧ p.errors <+: p'.errors ∧
    (p'.g = p.g ∨ ∃ b, Gossip.step (c.gossip n) p.g b = some p'.g ∧ (∀ k l, b = .pushing k l → a = .own n (.pushing k l)) ∧ (∀ k j ok, b = .sent k j ok → ∃ q ∈ p.asks, q.push = k ∧ q.gor = j) ∧ ∀ i, b = .callback i false → ∃ e, (i, e) ∈ p'.errors) := by
  have hlt := (List.getElem?_eq_some_iff.1 hp).1
  have other : ∀ (m : Nat) (r r' : Part ε) (b : Gossip.Action), s.parts[m]? = some r → s'.parts = s.parts.set m r' → Gossip.step (c.gossip m) r.g b = some r'.g → r'.asks = r.asks → r.errors <+: r'.errors →
      (∀ k l, b = .pushing k l → a = .own m (.pushing k l)) → (∀ k j ok, b = .sent k j ok → ∃ q ∈ r.asks, q.push = k ∧ q.gor = j) → (∀ i, b = .callback i false → ∃ e, (i, e) ∈ r'.errors) → ∃ p', s'.parts[n]? = some p' ∧ p.asks <+: p'.asks ∧ p.errors <+: p'.errors ∧
    (p'.g = p.g ∨ ∃ b, Gossip.step (c.gossip n) p.g b = some p'.g ∧ (∀ k l, b = .pushing k l → a = .own n (.pushing k l)) ∧ (∀ k j ok, b = .sent k j ok → ∃ q ∈ p.asks, q.push = k ∧ q.gor = j) ∧ ∀ i, b = .callback i false → ∃ e, (i, e) ∈ p'.errors) := by
    intro m r r' b hm he hst has her h1 h2 h3
    by_cases hmn : m = n
    · subst hmn
      rw [hp] at hm; cases hm
      exact ⟨r', by rw [he, List.getElem?_set_self hlt], by rw [has], her, .inr ⟨b, hst, h1, h2, h3⟩⟩
    · exact ⟨p, by rw [he, List.getElem?_set_ne hmn]; exact hp, List.prefix_refl _, List.prefix_refl _, .inl rfl⟩
  have same : s'.parts = s.parts → ∃ p', s'.parts[n]? = some p' ∧ p.asks <+: p'.asks ∧ p.errors <+: p'.errors ∧
    (p'.g = p.g ∨ ∃ b, Gossip.step (c.gossip n) p.g b = some p'.g ∧ (∀ k l, b = .pushing k l → a = .own n (.pushing k l)) ∧ (∀ k j ok, b = .sent k j ok → ∃ q ∈ p.asks, q.push = k ∧ q.gor = j) ∧ ∀ i, b = .callback i false → ∃ e, (i, e) ∈ p'.errors) :=
    fun h => ⟨p, by rw [h]; exact hp, List.prefix_refl _, List.prefix_refl _, .inl rfl⟩
  cases a with
  | net b =>
    simp only [step] at h
    split at h
    · cases h
    · obtain ⟨y, h1, h2⟩ := Option.map_eq_some_iff.1 h
      subst h2
      exact same rfl
  | push m data =>
    obtain ⟨x, r, r', hx, hr, -, hf, rfl⟩ := with_some h
    obtain ⟨g, h1, h2⟩ := Option.map_eq_some_iff.1 hf
    subst h2
    exact other m r _ (.push data) hr rfl h1 rfl (List.prefix_refl _) (by simp) (by simp) (by simp)
  | own m b =>
    obtain ⟨x, r, r', hx, hr, -, hf, rfl⟩ := with_some h
    cases b with
    | receive | callback | push | sent => cases hf
    | handler | pushing | gor =>
      obtain ⟨g, h1, h2⟩ := Option.map_eq_some_iff.1 hf
      subst h2
      exact other m r _ _ hr rfl h1 rfl (List.prefix_refl _) (by simp) (by simp) (by simp)
  | callback m i res =>
    obtain ⟨x, r, r', hx, hr, -, hf, rfl⟩ := with_some h
    obtain ⟨g, h1, h2⟩ := Option.map_eq_some_iff.1 hf
    subst h2
    refine other m r _ _ hr rfl h1 rfl ?_ (by simp) (by simp) ?_
    · cases res with
      | none => exact List.prefix_refl _
      | some e => exact List.prefix_append _ _
    · intro i' hi
      cases res with
      | none => simp at hi
      | some e =>
        simp only [Option.isNone_some, Gossip.Action.callback.injEq, and_true] at hi
        exact ⟨e, List.mem_append_right _ (by rw [hi]; exact List.mem_singleton_self _)⟩
  | enter m w =>
    obtain ⟨x, r, r', hx, hr, -, hf, rfl⟩ := with_some h
    split at hf
    · split at hf
      · split at hf
        · cases hf
        · obtain ⟨g, h1, h2⟩ := Option.map_eq_some_iff.1 hf
          subst h2
          exact other m r _ _ hr rfl h1 rfl (List.prefix_refl _) (by simp) (by simp) (by simp)
      · cases hf
    · cases hf
  | leave m w =>
    simp only [step] at h
    split at h
    · split at h
      · split at h
        · split at h
          · obtain ⟨y, h1, h2⟩ := Option.map_eq_some_iff.1 h
            subst h2
            exact same rfl
          · cases h
        · cases h
      · cases h
    · cases h
  | send m k j =>
    simp only [step] at h
    split at h
    · rename_i x r hx hr
      split at h
      · split at h
        · cases h
        · obtain ⟨y, h1, h2⟩ := Option.map_eq_some_iff.1 h
          subst h2
          by_cases hmn : m = n
          · subst hmn
            rw [hp] at hr; cases hr
            exact ⟨_, List.getElem?_set_self hlt, List.prefix_append _ _, List.prefix_refl _, .inl rfl⟩
          · exact ⟨p, by simp only [List.getElem?_set_ne hmn]; exact hp, List.prefix_refl _, List.prefix_refl _, .inl rfl⟩
      · cases h
    · cases h
  | sent m k j =>
    obtain ⟨x, r, r', hx, hr, -, hf, rfl⟩ := with_some h
    split at hf
    · rename_i a0 ha0
      have h0 := List.find?_some ha0
      simp only [decide_eq_true_eq] at h0
      split at hf
      · split at hf
        · obtain ⟨g, h1, h2⟩ := Option.map_eq_some_iff.1 hf
          subst h2
          refine other m r _ _ hr rfl h1 rfl (List.prefix_refl _) (by simp) ?_ (by simp)
          rintro k' j' ok ⟨⟩
          exact ⟨a0, List.mem_of_find?_eq_some ha0, h0⟩
        · cases hf
      · cases hf
    · cases hf

/-- What was counted as sent was asked for. -/
def SentAsk (p : Part ε) : Prop := ∀ e ∈ p.g.sent, ∃ a ∈ p.asks, ∃ (q : Gossip.Pushing) (g : Gossip.Gor), p.g.pushes[a.push]? = some q ∧ q.gors[a.gor]? = some g ∧ e = (g.peer, q.data)

/-- Both, for all nodes. -/
structure Inv3 (s : State ε) : Prop where
  asked : ∀ (n : Nat) (p : Part ε), s.parts[n]? = some p → SentAsk p
  onward : ∀ (n : Nat) (p : Part ε), s.parts[n]? = some p → Gossip.Onward (fun i => ∃ e, (i, e) ∈ p.errors) p.g

theorem Inv3.reach {c : Cfg ε} {N : Nat} {s : State ε} (h : Reachable c N s) : Inv3 s := by
  refine h.ind (P := Inv3) ⟨?_, ?_⟩ ?_
  · intro n p hp e he
    rw [(List.mem_replicate.1 (List.mem_of_getElem? hp)).2] at he; cases he
  · intro n p hp e he
    rw [(List.mem_replicate.1 (List.mem_of_getElem? hp)).2] at he; cases he
  intro s a s' hr ih hs
  have both : ∀ (n : Nat) (p' : Part ε), s'.parts[n]? = some p' → SentAsk p' ∧ Gossip.Onward (fun i => ∃ e, (i, e) ∈ p'.errors) p'.g := by
    intro n p' hp'
    have hlen : s'.parts.length = s.parts.length := by
      rw [(Inv.reach (hr.snoc hs)).same, (Inv.reach hr).same]
      have h1 := nodes_N hr
      have h2 := nodes_N (hr.snoc hs)
      omega
    have hp : s.parts[n]? = some (s.parts[n]'(by rw [← hlen]; exact (List.getElem?_eq_some_iff.1 hp').1)) := List.getElem?_eq_getElem _
    generalize s.parts[n]'_ = p at hp
    obtain ⟨p1, h1, h2, h3, h4⟩ := part_own hs hp
    rw [hp'] at h1; cases h1
    rcases h4 with h4 | ⟨b, h4, h5, h6, h7⟩
    · refine ⟨?_, ?_⟩
      · intro e he
        rw [h4] at he
        obtain ⟨a, g1, q, g, g2, g3, g4⟩ := ih.asked n p hp e he
        exact ⟨a, h2.subset g1, q, g, by rw [h4]; exact g2, g3, g4⟩
      · rw [h4]
        intro e he
        obtain ⟨i, hd, g1, g2, g3⟩ := ih.onward n p hp e he
        exact ⟨i, hd, g1, g2, g3.imp_right (·.imp_right fun ⟨e, he⟩ => ⟨e, h3.subset he⟩)⟩
    · refine ⟨?_, (ih.onward n p hp).step h4 (fun i ⟨e, he⟩ => ⟨e, h3.subset he⟩) h7⟩
      have wf := ((Inv.reach hr).good n p hp).wf
      have keep : ∀ a ∈ p.asks, ∀ (q : Gossip.Pushing) (g : Gossip.Gor), p.g.pushes[a.push]? = some q → q.gors[a.gor]? = some g →
          ∃ (q' : Gossip.Pushing) (g' : Gossip.Gor), p'.g.pushes[a.push]? = some q' ∧ q'.gors[a.gor]? = some g' ∧ (g.peer, q.data) = (g'.peer, q'.data) := by
        intro a _ q g hq hg
        obtain ⟨q', e1, e2, e3⟩ := (Gossip.step_sources h4).keep a.push q hq
        obtain ⟨g', e4, e5⟩ := e3 (wf q (List.mem_of_getElem? hq)) a.gor g hg
        exact ⟨q', g', e1, e4, by rw [e2, e5]⟩
      intro e he
      rcases Gossip.step_sent h4 e he with he | ⟨k, j, q, g, rfl, hq, hg, rfl⟩
      · obtain ⟨a, g1, q, g, g2, g3, rfl⟩ := ih.asked n p hp e he
        obtain ⟨q', g', e1, e2, e3⟩ := keep a g1 q g g2 g3
        exact ⟨a, h2.subset g1, q', g', e1, e2, e3⟩
      · obtain ⟨a, g1, rfl, rfl⟩ := h6 k j true rfl
        obtain ⟨q', g', e1, e2, e3⟩ := keep a g1 q g hq hg
        exact ⟨a, h2.subset g1, q', g', e1, e2, e3⟩
  exact ⟨fun n p hp => (both n p hp).1, fun n p hp => (both n p hp).2⟩

/-- What the application has newly pushed is being pushed. -/
theorem pushed_own {c : Cfg ε} {s s' : State ε} {a : Action ε} (h : step c s a = some s') {n : Nat} {p p' : Part ε} (hp : s.parts[n]? = some p) (hp' : s'.parts[n]? = some p') : ∀ d ∈ p'.pushed, d ∈ p.pushed ∨ ∃ q ∈ p'.g.pushes, q.data = d := by
  have hlt := (List.getElem?_eq_some_iff.1 hp).1
  have same : s'.parts = s.parts → ∀ d ∈ p'.pushed, d ∈ p.pushed ∨ ∃ q ∈ p'.g.pushes, q.data = d := fun h d hd => by
    rw [h, hp] at hp'; cases hp'; exact .inl hd
  have set : ∀ (m : Nat) (r r' : Part ε), s.parts[m]? = some r → s'.parts = s.parts.set m r' → (∀ d ∈ r'.pushed, d ∈ r.pushed ∨ ∃ q ∈ r'.g.pushes, q.data = d) → ∀ d ∈ p'.pushed, d ∈ p.pushed ∨ ∃ q ∈ p'.g.pushes, q.data = d := by
    intro m r r' hm he h1 d hd
    by_cases hmn : m = n
    · subst hmn
      rw [hp] at hm; cases hm
      rw [he, List.getElem?_set_self hlt] at hp'; cases hp'
      exact h1 d hd
    · rw [he, List.getElem?_set_ne hmn, hp] at hp'; cases hp'
      exact .inl hd
  cases a with
  | net b =>
    simp only [step] at h
    split at h
    · cases h
    · obtain ⟨y, h1, h2⟩ := Option.map_eq_some_iff.1 h
      subst h2
      exact same rfl
  | push m data =>
    obtain ⟨x, r, r', hx, hr, -, hf, rfl⟩ := with_some h
    obtain ⟨g, h1, h2⟩ := Option.map_eq_some_iff.1 hf
    subst h2
    refine set m r _ hr rfl ?_
    intro d hd
    rcases List.mem_append.1 hd with hd | hd
    · exact .inl hd
    · rw [List.mem_singleton.1 hd]
      simp only [Gossip.step] at h1
      split at h1 <;> cases h1
      exact .inr ⟨_, List.mem_append_right _ (List.mem_singleton_self _), rfl⟩
  | own m b =>
    obtain ⟨x, r, r', hx, hr, -, hf, rfl⟩ := with_some h
    cases b with
    | receive | callback | push | sent => cases hf
    | handler | pushing | gor =>
      obtain ⟨g, h1, h2⟩ := Option.map_eq_some_iff.1 hf
      subst h2
      exact set m r _ hr rfl fun d hd => .inl hd
  | callback m i res =>
    obtain ⟨x, r, r', hx, hr, -, hf, rfl⟩ := with_some h
    obtain ⟨g, h1, h2⟩ := Option.map_eq_some_iff.1 hf
    subst h2
    exact set m r _ hr rfl fun d hd => .inl hd
  | enter m w =>
    obtain ⟨x, r, r', hx, hr, -, hf, rfl⟩ := with_some h
    split at hf
    · split at hf
      · split at hf
        · cases hf
        · obtain ⟨g, h1, h2⟩ := Option.map_eq_some_iff.1 hf
          subst h2
          exact set m r _ hr rfl fun d hd => .inl hd
      · cases hf
    · cases hf
  | leave m w =>
    simp only [step] at h
    split at h
    · split at h
      · split at h
        · split at h
          · obtain ⟨y, h1, h2⟩ := Option.map_eq_some_iff.1 h
            subst h2
            exact same rfl
          · cases h
        · cases h
      · cases h
    · cases h
  | send m k j =>
    simp only [step] at h
    split at h
    · rename_i x r hx hr
      split at h
      · split at h
        · cases h
        · obtain ⟨y, h1, h2⟩ := Option.map_eq_some_iff.1 h
          subst h2
          exact set m r _ hr rfl fun d hd => .inl hd
      · cases h
    · cases h
  | sent m k j =>
    obtain ⟨x, r, r', hx, hr, -, hf, rfl⟩ := with_some h
    split at hf
    · split at hf
      · split at hf
        · obtain ⟨g, h1, h2⟩ := Option.map_eq_some_iff.1 hf
          subst h2
          exact set m r _ hr rfl fun d hd => .inl hd
        · cases hf
      · cases hf
    · cases hf

variable {c : Cfg ε} {N : Nat} {σ : Nat → State ε} {α : Nat → Option (Action ε)} {β : Nat → Option (Net.Action ε)} {o i : End}

theorem pushes_step {s s' : State ε} {a : Action ε} (h : step c s a = some s') {n : Nat} {d : Bytes} (hp : Pushes s n d) : Pushes s' n d := by
  obtain ⟨p, q, h1, h2, rfl⟩ := hp
  obtain ⟨p', h3, -, -, h4 | ⟨b, h4, -⟩⟩ := part_own h h1
  · exact ⟨p', q, h3, by rw [h4]; exact h2, rfl⟩
  · obtain ⟨q', g1, g2⟩ := Gossip.step_has h4 ⟨q, h2, rfl⟩
    exact ⟨p', q', h3, g1, g2⟩

theorem pushes_later (hx : Execution (step c) σ α) {t t' n : Nat} {d : Bytes} (hle : t ≤ t') (h : Pushes (σ t) n d) : Pushes (σ t') n d := by
  refine Fair.stays (P := fun t => Pushes (σ t) n d) ?_ hle h
  intro t h
  rcases hx t with ⟨-, e⟩ | ⟨a, -, hs⟩
  · rw [e]; exact h
  · exact pushes_step hs h

/-- What the application has pushed is being pushed or has been. -/
theorem pushed_pushes {s : State ε} (hr : Reachable c N s) : ∀ (n : Nat) (p : Part ε), s.parts[n]? = some p → ∀ d ∈ p.pushed, Pushes s n d := by
  refine hr.ind (P := fun s => ∀ (n : Nat) (p : Part ε), s.parts[n]? = some p → ∀ d ∈ p.pushed, Pushes s n d) ?_ ?_
  · intro n p hp d hd
    rw [(List.mem_replicate.1 (List.mem_of_getElem? hp)).2] at hd; cases hd
  intro s a s' hr ih hs n p' hp' d hd
  have hlen : s'.parts.length = s.parts.length := by
    rw [(Inv.reach (hr.snoc hs)).same, (Inv.reach hr).same]
    have h1 := nodes_N hr
    have h2 := nodes_N (hr.snoc hs)
    omega
  have hp : s.parts[n]? = some (s.parts[n]'(by rw [← hlen]; exact (List.getElem?_eq_some_iff.1 hp').1)) := List.getElem?_eq_getElem _
  rcases pushed_own hs hp hp' d hd with h | ⟨q, h1, h2⟩
  · exact pushes_step hs (ih n _ hp d h)
  · exact ⟨p', q, hp', h1, h2⟩

/-- What came from the owner of a key was pushed there. -/
theorem honest {s : State ε} (hr : Reachable c N s) (hg : OnlyGossip c s) (hk : ∀ a b, a < N → b < N → c.key a = c.key b → a = b) {n m : Nat} (hm : m < N) {sender : ID} {d : Bytes} (h : CameFrom c.op s n sender d) (hs : sender.id = c.key m) : Pushes s m d := by
  obtain ⟨B, j, y, hB, hy, rfl, hmem⟩ := h
  have I := Inv.reach hr
  rcases C132_origin I.net hB hmem with hf | ⟨a, j', A, hj, hA, hans | ⟨k, dd, -, hkk, hsent, hz, -⟩⟩ | ⟨a, j', A, -, hA, hans⟩
  · rw [hg.closed] at hf; cases hf
  · exact (hg.replies a j' A d hA hans).elim
  · have hkind := hz.1 rfl
    simp only at hkind
    have hlt : a < s.parts.length := by rw [I.same]; exact (List.getElem?_eq_some_iff.1 hA).1
    have hp : s.parts[a]? = some s.parts[a] := List.getElem?_eq_getElem hlt
    obtain ⟨q, hq1, hq2⟩ := hg.sends a k A _ dd d hA hp hkk hkind
    obtain ⟨pu, gg, x, d', h1, h2, h3, h4, h5, -⟩ := (I.good a _ hp).asks q hq1
    rw [hA] at h3; cases h3
    rw [hq2, hkk] at h4; cases h4
    rw [hkind] at h5
    simp only [Node.Kind.send.injEq] at h5
    obtain ⟨w, hw, hwo, hwi⟩ := hj
    have v := Net.Inv.reach I.net
    -- whose key it is
    have hin : y.c.side = .inbound := by
      obtain ⟨kk, hkw⟩ := List.getElem?_of_mem hw
      obtain ⟨-, z, hz1, hz2⟩ := v.sides kk w hkw
      rw [hwi, conn_join hB, hy] at hz1; cases hz1
      exact hz2
    have hid : y.c.id.isSome := by
      rw [(C131_attribution (v.nodes n B hB)).1 j y hy] at hmem
      obtain ⟨e, he, hm'⟩ := List.mem_filterMap.1 hmem
      cases e with
      | delivered m' i b => exact ((Cl.CbInv.reach (Node.Reaches.reach (v.nodes n B hB) j y hy)).deliv m' i b he).2.2.2 hin
      | _ => cases hm'
    obtain ⟨id, hid⟩ := Option.isSome_iff_exists.1 hid
    have hkey := hg.peers w.out w.inn y id ⟨w, hw, rfl, rfl⟩ (by rw [hwi, conn_join hB]; exact hy) hid
    rw [hid] at hs
    simp only [Option.getD_some] at hs
    have haN : a < N := by
      have := nodes_N hr
      have := (List.getElem?_eq_some_iff.1 hA).1
      omega
    rw [hwo] at hkey
    have : a = m := hk a m haN hm (hkey.symm.trans hs)
    subst this
    exact ⟨_, pu, hp, List.mem_of_getElem? h1, (bytes_inj h5).symm⟩
  · exact (hg.replies a j' A d hA hans).elim

/-- What an application has is pushed on. -/
theorem told_pushes (hx : Execution (step c) σ α) (h0 : Reachable c N (σ 0)) (r : Net.FairRun c.node N (fun t => (σ t).net) β) (u : Unbroken (fun t => (σ t).net) β o i) (hN : 0 < (c.node i.node).numWorkers)
    (hh : c.handler < (c.node i.node).numHandlers) (hok : ∀ t p, (σ t).parts[i.node]? = some p → p.errors = []) (hg : ∀ t, OnlyGossip c (σ t)) (hk : ∀ a b, a < N → b < N → c.key a = c.key b → a = b)
    {t : Nat} {d : Bytes} (h : Told c (σ t) i.node d) : ∃ t', Pushes (σ t') i.node d := by
  have hr : ∀ t, Reachable c N (σ t) := fun t => h0.trans (Fair.reach hx t)
  obtain ⟨t0, hl⟩ := u.linked
  have hiN : i.node < N := (u.inn r hl).exist
  obtain ⟨p, hp, ⟨sender, h⟩ | h | ⟨sender, h1, h2⟩⟩ := h
  · obtain ⟨j, y, hj, hd, hpc | ⟨q, h1, h2⟩ | ⟨e, he⟩⟩ := (Inv3.reach (hr t)).onward _ p hp _ h
    · obtain ⟨X, hX⟩ := r.has hiN t
      have w := (Inv2.reach (hr t)).work _ X p hX hp
      obtain ⟨k, hk⟩ : ∃ k, (k, j) ∈ p.runs := by
        have : j ∈ p.runs.map Prod.snd := by rw [w.idx]; exact List.mem_range.2 (List.getElem?_eq_some_iff.1 hj).1
        obtain ⟨⟨k, j'⟩, h1, rfl⟩ := List.mem_map.1 this
        exact ⟨k, h1⟩
      obtain ⟨q, it, y', hq, hit, -⟩ := w.item k j hk
      obtain ⟨t1, X1, q1, h1, hX1, hq1, hf⟩ := u.finishes r hN hX hq hit hh
      have key : ∃ p1 : Part ε, (σ t1).parts[i.node]? = some p1 ∧ (k, j) ∈ p1.runs ∧ (p1.g.handlers[j]? = some y ∨ ∃ q ∈ p1.g.pushes, q.data = d) := by
        refine Fair.stays (P := fun t => ∃ p1 : Part ε, (σ t).parts[i.node]? = some p1 ∧ (k, j) ∈ p1.runs ∧ (p1.g.handlers[j]? = some y ∨ ∃ q ∈ p1.g.pushes, q.data = d)) ?_ h1 ⟨p, hp, hk, .inl hj⟩
        rintro t ⟨p, hp, hk, hj⟩
        rcases hx t with ⟨-, e⟩ | ⟨a, -, hs⟩
        · rw [e]; exact ⟨p, hp, hk, hj⟩
        · obtain ⟨p', hp', hrun⟩ := runs_step hs hp
          refine ⟨p', hp', hrun.subset hk, ?_⟩
          obtain ⟨p2, g1, -, -, g2⟩ := part_own hs hp
          rw [hp'] at g1; cases g1
          rcases g2 with g2 | ⟨b, g2, -⟩
          · rw [g2]; exact hj
          · rcases hj with hj | hj
            · rcases Gossip.step_topush g2 hj hpc with g3 | g3
              · exact .inl g3
              · rw [hd] at g3; exact .inr g3
            · exact .inr (Gossip.step_has g2 hj)
      obtain ⟨p1, hp1, hk1, hj1 | ⟨q, e1, e2⟩⟩ := key
      · have w1 := (Inv2.reach (hr t1)).work _ X1 p1 hX1 hp1
        obtain ⟨it1, g1, ⟨g2, -⟩ | ⟨j', y1, g2, g3, g4, -⟩⟩ := w1.fin q1 k none hq1 hf
        · obtain ⟨q2, it2, y2, e1, e2, -, e3⟩ := w1.item k j hk1
          rw [hq1] at e1; cases e1
          rw [g1] at e2; cases e2
          rw [g2] at e3; cases e3
        · have : j' = j := by
            have hnd := w1.once
            have := (List.nodup_map_iff_inj_on (List.Nodup.of_map _ hnd)).1 hnd _ g2 _ hk1 rfl
            simpa using this
          subst this
          rw [hj1] at g3; cases g3
          rw [hpc] at g4; cases g4
      · exact ⟨t1, p1, q, hp1, e1, e2⟩
    · exact ⟨t, p, q, hp, h1, h2⟩
    · rw [hok t p hp] at he; cases he
  · exact ⟨t, pushed_pushes (hr t) _ p hp d h⟩
  · exact ⟨t, honest (hr t) (hg t) hk hiN h2 h1⟩

/-- What the pushes of this data have read in the table for a key. -/
def Aimed (key : PublicKey) (addr : Text) (d : Bytes) (p : Part ε) : Prop := ∀ (k : Nat) (q : Gossip.Pushing), p.g.pushes[k]? = some q → q.data = d →
  (q.pc = .mark ∨ q.pc = .entries) ∨ (∃ g ∈ q.gors, g.peer.id = key ∧ g.peer.address = addr) ∧ ∀ g ∈ q.gors, g.peer.id = key → g.peer.address = addr

theorem aimed_later {T n m : Nat} {addr : Text} {d : Bytes} (hx : Execution (step c) σ α) (h0 : Reachable c N (σ 0)) (htab : ∀ t k l, T ≤ t → Reads σ α n k t l → ∃ peer ∈ l, peer.id = c.key m ∧ peer.address = addr) (hfresh : ¬ Pushes (σ T) n d)
    {t : Nat} (hle : T ≤ t) : ∀ p, (σ t).parts[n]? = some p → Aimed (c.key m) addr d p := by
  have hr : ∀ t, Reachable c N (σ t) := fun t => h0.trans (Fair.reach hx t)
  induction hle with
  | refl => exact fun p hp k q hq hd => (hfresh ⟨p, q, hp, List.mem_of_getElem? hq, hd⟩).elim
  | @step t hle ih =>
    intro p' hp' k q' hq' hd'
    rcases hx t with ⟨-, e⟩ | ⟨a, ha, hs⟩
    · rw [e] at hp'; exact ih p' hp' k q' hq' hd'
    have hlen : (σ (t + 1)).parts.length = (σ t).parts.length := by
      rw [(Inv.reach (hr (t + 1))).same, (Inv.reach (hr t)).same, nodes_N (hr t), nodes_N (hr (t + 1))]
    have hp : (σ t).parts[n]? = some ((σ t).parts[n]'(by rw [← hlen]; exact (List.getElem?_eq_some_iff.1 hp').1)) := List.getElem?_eq_getElem _
    generalize (σ t).parts[n]'_ = p at hp
    obtain ⟨p1, h1, -, -, h4⟩ := part_own hs hp
    rw [hp'] at h1; cases h1
    rcases h4 with h4 | ⟨b, h4, h5, -, -⟩
    · rw [h4] at hq'
      exact ih p hp k q' hq' hd'
    cases hq : p.g.pushes[k]? with
    | none => exact .inl (.inl (Gossip.step_new h4 hq hq'))
    | some q =>
      have wf := ((Inv.reach (hr t)).good n p hp).wf q (List.mem_of_getElem? hq)
      obtain ⟨q1, e1, e2, -⟩ := (Gossip.step_sources h4).keep k q hq
      rw [hq'] at e1; cases e1
      have old := ih p hp k q hq (e2.symm.trans hd')
      obtain ⟨q1, e3, e4⟩ := Gossip.step_push h4 hq
      rw [hq'] at e3; cases e3
      cases e4 with
      | same h => rw [h]; exact old
      | mark h h' => rw [h']; exact .inl (.inr rfl)
      | entries h h' hn =>
        rcases Gossip.step_entries h4 hq h (wf.2.1 (.inr h)) hq' with h2 | ⟨l, h2, h3⟩
        · rw [h2]; exact old
        · have hb := h5 k l h2
          subst hb
          obtain ⟨peer, f1, f2, f3⟩ := htab t k l hle ⟨ha, p, q, hp, hq, h⟩
          have hnd : (l.map ID.id).Nodup := by
            rw [h2] at h4
            simp only [Gossip.step, hq, h] at h4
            split at h4
            · assumption
            · cases h4
          rw [h3]
          refine .inr ⟨⟨⟨peer, .check⟩, List.mem_map.2 ⟨peer, f1, rfl⟩, f2, f3⟩, ?_⟩
          intro g hg hk
          obtain ⟨e, g1, rfl⟩ := List.mem_map.1 hg
          have : e = peer := (List.nodup_map_iff_inj_on (List.Nodup.of_map _ hnd)).1 hnd _ g1 _ f1 (hk.trans f2.symm)
          rw [this]; exact f3
      | done h h' => rw [h']; exact old.imp (fun h1 => by rw [h] at h1; rcases h1 with h1 | h1 <;> cases h1) id
      | gor j g pc hg h =>
        rw [h]
        refine old.imp id ?_
        rintro ⟨⟨g1, f1, f2, f3⟩, f4⟩
        have hj := (List.getElem?_eq_some_iff.1 hg).1
        refine ⟨?_, ?_⟩
        · obtain ⟨i, hi⟩ := List.getElem?_of_mem f1
          by_cases hij : j = i
          · subst hij
            rw [hg] at hi; cases hi
            exact ⟨{ g with pc := pc }, List.mem_of_getElem? (List.getElem?_set_self hj), f2, f3⟩
          · exact ⟨g1, List.mem_of_getElem? (i := i) (by rw [List.getElem?_set_ne hij]; exact hi), f2, f3⟩
        · intro g2 hg2 hk
          rcases List.mem_or_eq_of_mem_set hg2 with h | rfl
          · exact f4 g2 h hk
          · exact f4 g (List.mem_of_getElem? hg) hk

/-- One hop. -/
theorem hop {T : Nat} {addr : Text} {d : Bytes} (r : Net.FairRun c.node N (fun t => (σ t).net) β) (v : Informs c N σ α β T o i addr) (hg : ∀ t, OnlyGossip c (σ t)) (hk : ∀ a b, a < N → b < N → c.key a = c.key b → a = b)
    (hfresh : ¬ Pushes (σ T) o.node d) {t : Nat} (h : Pushes (σ t) o.node d) : ∃ t', Told c (σ t') i.node d ∨ Pushes (σ t') i.node d := by
  have hx := v.runs.exec
  have hr := run_reach v.runs
  obtain ⟨t0, hl⟩ := v.link.linked
  have hn : o.node < N := (v.link.out r hl).exist
  have hm : i.node < N := (v.link.inn r hl).exist
  have hle : T ≤ t := by
    by_contra hlt
    exact hfresh (pushes_later hx (by omega) h)
  have aim := fun {t} (hle : T ≤ t) => aimed_later hx (hr 0) v.table hfresh hle
  -- the push has read the table
  have run : ∃ (t1 : Nat) (p : Part ε) (k : Nat) (q : Gossip.Pushing), T ≤ t1 ∧ (σ t1).parts[o.node]? = some p ∧ p.g.pushes[k]? = some q ∧ q.data = d ∧ ¬ (q.pc = .mark ∨ q.pc = .entries) := by
    obtain ⟨p, q, hp, hq, rfl⟩ := h
    obtain ⟨k, hq⟩ := List.getElem?_of_mem hq
    by_cases hpc : q.pc = .mark ∨ q.pc = .entries
    · obtain ⟨t1, q1, h1, ⟨p1, h2, h3⟩, h4⟩ := push_starts v.runs hn ⟨p, hp, hq⟩ hpc (fun t q ⟨p, h1, h2⟩ h3 => (((Inv.reach (hr t)).good _ p h1).wf q (List.mem_of_getElem? h2)).2.1 h3)
      refine ⟨t1, p1, k, q1, by omega, h2, h3, ?_, by rw [h4]; simp⟩
      have : ∃ q', PushIs σ o.node k t1 q' ∧ q'.data = q.data := by
        refine Fair.stays (P := fun t => ∃ q', PushIs σ o.node k t q' ∧ q'.data = q.data) ?_ h1 ⟨q, ⟨p, hp, hq⟩, rfl⟩
        rintro t ⟨q', ⟨p', e1, e2⟩, e3⟩
        rcases hx t with ⟨-, e⟩ | ⟨a, -, hs⟩
        · exact ⟨q', ⟨p', by rw [e]; exact e1, e2⟩, e3⟩
        · obtain ⟨p2, f1, -, -, f2 | ⟨b, f2, -⟩⟩ := part_own hs e1
          · exact ⟨q', ⟨p2, f1, by rw [f2]; exact e2⟩, e3⟩
          · obtain ⟨q2, g1, g2, -⟩ := (Gossip.step_sources f2).keep k q' e2
            exact ⟨q2, ⟨p2, f1, g1⟩, g2.trans e3⟩
      obtain ⟨q', ⟨p', e1, e2⟩, e3⟩ := this
      rw [h2] at e1; cases e1
      rw [h3] at e2; cases e2
      exact e3
    · exact ⟨t, p, k, q, hle, hp, hq, rfl, hpc⟩
  obtain ⟨t1, p1, k, q1, hle1, hp1, hq1, rfl, hnpc⟩ := run
  obtain ⟨⟨g, hg1, hid, hga⟩, -⟩ := (aim hle1 p1 hp1 k q1 hq1 rfl).resolve_left hnpc
  obtain ⟨j, hj⟩ := List.getElem?_of_mem hg1
  obtain ⟨x, hxT, hxa⟩ := v.conn
  obtain ⟨L, hL, hin⟩ := v.few
  -- what it has called `Send` for is reported
  have asked : ∀ (t4 t3 : Nat) (p4 p3 : Part ε) (a : Ask) (q : Gossip.Pushing) (g : Gossip.Gor), T ≤ t4 → T ≤ t3 → (σ t4).parts[o.node]? = some p4 → (σ t3).parts[o.node]? = some p3 → a ∈ p3.asks → p4.g.pushes[a.push]? = some q → q.gors[a.gor]? = some g → q.data = q1.data →
      g.peer.address = addr → ∃ t', Told c (σ t') i.node q1.data := by
    intro t4 t3 p4 p3 a q g hle4 hle3 hp4 hp3 ha hq hgo hd had
    rw [← hd]
    refine ask_reported c N σ α β o i v.runs r v.link v.workers.1 v.workers.2 v.handler L hL hin v.attempts T a.push a.gor ?_ x hxT (fun t p b h1 h2 _ => v.patient t p b h1 h2) t4 p4 q g hp4 hq hgo (had.trans hxa.symm) t3 p3 hle3 hp3 ⟨a, ha, rfl, rfl⟩
    rintro ⟨p, h1, b, h2, h3, h4⟩
    obtain ⟨q', g', -, -, f1, f2, -⟩ := ((Inv.reach (hr T)).good _ _ h1).asks b h2
    have : Pushes (σ T) o.node q'.data := ⟨p, q', h1, List.mem_of_getElem? f1, rfl⟩
    -- the push at `T` is this one
    have keep : ∃ (p' : Part ε) (q2 : Gossip.Pushing), (σ t4).parts[o.node]? = some p' ∧ p'.g.pushes[b.push]? = some q2 ∧ q2.data = q'.data := by
      refine Fair.stays (P := fun t => ∃ (p' : Part ε) (q2 : Gossip.Pushing), (σ t).parts[o.node]? = some p' ∧ p'.g.pushes[b.push]? = some q2 ∧ q2.data = q'.data) ?_ hle4 ⟨p, q', h1, f1, rfl⟩
      rintro t ⟨p', q2, e1, e2, e3⟩
      rcases hx t with ⟨-, e⟩ | ⟨a, -, hs⟩
      · exact ⟨p', q2, by rw [e]; exact e1, e2, e3⟩
      · obtain ⟨p2, f1, -, -, f2 | ⟨b, f2, -⟩⟩ := part_own hs e1
        · exact ⟨p2, q2, f1, by rw [f2]; exact e2, e3⟩
        · obtain ⟨q3, g1, g2, -⟩ := (Gossip.step_sources f2).keep _ q2 e2
          exact ⟨p2, q3, f1, g1, g2.trans e3⟩
    obtain ⟨p', q2, e1, e2, e3⟩ := keep
    rw [hp4] at e1; cases e1
    rw [h3, hq] at e2; cases e2
    rw [hd] at e3
    exact hfresh (e3 ▸ this)
  obtain ⟨t3, p3, hle3, hp3, hm3⟩ := gor_asks v.runs hn (t := t1) ⟨p1, q1, g, hp1, hq1, hj, rfl, rfl⟩
  rcases hm3 with hc | ⟨a, ha, hak, haj⟩
  · have good := (Inv.reach (hr t3)).good _ _ hp3
    rcases (Gossip.Marks.reach ((Inv2.reach (hr t3)).gossip _ _ hp3)).why hc with ⟨h, h1, h2, h3⟩ | h | ⟨e, h1, h2, h3⟩
    · have := (good.handlers h h1).1
      rw [h3] at this
      exact ⟨t3, .inr (honest (hr t3) (hg t3) hk hm this (h2.trans hid))⟩
    · have hself : o.node = i.node := hk _ _ hn hm (h.symm.trans hid)
      refine ⟨t1, .inr ⟨p1, q1, by rw [← hself]; exact hp1, List.mem_of_getElem? hq1, rfl⟩⟩
    · obtain ⟨a, ha, q, g', e1, e2, e3⟩ := (Inv3.reach (hr t3)).asked _ _ hp3 e h1
      subst e3
      simp only at h2 h3
      have hle' : T ≤ t3 := by omega
      have wf := good.wf q (List.mem_of_getElem? e1)
      obtain ⟨-, hall⟩ := (aim hle' p3 hp3 _ q e1 h3).resolve_left (fun h => by rw [wf.2.1 h] at e2; cases e2)
      obtain ⟨t', h⟩ := asked t3 t3 p3 p3 a q g' hle' hle' hp3 hp3 ha e1 e2 h3 (hall g' (List.mem_of_getElem? e2) (h2.trans hid))
      exact ⟨t', .inl h⟩
  · obtain ⟨t', h⟩ := asked t1 t3 p1 p3 a q1 g hle1 (by omega) hp1 hp3 ha (by rw [hak]; exact hq1) (by rw [haj]; exact hj) rfl hga
    exact ⟨t', .inl h⟩

end Noise.GWire
