import Verif.Proofs.GossipPush
/-! # A `Push` waits for its calls of `SendMessage` -/
namespace Noise.Gossip

/-- A call of `Handle` that pushes goes on when the push has returned. -/
theorem step_pushing {c : Cfg} {s s' : State} {a : Action} (hs : step c s a = some s') {i k : Nat} {h : Handler} (hi : s.handlers[i]? = some h) (hk : h.pc = .pushing k) :
    ∃ h', s'.handlers[i]? = some h' ∧ (h'.pc = .pushing k ∨ ∃ q, s.pushes[k]? = some q ∧ q.pc = .done) := by
  have hlt := (List.getElem?_eq_some_iff.1 hi).1
  have same : s'.handlers = s.handlers → ∃ h', s'.handlers[i]? = some h' ∧ (h'.pc = .pushing k ∨ ∃ q, s.pushes[k]? = some q ∧ q.pc = .done) := fun h => ⟨_, by rw [h]; exact hi, .inl hk⟩
  have set : ∀ (j : Nat) (h1 h2 : Handler), s.handlers[j]? = some h1 → h1.pc ≠ .pushing k → s'.handlers = s.handlers.set j h2 → ∃ h', s'.handlers[i]? = some h' ∧ (h'.pc = .pushing k ∨ ∃ q, s.pushes[k]? = some q ∧ q.pc = .done) := by
    intro j h1 h2 hj hne he
    have hji : j ≠ i := by
      rintro rfl
      rw [hi] at hj; cases hj
      exact hne hk
    exact ⟨h, by rw [he, List.getElem?_set_ne hji]; exact hi, .inl hk⟩
  cases a with
  | receive e d =>
    simp only [step] at hs
    split at hs <;> cases hs
    exact ⟨h, by simp only [List.getElem?_append_left hlt]; exact hi, .inl hk⟩
  | handler j =>
    simp only [step] at hs
    split at hs
    · cases hs
    rename_i h1 hj
    split at hs
    · rename_i hpc; cases hs; exact set j h1 _ hj (by rw [hpc]; simp) rfl
    · rename_i hpc; cases hs; exact set j h1 _ hj (by rw [hpc]; simp) rfl
    · rename_i hpc; cases hs; exact set j h1 _ hj (by rw [hpc]; simp) rfl
    · rename_i hpc
      split at hs <;> cases hs
      exact set j h1 _ hj (by rw [hpc]; simp) rfl
    · rename_i k' hpc
      split at hs
      · rename_i q hq
        split at hs <;> cases hs
        rename_i hd
        by_cases hkk : k' = k
        · subst hkk
          by_cases hji : j = i
          · subst hji
            exact ⟨_, List.getElem?_set_self hlt, .inr ⟨q, hq, hd⟩⟩
          · exact ⟨h, by simp only [State.setH, List.getElem?_set_ne hji]; exact hi, .inl hk⟩
        · exact set j h1 _ hj (by rw [hpc]; simpa using hkk) rfl
      · cases hs
    · cases hs
    · cases hs
  | callback j accept =>
    simp only [step] at hs
    split at hs
    · rename_i h1 hj
      split at hs <;> cases hs
      rename_i hpc
      exact set j h1 _ hj (by rw [hpc]; simp) rfl
    · cases hs
  | push data =>
    simp only [step] at hs
    split at hs <;> cases hs
    exact same rfl
  | pushing j l =>
    simp only [step] at hs
    split at hs
    · cases hs
    split at hs
    · cases hs; exact same rfl
    · split at hs <;> cases hs; exact same rfl
    · split at hs <;> cases hs; exact same rfl
    · cases hs
  | gor j l =>
    simp only [step] at hs
    split at hs
    · cases hs
    split at hs
    · cases hs
    split at hs
    · cases hs; exact same rfl
    · cases hs; exact same rfl
    · cases hs
    · cases hs
  | sent j l ok =>
    simp only [step] at hs
    split at hs
    · cases hs
    split at hs
    · cases hs
    split at hs
    · split at hs <;> cases hs <;> exact same rfl
    · cases hs

end Noise.Gossip

namespace Noise.GWire
open Spec
variable {ε : Type}

/-- Calls of `Handle` are not forgotten. -/
theorem runs_step {c : Cfg ε} {s s' : State ε} {a : Action ε} (h : step c s a = some s') {n : Nat} {p : Part ε} (hp : s.parts[n]? = some p) : ∃ p', s'.parts[n]? = some p' ∧ p.runs <+: p'.runs := by
  have other : ∀ (m : Nat) (r r' : Part ε), s.parts[m]? = some r → s'.parts = s.parts.set m r' → r.runs <+: r'.runs → ∃ p', s'.parts[n]? = some p' ∧ p.runs <+: p'.runs := by
    intro m r r' hm he hr
    by_cases hmn : n = m
    · subst hmn
      rw [hp] at hm; cases hm
      exact ⟨r', by rw [he]; exact (parts_set hp).2 (.inl ⟨rfl, rfl⟩), hr⟩
    · exact ⟨p, by rw [he]; exact (parts_set hm).2 (.inr ⟨hmn, hp⟩), List.prefix_refl _⟩
  cases a with
  | net b =>
    simp only [step] at h
    split at h
    · cases h
    · obtain ⟨y, h1, h2⟩ := Option.map_eq_some_iff.1 h
      subst h2
      exact ⟨p, hp, List.prefix_refl _⟩
  | push m data =>
    obtain ⟨x, r, r', hx, hr, -, hf, rfl⟩ := with_some h
    obtain ⟨g, h1, h2⟩ := Option.map_eq_some_iff.1 hf
    subst h2
    exact other m r _ hr rfl (List.prefix_refl _)
  | own m b =>
    obtain ⟨x, r, r', hx, hr, -, hf, rfl⟩ := with_some h
    cases b with
    | receive | callback | push | sent => cases hf
    | handler | pushing | gor =>
      obtain ⟨g, h1, h2⟩ := Option.map_eq_some_iff.1 hf
      subst h2
      exact other m r _ hr rfl (List.prefix_refl _)
  | callback m i res =>
    obtain ⟨x, r, r', hx, hr, -, hf, rfl⟩ := with_some h
    obtain ⟨g, h1, h2⟩ := Option.map_eq_some_iff.1 hf
    subst h2
    exact other m r _ hr rfl (List.prefix_refl _)
  | enter m w =>
    obtain ⟨x, r, r', hx, hr, -, hf, rfl⟩ := with_some h
    split at hf
    · split at hf
      · split at hf
        · cases hf
        · obtain ⟨g, h1, h2⟩ := Option.map_eq_some_iff.1 hf
          subst h2
          exact other m r _ hr rfl (List.prefix_append _ _)
      · cases hf
    · cases hf
  | leave m w =>
    simp only [step] at h
    split at h
    · split at h
      · split at h
        · split at h
          · obtain ⟨y, h1, h2⟩ := Option.map_eq_some_iff.1 h
            subst h2
            exact ⟨p, hp, List.prefix_refl _⟩
          · cases h
        · cases h
      · cases h
    · cases h
  | send m k j =>
    simp only [step] at h
    split at h
    · rename_i x r hx hr
      split at h
      · split at h
        · cases h
        · obtain ⟨y, h1, h2⟩ := Option.map_eq_some_iff.1 h
          subst h2
          exact other m r _ hr rfl (List.prefix_refl _)
      · cases h
    · cases h
  | sent m k j =>
    obtain ⟨x, r, r', hx, hr, -, hf, rfl⟩ := with_some h
    split at hf
    · split at hf
      · split at hf
        · obtain ⟨g, h1, h2⟩ := Option.map_eq_some_iff.1 hf
          subst h2
          exact other m r _ hr rfl (List.prefix_refl _)
        · cases hf
      · cases hf
    · cases hf

/-- A goroutine that has gone on after `SendMessage` has seen it return. -/
structure Waits (s : State ε) (n : Nat) (p : Part ε) : Prop where
  uniq : ∀ a ∈ p.asks, ∀ b ∈ p.asks, a.push = b.push → a.gor = b.gor → a = b
  past : ∀ a ∈ p.asks, ∀ (q : Gossip.Pushing) (g : Gossip.Gor), p.g.pushes[a.push]? = some q → q.gors[a.gor]? = some g → g.pc = .send ∨ ∃ x : Node.State ε, s.net.nodes[n]? = some x ∧ ∃ d r, x.calls[a.call]? = some d ∧ d.pc = .returned r

theorem Waits.later {s s' : State ε} (h : Later s s') {n : Nat} {p : Part ε} (g : Waits s n p) : Waits s' n p :=
  ⟨g.uniq, fun a ha q y h1 h2 => (g.past a ha q y h1 h2).imp id fun ⟨x, h3, d, r, h4, h5⟩ => by
    obtain ⟨x', h6, h7⟩ := h.net.nodes n x h3
    obtain ⟨d', h8, -, -, h9⟩ := h7.calls a.call d h4
    exact ⟨x', h6, d', r, h8, h9.returned _ h5⟩⟩

theorem Waits.reach {c : Cfg ε} {N : Nat} {s : State ε} (h : Reachable c N s) : ∀ (n : Nat) (p : Part ε), s.parts[n]? = some p → Waits s n p := by
  refine h.ind (P := fun s => ∀ (n : Nat) (p : Part ε), s.parts[n]? = some p → Waits s n p) ?_ ?_
  · intro n p hp
    have := List.mem_of_getElem? hp
    rw [(List.mem_replicate.1 this).2]
    constructor <;> simp [Part.new]
  intro s a s' hr ih hs
  have i := Inv.reach hr
  have v := Net.Inv.reach i.net
  have he := step_eff hs
  have hl := he.later v
  cases he with
  | net b h1 h2 => exact fun n p hp => (ih n p (by rw [← h2]; exact hp)).later hl
  | gossip n x p p' b hx hp hn hps hg ha hpu hpush hrecv hsent =>
    intro m r hrr
    rw [hps] at hrr
    rcases (parts_set hp).1 hrr with ⟨rfl, rfl⟩ | ⟨-, hrr⟩
    swap
    · exact (ih m r hrr).later hl
    have w := ih m p hp
    refine ⟨by rw [ha]; exact w.uniq, fun e he q' g' h1 h2 => ?_⟩
    rw [ha] at he
    obtain ⟨q, g, -, -, h3, h4, -⟩ := (i.good m p hp).asks e he
    have old := w.past e he q g h3 h4
    have hwf := (i.good m p hp).wf q (List.mem_of_getElem? h3)
    obtain ⟨q1, h5, h6⟩ := Gossip.step_push hg h3
    rw [h1] at h5; cases h5
    rw [hn]
    cases h6 with
    | same h => rw [h, h4] at h2; cases h2; exact old
    | mark h h' => rw [h'] at h2; simp only at h2; rw [h4] at h2; cases h2; exact old
    | entries h h' => rw [hwf.2.1 (.inr h)] at h4; cases h4
    | done h h' => rw [h'] at h2; simp only at h2; rw [h4] at h2; cases h2; exact old
    | gor j g0 pc hj h hlt hb =>
      by_cases hje : j = e.gor
      · subst hje
        rw [h4] at hj; cases hj
        rcases old with old | old
        · obtain ⟨ok, rfl⟩ := hb old
          obtain ⟨b, hb1, hb2, hb3, d, r0, hd, hret, -⟩ := hsent _ _ ok rfl
          have := w.uniq b hb1 e he hb2 hb3
          subst this
          exact .inr ⟨x, hx, d, r0, hd, hret⟩
        · exact .inr old
      · rw [h] at h2
        simp only [List.getElem?_set_ne hje] at h2
        rw [h4] at h2; cases h2; exact old
  | send n x p k j q gg hx hp hq hgg hpc hno hn hps =>
    intro m r hrr
    rw [hps] at hrr
    rcases (parts_set hp).1 hrr with ⟨rfl, rfl⟩ | ⟨-, hrr⟩
    swap
    · exact (ih m r hrr).later hl
    have w := (ih m p hp).later hl
    constructor
    · intro a ha b hb h1 h2
      rcases List.mem_append.1 ha with ha | ha <;> rcases List.mem_append.1 hb with hb | hb
      · exact w.uniq a ha b hb h1 h2
      · rw [List.mem_singleton.1 hb] at h1 h2; exact (hno a ha ⟨h1, h2⟩).elim
      · rw [List.mem_singleton.1 ha] at h1 h2; exact (hno b hb ⟨h1.symm, h2.symm⟩).elim
      · rw [List.mem_singleton.1 ha, List.mem_singleton.1 hb]
    · intro a ha q' g' h1 h2
      rcases List.mem_append.1 ha with ha | ha
      · exact w.past a ha q' g' h1 h2
      · rw [List.mem_singleton.1 ha] at h1 h2
        simp only [hq] at h1; cases h1
        simp only [hgg] at h2; cases h2
        exact .inl hpc

/-- The calls of a push that has returned have returned. -/
theorem returned_asks {c : Cfg ε} {N : Nat} {s : State ε} (h : Reachable c N s) {n k : Nat} {p : Part ε} {q : Gossip.Pushing} (hp : s.parts[n]? = some p) (hq : p.g.pushes[k]? = some q) (hd : q.pc = .done) {a : Ask} (ha : a ∈ p.asks) (hk : a.push = k)
    {x : Node.State ε} (hx : s.net.nodes[n]? = some x) : ∃ d r, x.calls[a.call]? = some d ∧ d.pc = .returned r := by
  have g := (Inv.reach h).good n p hp
  obtain ⟨q1, g1, -, -, h1, h2, -⟩ := g.asks a ha
  rw [hk, hq] at h1; cases h1
  rcases (Waits.reach h n p hp).past a ha q g1 (by rw [hk]; exact hq) h2 with h3 | ⟨y, h3, h4⟩
  · rw [(g.wf q (List.mem_of_getElem? hq)).2.2 hd g1 (List.mem_of_getElem? h2)] at h3; cases h3
  · rw [hx] at h3; cases h3; exact h4

end Noise.GWire
