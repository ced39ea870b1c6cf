import Verif.Proofs.GossipWork
import Verif.Proofs.NodeReturns
import Verif.Spec.GossipRuns
/-! # `Push` returns -/
namespace Noise.Gossip

/-- How far a goroutine of `Push` is from its end. -/
def Gor.left (g : Gor) : Nat := match g.pc with
  | .check => 3
  | .send => 2
  | .set => 1
  | .done => 0

/-- How far the goroutines of a push are from their end. -/
def Pushing.left (p : Pushing) : Nat := (p.gors.map Gor.left).sum

/-- What a step does to push `k`. -/
inductive PNext (k : Nat) (a : Action) (p p' : Pushing) : Prop
  | same (h : p' = p) (h1 : ∀ l, a ≠ .pushing k l) (h2 : ∀ j, a ≠ .gor k j) (h3 : ∀ j ok, a ≠ .sent k j ok)
  | mark (h : p.pc = .mark) (h' : p' = { p with pc := .entries })
  | entries (h : p.pc = .entries) (h' : p'.pc = .running) (hn : ∀ g ∈ p'.gors, g.pc = .check)
  | done (h : p.pc = .running) (h' : p' = { p with pc := .done })
  | gor (j : Nat) (g : Gor) (pc : GPc) (hg : p.gors[j]? = some g) (h : p' = { p with gors := p.gors.set j { g with pc := pc } }) (hl : Gor.left { g with pc := pc } < g.left)
      (hb : g.pc = .send → ∃ ok, a = .sent k j ok) (hc : g.pc = .check → a = .gor k j)

theorem sum_set {l : List Nat} {j a b : Nat} (h : l[j]? = some a) (hb : b < a) : (l.set j b).sum < l.sum := by
  induction l generalizing j with
  | nil => cases h
  | cons x r ih =>
    cases j with
    | zero =>
      simp only [List.getElem?_cons_zero, Option.some.injEq] at h
      simp only [List.set_cons_zero, List.sum_cons]
      omega
    | succ j =>
      simp only [List.getElem?_cons_succ] at h
      simp only [List.set_cons_succ, List.sum_cons]
      have := ih h
      omega

theorem left_set {p : Pushing} {j : Nat} {g : Gor} {pc : GPc} (hg : p.gors[j]? = some g) (hl : Gor.left { g with pc := pc } < g.left) : Pushing.left { p with gors := p.gors.set j { g with pc := pc } } < p.left := by
  simp only [Pushing.left, List.map_set]
  exact sum_set (a := g.left) (by rw [List.getElem?_map, hg]; rfl) hl

theorem step_push {c : Cfg} {s s' : State} {a : Action} (hs : step c s a = some s') {k : Nat} {p : Pushing} (hp : s.pushes[k]? = some p) : ∃ p', s'.pushes[k]? = some p' ∧ PNext k a p p' := by
  have hlt := (List.getElem?_eq_some_iff.1 hp).1
  have grow : ∀ r : Pushing, (s.pushes ++ [r])[k]? = some p := fun r => by rw [List.getElem?_append_left hlt]; exact hp
  have set : ∀ (i : Nat) (q q' : Pushing), s.pushes[i]? = some q → s'.pushes = s.pushes.set i q' → (∀ l, a = .pushing k l → i = k) → (∀ j, a = .gor k j → i = k) → (∀ j ok, a = .sent k j ok → i = k) → PNext i a q q' → ∃ p', s'.pushes[k]? = some p' ∧ PNext k a p p' := by
    intro i q q' hi he h1 h2 h3 hn
    by_cases hik : i = k
    · subst hik
      rw [hp] at hi; cases hi
      exact ⟨q', by rw [he, List.getElem?_set_self hlt], hn⟩
    · exact ⟨p, by rw [he, List.getElem?_set_ne hik]; exact hp, .same rfl (fun l h => hik (h1 l h)) (fun j h => hik (h2 j h)) (fun j ok h => hik (h3 j ok h))⟩
  cases a with
  | receive e d =>
    simp only [step] at hs
    split at hs <;> cases hs
    exact ⟨p, hp, .same rfl (by simp) (by simp) (by simp)⟩
  | handler i =>
    simp only [step] at hs
    split at hs
    · cases hs
    split at hs
    · cases hs; exact ⟨p, hp, .same rfl (by simp) (by simp) (by simp)⟩
    · cases hs; exact ⟨p, hp, .same rfl (by simp) (by simp) (by simp)⟩
    · cases hs; exact ⟨p, hp, .same rfl (by simp) (by simp) (by simp)⟩
    · split at hs <;> cases hs
      exact ⟨p, grow _, .same rfl (by simp) (by simp) (by simp)⟩
    · split at hs
      · split at hs <;> cases hs
        exact ⟨p, hp, .same rfl (by simp) (by simp) (by simp)⟩
      · cases hs
    · cases hs
    · cases hs
  | callback i accept =>
    simp only [step] at hs
    split at hs
    · split at hs <;> cases hs
      exact ⟨p, hp, .same rfl (by simp) (by simp) (by simp)⟩
    · cases hs
  | push data =>
    simp only [step] at hs
    split at hs <;> cases hs
    exact ⟨p, grow _, .same rfl (by simp) (by simp) (by simp)⟩
  | pushing i l =>
    simp only [step] at hs
    split at hs
    · cases hs
    rename_i q hq
    have go : ∀ q', s'.pushes = s.pushes.set i q' → PNext i (.pushing i l) q q' → ∃ p', s'.pushes[k]? = some p' ∧ PNext k (.pushing i l) p p' := fun q' h1 h2 =>
      set i q q' hq h1 (by rintro l ⟨⟩; rfl) (by simp) (by simp) h2
    split at hs
    · rename_i hpc; cases hs; exact go _ rfl (.mark hpc rfl)
    · rename_i hpc
      split at hs <;> cases hs
      exact go _ rfl (.entries hpc rfl (by simp))
    · rename_i hpc
      split at hs <;> cases hs
      exact go _ rfl (.done hpc rfl)
    · cases hs
  | gor i j =>
    simp only [step] at hs
    split at hs
    · cases hs
    rename_i q hq
    split at hs
    · cases hs
    rename_i g hg
    have go : ∀ pc, s'.pushes = s.pushes.set i { q with gors := q.gors.set j { g with pc := pc } } → Gor.left { g with pc := pc } < g.left → (g.pc = .send → ∃ ok, Action.gor i j = .sent i j ok) → ∃ p', s'.pushes[k]? = some p' ∧ PNext k (.gor i j) p p' := fun pc h1 h2 h3 =>
      set i q _ hq h1 (by simp) (by rintro j ⟨⟩; rfl) (by simp) (.gor j g pc hg rfl h2 h3 fun _ => rfl)
    split at hs
    · rename_i hpc
      cases hs
      refine go _ rfl ?_ (by simp [hpc])
      generalize cacheHas s.cache (hash g.peer.id q.data) = b
      cases b <;> simp [Gor.left, hpc]
    · rename_i hpc
      cases hs
      exact go _ rfl (by simp [Gor.left, hpc]) (by simp [hpc])
    · cases hs
    · cases hs
  | sent i j ok =>
    simp only [step] at hs
    split at hs
    · cases hs
    rename_i q hq
    split at hs
    · cases hs
    rename_i g hg
    have go : ∀ pc, s'.pushes = s.pushes.set i { q with gors := q.gors.set j { g with pc := pc } } → Gor.left { g with pc := pc } < g.left → g.pc = .send → ∃ p', s'.pushes[k]? = some p' ∧ PNext k (.sent i j ok) p p' := fun pc h1 h2 h3 =>
      set i q _ hq h1 (by simp) (by simp) (by rintro j ok ⟨⟩; rfl) (.gor j g pc hg rfl h2 (fun _ => ⟨ok, rfl⟩) (by rw [h3]; simp))
    split at hs
    · rename_i hpc
      split at hs <;> cases hs
      · exact go _ rfl (by simp [Gor.left, hpc]) hpc
      · exact go _ rfl (by simp [Gor.left, hpc]) hpc
    · cases hs

end Noise.Gossip

namespace Noise.GWire
open Spec
variable {ε : Type}

/-- What a step does to gossip on node `n`. -/
theorem part_step {c : Cfg ε} {s s' : State ε} {a : Action ε} (h : step c s a = some s') {n : Nat} {p : Part ε} (hp : s.parts[n]? = some p) : ∃ p', s'.parts[n]? = some p' ∧ p.asks <+: p'.asks ∧
    ((p'.g = p.g ∧ (∀ k j, a = .send n k j → ∃ q ∈ p'.asks, q.push = k ∧ q.gor = j) ∧ (∀ b, a ≠ .own n b) ∧ ∀ k j, a ≠ .sent n k j) ∨
      ∃ b, Gossip.step (c.gossip n) p.g b = some p'.g ∧ p'.asks = p.asks ∧ (∀ k j, a ≠ .send n k j) ∧ (∀ b', a = .own n b' → b = b') ∧ ∀ k j, a = .sent n k j → ∃ ok, b = .sent k j ok) := by
  have hlt := (List.getElem?_eq_some_iff.1 hp).1
  -- gossip on some node
  have other : ∀ (m : Nat) (r r' : Part ε) (b : Gossip.Action), s.parts[m]? = some r → s'.parts = s.parts.set m r' → Gossip.step (c.gossip m) r.g b = some r'.g → r'.asks = r.asks → (∀ k j, a ≠ .send n k j) →
      (∀ b', a = .own n b' → m = n ∧ b = b') → (∀ k j, a = .sent n k j → m = n ∧ ∃ ok, b = .sent k j ok) → ∃ p', s'.parts[n]? = some p' ∧ p.asks <+: p'.asks ∧
    ((p'.g = p.g ∧ (∀ k j, a = .send n k j → ∃ q ∈ p'.asks, q.push = k ∧ q.gor = j) ∧ (∀ b, a ≠ .own n b) ∧ ∀ k j, a ≠ .sent n k j) ∨
      ∃ b, Gossip.step (c.gossip n) p.g b = some p'.g ∧ p'.asks = p.asks ∧ (∀ k j, a ≠ .send n k j) ∧ (∀ b', a = .own n b' → b = b') ∧ ∀ k j, a = .sent n k j → ∃ ok, b = .sent k j ok) := by
    intro m r r' b hm he hst has h1 h2 h3
    by_cases hmn : m = n
    · subst hmn
      rw [hp] at hm; cases hm
      exact ⟨r', by rw [he, List.getElem?_set_self hlt], by rw [has], .inr ⟨b, hst, has, h1, fun b' h => (h2 b' h).2, fun k j h => (h3 k j h).2⟩⟩
    · exact ⟨p, by rw [he, List.getElem?_set_ne hmn]; exact hp, List.prefix_refl _, .inl ⟨rfl, fun k j h => (h1 k j h).elim, fun b h => hmn (h2 b h).1, fun k j h => hmn (h3 k j h).1⟩⟩
  cases a with
  | net b =>
    simp only [step] at h
    split at h
    · cases h
    · obtain ⟨y, h1, h2⟩ := Option.map_eq_some_iff.1 h
      subst h2
      exact ⟨p, hp, List.prefix_refl _, .inl ⟨rfl, by simp, by simp, by simp⟩⟩
  | push m data =>
    obtain ⟨x, r, r', hx, hr, -, hf, rfl⟩ := with_some h
    obtain ⟨g, h1, h2⟩ := Option.map_eq_some_iff.1 hf
    subst h2
    exact other m r _ (.push data) hr rfl h1 rfl (by simp) (by simp) (by simp)
  | own m b =>
    obtain ⟨x, r, r', hx, hr, -, hf, rfl⟩ := with_some h
    cases b with
    | receive | callback | push | sent => cases hf
    | handler | pushing | gor =>
      obtain ⟨g, h1, h2⟩ := Option.map_eq_some_iff.1 hf
      subst h2
      exact other m r _ _ hr rfl h1 rfl (by simp) (by rintro b' ⟨⟩; exact ⟨rfl, rfl⟩) (by simp)
  | callback m i res =>
    obtain ⟨x, r, r', hx, hr, -, hf, rfl⟩ := with_some h
    obtain ⟨g, h1, h2⟩ := Option.map_eq_some_iff.1 hf
    subst h2
    exact other m r _ _ hr rfl h1 rfl (by simp) (by simp) (by simp)
  | enter m w =>
    obtain ⟨x, r, r', hx, hr, -, hf, rfl⟩ := with_some h
    split at hf
    · split at hf
      · split at hf
        · cases hf
        · obtain ⟨g, h1, h2⟩ := Option.map_eq_some_iff.1 hf
          subst h2
          exact other m r _ _ hr rfl h1 rfl (by simp) (by simp) (by simp)
      · cases hf
    · cases hf
  | leave m w =>
    simp only [step] at h
    split at h
    · split at h
      · split at h
        · split at h
          · obtain ⟨y, h1, h2⟩ := Option.map_eq_some_iff.1 h
            subst h2
            exact ⟨p, hp, List.prefix_refl _, .inl ⟨rfl, by simp, by simp, by simp⟩⟩
          · cases h
        · cases h
      · cases h
    · cases h
  | send m k j =>
    simp only [step] at h
    split at h
    · rename_i x r hx hr
      split at h
      · split at h
        · cases h
        · obtain ⟨y, h1, h2⟩ := Option.map_eq_some_iff.1 h
          subst h2
          by_cases hmn : m = n
          · subst hmn
            rw [hp] at hr; cases hr
            exact ⟨_, List.getElem?_set_self hlt, List.prefix_append _ _, .inl ⟨rfl, by rintro k j ⟨⟩; exact ⟨_, List.mem_append_right _ (List.mem_singleton_self _), rfl, rfl⟩, by simp, by simp⟩⟩
          · exact ⟨p, by simp only [List.getElem?_set_ne hmn]; exact hp, List.prefix_refl _, .inl ⟨rfl, fun k j h => by cases h; exact (hmn rfl).elim, by simp, by simp⟩⟩
      · cases h
    · cases h
  | sent m k j =>
    obtain ⟨x, r, r', hx, hr, -, hf, rfl⟩ := with_some h
    split at hf
    · split at hf
      · split at hf
        · obtain ⟨g, h1, h2⟩ := Option.map_eq_some_iff.1 hf
          subst h2
          exact other m r _ _ hr rfl h1 rfl (by simp) (by simp) (by rintro k j ⟨⟩; exact ⟨rfl, _, rfl⟩)
        · cases hf
      · cases hf
    · cases hf

section
variable {c : Cfg ε} {N n : Nat} {σ : Nat → State ε} {α : Nat → Option (Action ε)}

theorem run_reach (hrun : GossipRuns c N n σ α) (t : Nat) : Reachable c N (σ t) := hrun.start.trans (Fair.reach hrun.exec t)

theorem nodes_N {s : State ε} (h : Reachable c N s) : s.net.nodes.length = N := by
  refine h.ind (P := fun s => s.net.nodes.length = N) (by simp [State.new, Net.State.new]) ?_
  intro s1 s2 a _ ih hs
  cases step_eff hs with
  | net b h _ => rw [nodes_len h, ih]
  | gossip n x p p' a _ _ h => rw [h, ih]
  | send n x p k j q g _ _ _ _ _ _ h _ => rw [nodes_len h, ih]

/-- The node exists at all times. -/
theorem node_some (hrun : GossipRuns c N n σ α) (hn : n < N) (t : Nat) : (σ t).net.nodes[n]? = some (nodeAt σ n t) := by
  have : n < (σ t).net.nodes.length := by rw [nodes_N (run_reach hrun t)]; exact hn
  rw [nodeAt, List.getElem?_eq_getElem this]; rfl

/-- What one step of the network is for a node. -/
theorem node_moves {s s' : State ε} {a : Action ε} (h : step c s a = some s') {x x' : Node.State ε} (hx : s.net.nodes[n]? = some x) (hx' : s'.net.nodes[n]? = some x') :
    ∃ o : Option (Node.Action ε), ((o = none ∧ x' = x) ∨ ∃ b, o = some b ∧ Node.step (c.node n) x b = some x') ∧ ∀ b, a = .net (.node n b) → o = some b := by
  have net : ∀ b, Net.step c.node s.net b = some s'.net → ∃ o : Option (Node.Action ε), ((o = none ∧ x' = x) ∨ ∃ b, o = some b ∧ Node.step (c.node n) x b = some x') := by
    intro b hb
    rcases net_node hb hx' with g | ⟨y, b', g1, -, g2⟩
    · rw [hx] at g; cases g
      exact ⟨none, .inl ⟨rfl, rfl⟩⟩
    · rw [hx] at g1; cases g1
      exact ⟨some b', .inr ⟨b', rfl, g2⟩⟩
  by_cases hb : ∃ b, a = .net (.node n b)
  · obtain ⟨b, rfl⟩ := hb
    simp only [step] at h
    split at h
    · cases h
    obtain ⟨y, h1, h2⟩ := Option.map_eq_some_iff.1 h
    subst h2
    refine ⟨some b, .inr ⟨b, rfl, ?_⟩, by rintro b' ⟨⟩; rfl⟩
    have hlt := (List.getElem?_eq_some_iff.1 hx).1
    have set : ∀ (o : Option (Node.State ε)) (f : Node.State ε → Net.State ε), (∀ z, (f z).nodes = s.net.nodes.set n z) → o.map f = some y → o = some x' := by
      intro o f hf ho
      obtain ⟨z, h3, h4⟩ := Option.map_eq_some_iff.1 ho
      subst h4
      rw [hf, List.getElem?_set_self hlt] at hx'
      rw [h3, hx']
    simp only [Net.step, hx] at h1
    split at h1
    · split at h1
      · exact set _ _ (fun z => rfl) h1
      · split at h1
        · exact set _ _ (fun z => rfl) h1
        · cases h1
    · exact set _ _ (fun z => rfl) h1
  · have : ∃ o : Option (Node.Action ε), ((o = none ∧ x' = x) ∨ ∃ b, o = some b ∧ Node.step (c.node n) x b = some x') := by
      cases step_eff h with
      | net b h _ => exact net b h
      | gossip n' x0 p p' a _ _ h => rw [h, hx] at hx'; cases hx'; exact ⟨none, .inl ⟨rfl, rfl⟩⟩
      | send n' x0 p k j q g _ _ _ _ _ _ h _ => exact net _ h
    obtain ⟨o, ho⟩ := this
    exact ⟨o, ho, fun b hab => (hb ⟨b, hab⟩).elim⟩

/-- The execution of node `n`. -/
theorem node_runs (hrun : GossipRuns c N n σ α) (hn : n < N) : ∃ β, CallsRun (c.node n) (nodeAt σ n) β := by
  have each : ∀ t, ∃ o : Option (Node.Action ε), ((o = none ∧ nodeAt σ n (t + 1) = nodeAt σ n t) ∨ ∃ b, o = some b ∧ Node.step (c.node n) (nodeAt σ n t) b = some (nodeAt σ n (t + 1))) ∧ ∀ b, α t = some (.net (.node n b)) → o = some b := by
    intro t
    rcases hrun.exec t with ⟨ha, e⟩ | ⟨a, ha, hs⟩
    · exact ⟨none, .inl ⟨rfl, by simp only [nodeAt, e]⟩, fun b h => by rw [ha] at h; cases h⟩
    · obtain ⟨o, h1, h2⟩ := node_moves hs (node_some hrun hn t) (node_some hrun hn (t + 1))
      exact ⟨o, h1, fun b h => h2 b (by rw [ha] at h; exact Option.some.inj h)⟩
  choose β hβ hα using each
  refine ⟨β, ⟨?_, hβ, fun q t => ?_, hrun.closes, hrun.alive⟩⟩
  · exact (Net.Inv.reach (Inv.reach hrun.start).net).nodes n _ (node_some hrun hn 0)
  · obtain ⟨t', hle, ⟨a, h1, b, rfl, h2⟩ | h⟩ := hrun.call q t
    · exact ⟨t', hle, .inl ⟨b, hα t' b h1, h2⟩⟩
    · refine ⟨t', hle, .inr ?_⟩
      rintro ⟨b, h1, h2⟩
      refine h ⟨.net (.node n b), ⟨b, rfl, h1⟩, ?_⟩
      obtain ⟨x', hx'⟩ := Option.isSome_iff_exists.1 h2
      rcases h1 with rfl | ⟨b, rfl⟩ | rfl | rfl <;> simp [step, bars, Net.step, node_some hrun hn t', hx']

/-- Push `k` of node `n` is at `q` at time `t`. -/
def PushIs (σ : Nat → State ε) (n k t : Nat) (q : Gossip.Pushing) : Prop := ∃ p : Part ε, (σ t).parts[n]? = some p ∧ p.g.pushes[k]? = some q

/-- What one moment does to a push. -/
theorem push_moves (hrun : GossipRuns c N n σ α) {k t : Nat} {q : Gossip.Pushing} (h : PushIs σ n k t q) : ∃ q', PushIs σ n k (t + 1) q' ∧
    ((q' = q ∧ (∀ l, α t ≠ some (.own n (.pushing k l))) ∧ (∀ j, α t ≠ some (.own n (.gor k j))) ∧ ∀ j, α t ≠ some (.sent n k j)) ∨ (q.pc = .mark ∧ q' = { q with pc := .entries }) ∨ (q.pc = .entries ∧ q'.pc = .running) ∨ (q.pc = .running ∧ q'.pc = .done) ∨ (q'.pc = q.pc ∧ q'.left < q.left)) := by
  obtain ⟨p, hp, hq⟩ := h
  rcases hrun.exec t with ⟨ha, e⟩ | ⟨a, ha, hs⟩
  · exact ⟨q, ⟨p, by rw [e]; exact hp, hq⟩, .inl ⟨rfl, by rw [ha]; simp, by rw [ha]; simp, by rw [ha]; simp⟩⟩
  obtain ⟨p', h1, -, ⟨h2, -, h3, h4⟩ | ⟨b, h2, -, -, h3, h4⟩⟩ := part_step hs hp
  · exact ⟨q, ⟨p', h1, by rw [h2]; exact hq⟩, .inl ⟨rfl, fun l h => h3 _ (by rw [ha] at h; exact Option.some.inj h), fun j h => h3 _ (by rw [ha] at h; exact Option.some.inj h), fun j h => h4 _ _ (by rw [ha] at h; exact Option.some.inj h)⟩⟩
  · obtain ⟨q', g1, g2⟩ := Gossip.step_push h2 hq
    refine ⟨q', ⟨p', h1, g1⟩, ?_⟩
    cases g2 with
    | same h n1 n2 n3 =>
      exact .inl ⟨h, fun l e => n1 l (h3 _ (by rw [ha] at e; exact Option.some.inj e)), fun j e => n2 j (h3 _ (by rw [ha] at e; exact Option.some.inj e)), fun j e => by
        obtain ⟨ok, hok⟩ := h4 k j (by rw [ha] at e; exact Option.some.inj e)
        exact n3 j ok hok⟩
    | mark h h' => exact .inr (.inl ⟨h, h'⟩)
    | entries h h' => exact .inr (.inr (.inl ⟨h, h'⟩))
    | done h h' => exact .inr (.inr (.inr (.inl ⟨h, by rw [h']⟩)))
    | gor j g pc hg h hl => exact .inr (.inr (.inr (.inr (by rw [h]; exact ⟨rfl, Gossip.left_set hg hl⟩))))

theorem with_able {s : State ε} {x : Node.State ε} {p p' : Part ε} (hx : s.net.nodes[n]? = some x) (hc : x.crashed = false) (hp : s.parts[n]? = some p) {f : Node.State ε → Part ε → Option (Part ε)} (hf : f x p = some p') : (s.with n f).isSome = true := by
  simp [State.with, hx, hp, hc, hf]

/-- The gossip of the node at time `t` can take this step of its own. -/
theorem own_able (hrun : GossipRuns c N n σ α) (hn : n < N) {t : Nat} {p : Part ε} (hp : (σ t).parts[n]? = some p) {b : Gossip.Action} (hb : (∃ k l, b = .pushing k l) ∨ ∃ k j, b = .gor k j) (h : (Gossip.step (c.gossip n) p.g b).isSome = true) :
    (step c (σ t) (.own n b)).isSome = true := by
  obtain ⟨g, hg⟩ := Option.isSome_iff_exists.1 h
  have hx := node_some hrun hn t
  have hc := hrun.alive t
  rcases hb with ⟨k, l, rfl⟩ | ⟨k, j, rfl⟩ <;> simp [step, State.with, hx, hp, hc, hg]

/-- A push that has not read the table yet does so. -/
theorem push_starts (hrun : GossipRuns c N n σ α) (hn : n < N) {k t : Nat} {q : Gossip.Pushing} (h : PushIs σ n k t q) (hpc : q.pc = .mark ∨ q.pc = .entries) (hw : ∀ t q, PushIs σ n k t q → q.pc = .mark ∨ q.pc = .entries → q.gors = []) :
    ∃ t' q', t ≤ t' ∧ PushIs σ n k t' q' ∧ q'.pc = .running := by
  have key := Fair.well1 (hrun.push k) (P := fun t => ∃ q, PushIs σ n k t q ∧ (q.pc = .mark ∨ q.pc = .entries)) (G := fun t => ∃ q, PushIs σ n k t q ∧ q.pc = .running)
    (fun t => open Classical in if ∃ q, PushIs σ n k t q ∧ q.pc = .mark then 1 else 0) ?_ t ⟨q, h, hpc⟩
  · obtain ⟨t', hle, q', h1, h2⟩ := key
    exact ⟨t', q', hle, h1, h2⟩
  rintro t ⟨q, h, hpc⟩
  right
  have huniq : ∀ q1, PushIs σ n k t q1 → q1 = q := by
    rintro q1 ⟨p1, e1, e2⟩
    obtain ⟨p2, e3, e4⟩ := h
    rw [e1] at e3; cases e3
    rw [e2] at e4; cases e4; rfl
  constructor
  · obtain ⟨p, hp, hq⟩ := h
    refine ⟨_, ⟨[], rfl⟩, own_able hrun hn hp (.inl ⟨k, [], rfl⟩) ?_⟩
    rcases hpc with hpc | hpc <;> simp [Gossip.step, hq, hpc]
  · obtain ⟨q', h1, ⟨rfl, h2, -⟩ | ⟨h2, rfl⟩ | ⟨h2, h3⟩ | ⟨h2, -⟩ | ⟨h2, h3⟩⟩ := push_moves hrun h
    · refine .inr ⟨⟨q', h1, hpc⟩, .inr ⟨?_, ?_⟩⟩
      · have huniq' : ∀ q1, PushIs σ n k (t + 1) q1 → q1 = q' := by
          rintro q1 ⟨p1, e1, e2⟩
          obtain ⟨p2, e3, e4⟩ := h1
          rw [e1] at e3; cases e3
          rw [e2] at e4; cases e4; rfl
        have : (∃ q, PushIs σ n k (t + 1) q ∧ q.pc = .mark) ↔ ∃ q, PushIs σ n k t q ∧ q.pc = .mark :=
          ⟨fun ⟨q1, e1, e2⟩ => ⟨q', h, by rw [← huniq' q1 e1]; exact e2⟩, fun ⟨q1, e1, e2⟩ => ⟨q', h1, by rw [← huniq q1 e1]; exact e2⟩⟩
        open Classical in exact if_congr this rfl rfl
      · rintro ⟨a, e1, l, rfl⟩
        exact h2 l e1
    · refine .inr ⟨⟨_, h1, .inr rfl⟩, .inl ?_⟩
      have n1 : ¬ ∃ q, PushIs σ n k (t + 1) q ∧ q.pc = .mark := by
        rintro ⟨q1, ⟨p1, e1, e2⟩, e3⟩
        obtain ⟨p2, e4, e5⟩ := h1
        rw [e1] at e4; cases e4
        rw [e2] at e5; cases e5
        cases e3
      rw [if_neg n1, if_pos ⟨q, h, h2⟩]
      omega
    · exact .inl ⟨q', h1, h3⟩
    · rcases hpc with hpc | hpc <;> rw [hpc] at h2 <;> cases h2
    · rw [hw t q h hpc |> fun e => show q.left = 0 by simp [Gossip.Pushing.left, e]] at h3
      omega

theorem asks_keep (hrun : GossipRuns c N n σ α) {t t' : Nat} (hle : t ≤ t') {p : Part ε} (hp : (σ t).parts[n]? = some p) : ∃ p' : Part ε, (σ t').parts[n]? = some p' ∧ p.asks <+: p'.asks := by
  induction hle with
  | refl => exact ⟨p, hp, List.prefix_refl _⟩
  | step _ ih =>
    obtain ⟨p1, h1, h2⟩ := ih
    rcases hrun.exec _ with ⟨-, e⟩ | ⟨a, -, hs⟩
    · exact ⟨p1, by rw [e]; exact h1, h2⟩
    · obtain ⟨p', h3, h4, -⟩ := part_step hs h1
      exact ⟨p', h3, h2.trans h4⟩

theorem find_keep {l l' : List Ask} (h : l <+: l') {k j : Nat} {a : Ask} (hf : l.find? (fun a => a.push = k ∧ a.gor = j) = some a) : l'.find? (fun a => a.push = k ∧ a.gor = j) = some a := by
  obtain ⟨r, rfl⟩ := h
  rw [List.find?_append, hf]; rfl

theorem find_some {l : List Ask} {k j : Nat} {q : Ask} (hq : q ∈ l) (h1 : q.push = k) (h2 : q.gor = j) : ∃ a, l.find? (fun a => a.push = k ∧ a.gor = j) = some a ∧ a ∈ l ∧ a.push = k := by
  cases hf : l.find? (fun a => a.push = k ∧ a.gor = j) with
  | none => have := List.find?_eq_none.1 hf q hq; simp [h1, h2] at this
  | some a =>
    have := List.find?_some hf
    simp only [decide_eq_true_eq] at this
    exact ⟨a, rfl, List.mem_of_find?_eq_some hf, this.1⟩

/-- Push `k` of the node returns. -/
theorem push_returns (hrun : GossipRuns c N n σ α) (hn : n < N) {k : Nat}
    (hcalls : ∀ t (p : Part ε) (a : Ask), (σ t).parts[n]? = some p → a ∈ p.asks → a.push = k → ∃ t' d r, t ≤ t' ∧ (nodeAt σ n t').calls[a.call]? = some d ∧ d.pc = .returned r) :
    ∀ (w : Nat) {t : Nat} {q : Gossip.Pushing}, PushIs σ n k t q → q.pc = .running → q.left ≤ w → ∃ t' q', t ≤ t' ∧ PushIs σ n k t' q' ∧ q'.pc = .done := by
  obtain ⟨β, hnode⟩ := node_runs hrun hn
  have huniq : ∀ {t q1 q2}, PushIs σ n k t q1 → PushIs σ n k t q2 → q1 = q2 := by
    rintro t q1 q2 ⟨p1, e1, e2⟩ ⟨p2, e3, e4⟩
    rw [e1] at e3; cases e3
    rw [e2] at e4; cases e4; rfl
  intro w
  induction w using Nat.strongRecOn with
  | _ w ih =>
  intro t q h hpc hw
  -- progress: it is enough that the push has changed
  have suff : (∃ t' q', t ≤ t' ∧ PushIs σ n k t' q' ∧ (q'.pc = .done ∨ q'.pc = .running ∧ q'.left < q.left)) → ∃ t' q', t ≤ t' ∧ PushIs σ n k t' q' ∧ q'.pc = .done := by
    rintro ⟨t', q', hle, h1, h2 | ⟨h2, h3⟩⟩
    · exact ⟨t', q', hle, h1, h2⟩
    · obtain ⟨t2, q2, hle2, h4, h5⟩ := ih q'.left (by omega) h1 h2 (Nat.le_refl _)
      exact ⟨t2, q2, by omega, h4, h5⟩
  -- one moment
  have one : ∀ t, PushIs σ n k t q → (PushIs σ n k (t + 1) q ∧ (∀ l, α t ≠ some (.own n (.pushing k l))) ∧ (∀ j, α t ≠ some (.own n (.gor k j))) ∧ ∀ j, α t ≠ some (.sent n k j)) ∨ ∃ q', PushIs σ n k (t + 1) q' ∧ (q'.pc = .done ∨ q'.pc = .running ∧ q'.left < q.left) := by
    intro t h
    obtain ⟨q', h1, ⟨rfl, h2⟩ | ⟨h2, -⟩ | ⟨h2, -⟩ | ⟨-, h2⟩ | ⟨h2, h3⟩⟩ := push_moves hrun h
    · exact .inl ⟨h1, h2⟩
    · rw [hpc] at h2; cases h2
    · rw [hpc] at h2; cases h2
    · exact .inr ⟨q', h1, .inl h2⟩
    · exact .inr ⟨q', h1, .inr ⟨h2.trans hpc, h3⟩⟩
  have some_time : ∀ {t t'}, t ≤ t' → PushIs σ n k t q → PushIs σ n k t' q ∨ ∃ t1 q', t ≤ t1 ∧ PushIs σ n k t1 q' ∧ (q'.pc = .done ∨ q'.pc = .running ∧ q'.left < q.left) := by
    intro t t' hle h
    induction hle with
    | refl => exact .inl h
    | step hle' ih =>
      rcases ih with ih | ih
      · rcases one _ ih with ⟨h1, -⟩ | ⟨q', h1, h2⟩
        · exact .inl h1
        · exact .inr ⟨_, q', Nat.le_succ_of_le hle', h1, h2⟩
      · exact .inr ih
  by_cases hall : q.gors.all (fun g => decide (g.pc = .done)) = true
  · -- all goroutines have ended
    refine suff ?_
    have key := Fair.well1 (hrun.push k) (P := fun t => PushIs σ n k t q) (G := fun t => ∃ q', PushIs σ n k t q' ∧ (q'.pc = .done ∨ q'.pc = .running ∧ q'.left < q.left)) (fun _ => 0) ?_ t h
    · obtain ⟨t', hle, q', h1, h2⟩ := key
      exact ⟨t', q', hle, h1, h2⟩
    intro t h
    refine .inr ⟨?_, ?_⟩
    · obtain ⟨p, hp, hq⟩ := h
      exact ⟨_, ⟨[], rfl⟩, own_able hrun hn hp (.inl ⟨k, [], rfl⟩) (by simp only [Gossip.step, hq, hpc]; rw [if_pos hall]; rfl)⟩
    · rcases one t h with ⟨h1, h2, -⟩ | h1
      · exact .inr ⟨h1, .inr ⟨rfl, by rintro ⟨a, e1, l, rfl⟩; exact h2 l e1⟩⟩
      · exact .inl h1
  · obtain ⟨g, hg, hgd⟩ : ∃ g ∈ q.gors, g.pc ≠ .done := by
      refine Classical.byContradiction fun hcon => hall (List.all_eq_true.2 fun g hg => ?_)
      simp only [decide_eq_true_eq]
      exact Classical.byContradiction fun hne => hcon ⟨g, hg, hne⟩
    obtain ⟨j, hj⟩ := List.mem_iff_getElem?.1 hg
    by_cases hsend : g.pc = .send
    · -- it sends
      have asked : ∃ t' , t ≤ t' ∧ ((PushIs σ n k t' q ∧ ∃ p : Part ε, (σ t').parts[n]? = some p ∧ ∃ a, p.asks.find? (fun a => a.push = k ∧ a.gor = j) = some a) ∨ ∃ q', PushIs σ n k t' q' ∧ (q'.pc = .done ∨ q'.pc = .running ∧ q'.left < q.left)) := by
        refine Fair.well1 (hrun.spread k j) (P := fun t => PushIs σ n k t q) (fun _ => 0) ?_ t h
        intro t h
        obtain ⟨p, hp, hq⟩ := id h
        cases hf : p.asks.find? (fun a => a.push = k ∧ a.gor = j) with
        | some a => exact .inl (.inl ⟨h, p, hp, a, hf⟩)
        | none =>
          refine .inr ⟨?_, ?_⟩
          · refine ⟨_, .inr (.inl rfl), ?_⟩
            have hany : (p.asks.any fun a => decide (a.push = k ∧ a.gor = j)) = false := by
              rw [List.any_eq_false]
              intro a ha
              exact List.find?_eq_none.1 hf a ha
            have hs : sending p.g k j = some (q.data, g.peer) := by simp [sending, hq, hj, hsend]
            simp only [step, node_some hrun hn t, hp, hs, hany, Bool.false_eq_true, if_false, Net.step, Node.step, hrun.alive t, Option.map_some, Option.isSome_some]
          · rcases one t h with ⟨h1, h2, h3, h4⟩ | h1
            swap
            · exact .inl (.inr h1)
            by_cases ht : Takes α (Spreads n k j) t
            · obtain ⟨a, e1, rfl | rfl | rfl⟩ := ht
              · exact (h3 j e1).elim
              · left; left
                rcases hrun.exec t with ⟨ha, -⟩ | ⟨a, ha, hs⟩
                · rw [ha] at e1; cases e1
                · rw [ha] at e1; cases e1
                  obtain ⟨p', g1, -, ⟨-, g2, -⟩ | ⟨b, -, -, g2, -⟩⟩ := part_step hs hp
                  · obtain ⟨r, r1, r2, r3⟩ := g2 k j rfl
                    obtain ⟨a, a1, -⟩ := find_some r1 r2 r3
                    exact ⟨h1, p', g1, a, a1⟩
                  · exact (g2 k j rfl).elim
              · exact (h4 j e1).elim
            · exact .inr ⟨h1, .inr ⟨rfl, ht⟩⟩
      obtain ⟨t1, hle1, ⟨h1, p1, hp1, a, ha⟩ | ⟨q', h1, h2⟩⟩ := asked
      swap
      · exact suff ⟨t1, q', hle1, h1, h2⟩
      have ham := List.mem_of_find?_eq_some ha
      have hap := List.find?_some ha
      simp only [decide_eq_true_eq] at hap
      obtain ⟨t2, d, r, hle2, hd, hr⟩ := hcalls t1 p1 a hp1 ham hap.1
      rcases some_time hle2 h1 with h2 | ⟨t3, q', hle3, h3, h4⟩
      swap
      · exact suff ⟨t3, q', by omega, h3, h4⟩
      -- the call stays returned
      have hst : ∀ t', t2 ≤ t' → ∃ d, (nodeAt σ n t').calls[a.call]? = some d ∧ d.pc = .returned r := fun t' hle => by
        refine Fair.stays (P := fun t' => ∃ d, (nodeAt σ n t').calls[a.call]? = some d ∧ d.pc = .returned r) ?_ hle ⟨d, hd, hr⟩
        rintro t' ⟨d, hd, hr⟩
        rcases hnode.exec t' with ⟨-, e⟩ | ⟨b, -, hb⟩
        · exact ⟨d, by rw [e]; exact hd, hr⟩
        · obtain ⟨d', g1, -, -, g2⟩ := Node.call_keeps (NodeR.at_reach hnode t') hb hd
          exact ⟨d', g1, g2.returned _ hr⟩
      refine suff ?_
      have key := Fair.well1 (hrun.spread k j) (P := fun t => PushIs σ n k t q ∧ t2 ≤ t) (G := fun t => ∃ q', PushIs σ n k t q' ∧ (q'.pc = .done ∨ q'.pc = .running ∧ q'.left < q.left)) (fun _ => 0) ?_ t2 ⟨h2, Nat.le_refl _⟩
      · obtain ⟨t', hle, q', e1, e2⟩ := key
        exact ⟨t', q', by omega, e1, e2⟩
      rintro t' ⟨h, hle⟩
      obtain ⟨p, hp, hq⟩ := id h
      obtain ⟨p2, hp2, hpre⟩ := asks_keep hrun (show t1 ≤ t' by omega) hp1
      rw [hp] at hp2; cases hp2
      have hfind := find_keep hpre ha
      obtain ⟨d', hd', hr'⟩ := hst t' hle
      refine .inr ⟨⟨_, .inr (.inr rfl), ?_⟩, ?_⟩
      · obtain ⟨g', hg'⟩ : ∃ g', Gossip.step (c.gossip n) p.g (.sent k j (decide (r = .sent))) = some g' := by
          simp only [Gossip.step, hq, hj, hsend, if_true]
          split <;> exact ⟨_, rfl⟩
        exact with_able (node_some hrun hn t') (hrun.alive t') hp (p' := { p with g := g' }) (by simp only [hfind, hd', hr', hg', Option.map_some])
      · rcases one t' h with ⟨e1, e2, e3, e4⟩ | e1
        swap
        · exact .inl e1
        refine .inr ⟨⟨e1, by omega⟩, .inr ⟨rfl, ?_⟩⟩
        rintro ⟨b, f1, rfl | rfl | rfl⟩
        · exact e3 j f1
        · rcases hrun.exec t' with ⟨hb, -⟩ | ⟨b, hb, hs⟩
          · rw [hb] at f1; cases f1
          · rw [hb] at f1; cases f1
            have hany : (p.asks.any fun a => decide (a.push = k ∧ a.gor = j)) = true := List.any_eq_true.2 ⟨a, List.mem_of_find?_eq_some hfind, by simpa using hap⟩
            have hs' : sending p.g k j = some (q.data, g.peer) := by simp [sending, hq, hj, hsend]
            simp only [step, node_some hrun hn t', hp, hs', hany, if_true] at hs
            cases hs
        · exact e4 j f1
    · -- it looks into the cache
      refine suff ?_
      have key := Fair.well1 (hrun.spread k j) (P := fun t => PushIs σ n k t q) (G := fun t => ∃ q', PushIs σ n k t q' ∧ (q'.pc = .done ∨ q'.pc = .running ∧ q'.left < q.left)) (fun _ => 0) ?_ t h
      · obtain ⟨t', hle, q', h1, h2⟩ := key
        exact ⟨t', q', hle, h1, h2⟩
      intro t h
      obtain ⟨p, hp, hq⟩ := id h
      refine .inr ⟨⟨_, .inl rfl, own_able hrun hn hp (.inr ⟨k, j, rfl⟩) ?_⟩, ?_⟩
      · simp only [Gossip.step, hq, hj]
        cases hgp : g.pc with
        | check => rfl
        | set => rfl
        | send => exact (hsend hgp).elim
        | done => exact (hgd hgp).elim
      · rcases one t h with ⟨e1, e2, e3, e4⟩ | e1
        swap
        · exact .inl e1
        refine .inr ⟨e1, .inr ⟨rfl, ?_⟩⟩
        rintro ⟨b, f1, rfl | rfl | rfl⟩
        · exact e3 j f1
        · rcases hrun.exec t with ⟨hb, -⟩ | ⟨b, hb, hs⟩
          · rw [hb] at f1; cases f1
          · rw [hb] at f1; cases f1
            have hs' : sending p.g k j = none := by simp [sending, hq, hj, hsend]
            simp [step, node_some hrun hn t, hp, hs'] at hs
        · exact e4 j f1

end
end Noise.GWire
