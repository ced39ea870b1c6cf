import Verif.Proofs.NetFind
import Verif.Proofs.GossipStuck
import Verif.Props.GossipWire
/-! # What comes in over a connection on which nothing fails is reported -/
namespace Noise.Gossip

/-- A callback runs until it has returned. -/
theorem step_callback {c : Cfg} {s s' : State} {a : Action} (hs : step c s a = some s') {i : Nat} {h : Handler} (hi : s.handlers[i]? = some h) (hk : h.pc = .callback) :
    s'.handlers[i]? = some h ∨ (h.sender, h.data) ∈ s'.delivered := by
  have hlt := (List.getElem?_eq_some_iff.1 hi).1
  have same : s'.handlers = s.handlers → s'.handlers[i]? = some h ∨ (h.sender, h.data) ∈ s'.delivered := fun h => .inl (by rw [h]; exact hi)
  have set : ∀ (j : Nat) (h1 h2 : Handler), s.handlers[j]? = some h1 → h1.pc ≠ .callback → s'.handlers = s.handlers.set j h2 → s'.handlers[i]? = some h ∨ (h.sender, h.data) ∈ s'.delivered := by
    intro j h1 h2 hj hne he
    have hji : j ≠ i := by
      rintro rfl
      rw [hi] at hj; cases hj
      exact hne hk
    exact .inl (by rw [he, List.getElem?_set_ne hji]; exact hi)
  cases a with
  | receive e d =>
    simp only [step] at hs
    split at hs <;> cases hs
    exact .inl (by simp only [List.getElem?_append_left hlt]; exact hi)
  | handler j =>
    simp only [step] at hs
    split at hs
    · cases hs
    rename_i h1 hj
    split at hs
    · rename_i hpc; cases hs; exact set j h1 _ hj (by rw [hpc]; simp) rfl
    · rename_i hpc; cases hs; exact set j h1 _ hj (by rw [hpc]; simp) rfl
    · rename_i hpc; cases hs; exact set j h1 _ hj (by rw [hpc]; simp) rfl
    · rename_i hpc
      split at hs <;> cases hs
      exact set j h1 _ hj (by rw [hpc]; simp) rfl
    · rename_i k' hpc
      split at hs
      · rename_i q hq
        split at hs <;> cases hs
        exact set j h1 _ hj (by rw [hpc]; simp) rfl
      · cases hs
    · cases hs
    · cases hs
  | callback j accept =>
    simp only [step] at hs
    split at hs
    · rename_i h1 hj
      split at hs <;> cases hs
      by_cases hji : j = i
      · subst hji
        rw [hi] at hj; cases hj
        exact .inr (by simp [State.setH])
      · exact .inl (by simp only [State.setH, List.getElem?_set_ne hji]; exact hi)
    · cases hs
  | push data =>
    simp only [step] at hs
    split at hs <;> cases hs
    exact same rfl
  | pushing j l =>
    simp only [step] at hs
    split at hs
    · cases hs
    split at hs
    · cases hs; exact same rfl
    · split at hs <;> cases hs; exact same rfl
    · split at hs <;> cases hs; exact same rfl
    · cases hs
  | gor j l =>
    simp only [step] at hs
    split at hs
    · cases hs
    split at hs
    · cases hs
    split at hs
    · cases hs; exact same rfl
    · cases hs; exact same rfl
    · cases hs
    · cases hs
  | sent j l ok =>
    simp only [step] at hs
    split at hs
    · cases hs
    split at hs
    · cases hs
    split at hs
    · split at hs <;> cases hs <;> exact same rfl
    · cases hs

/-- What was reported stays reported. -/
theorem step_delivered {c : Cfg} {s s' : State} {a : Action} (hs : step c s a = some s') : s.delivered <+: s'.delivered := by
  have same : s'.delivered = s.delivered → s.delivered <+: s'.delivered := fun h => by rw [h]
  cases a with
  | callback j accept =>
    simp only [step] at hs
    split at hs
    · split at hs <;> cases hs
      exact List.prefix_append _ _
    · cases hs
  | _ =>
    simp only [step] at hs
    repeat' split at hs
    all_goals first | (cases hs; done) | (cases hs; exact same rfl)

end Noise.Gossip

namespace Noise.Net
open Spec
variable {ε : Type}
variable {cfg : Nat → Node.Cfg ε} {n : Nat} {σ : Nat → State ε} {α : Nat → Option (Action ε)} {o i : End}

/-- What was logged stays. -/
theorem FairRun.logged (r : FairRun cfg n σ α) {t t' m : Nat} (hle : t ≤ t') {X : Node.State ε} {q : Wk.State ε} (hX : (σ t).nodes[m]? = some X) (hq : X.wk = some q) {e : Wk.Event ε} (he : e ∈ q.log) :
    ∃ (X' : Node.State ε) (q' : Wk.State ε), (σ t').nodes[m]? = some X' ∧ X'.wk = some q' ∧ e ∈ q'.log := by
  refine Fair.stays (P := fun y => ∃ (X' : Node.State ε) (q' : Wk.State ε), (σ y).nodes[m]? = some X' ∧ X'.wk = some q' ∧ e ∈ q'.log) ?_ hle ⟨X, q, hX, hq, he⟩
  rintro y ⟨X, q, hX, hq, he⟩
  obtain ⟨X', hX', ⟨rfl, -⟩ | ⟨a, -, hs⟩⟩ := r.at hX
  · exact ⟨_, q, hX', hq, he⟩
  · obtain ⟨q', g1, -, g2⟩ := (Node.Later.step ((r.inv y).nodes _ _ hX) hs).wk q hq
    exact ⟨X', q', hX', g1, g2.subset he⟩

/-- Every item of the queue of a node without failures has been handled some time. -/
theorem Unbroken.finishes (u : Unbroken σ α o i) (r : FairRun cfg n σ α) (hN : 0 < (cfg i.node).numWorkers) {t k h : Nat} {X : Node.State ε} {q : Wk.State ε} {it : Wk.Item} (hX : (σ t).nodes[i.node]? = some X) (hq : X.wk = some q)
    (hk : q.items[k]? = some it) (hh : h < (cfg i.node).numHandlers) : ∃ (t' : Nat) (X' : Node.State ε) (q' : Wk.State ε), t ≤ t' ∧ (σ t').nodes[i.node]? = some X' ∧ X'.wk = some q' ∧ .finished k h none ∈ q'.log := by
  obtain ⟨t0, hl⟩ := u.linked
  obtain ⟨γ, hr, -⟩ := (u.inn r hl).workers
  have e : (σ t).wkOf cfg i.node = q := by rw [wkOf_at hX, hq]; rfl
  obtain ⟨t1, w, h1, h2⟩ := hr.handled hN (t0 := t) (k := k) (by simp only [e]; exact (List.getElem?_eq_some_iff.1 hk).1) (fun h t => .finished k h none ∈ ((σ t).wkOf cfg i.node).log)
    (fun h t hm => by
      rcases hr.step t with ⟨-, e⟩ | ⟨a, -, -, hs⟩
      · rw [e]; exact hm
      · exact (Link.w_mono hs).2.subset hm)
    (fun t w h hw hg => by
      rcases hr.step t with ⟨e, -⟩ | ⟨a, ha, -, hs⟩
      · rw [hg] at e; cases e
      · rw [hg] at ha; cases ha
        unfold Wk.step at hs
        simp only [hw] at hs
        injection hs with hs
        show _ ∈ ((σ (t + 1)).wkOf cfg i.node).log
        rw [← hs]; simp [Wk.State.setWorker])
  obtain ⟨X1, hX1⟩ := r.has (u.inn r hl).exist t1
  have h3 := h2 h hh
  rw [wkOf_at hX1] at h3
  cases hq1 : X1.wk with
  | none => rw [hq1] at h3; simp [Wk.State.new] at h3
  | some q1 =>
    rw [hq1] at h3
    obtain ⟨X', q', g1, g2, g3⟩ := r.logged (t' := max t t1) (by omega) hX1 hq1 h3
    exact ⟨_, X', q', by omega, g1, g2, g3⟩

end Noise.Net

namespace Noise.GWire
open Spec Net
variable {ε : Type}
variable {c : Cfg ε} {N : Nat} {σ : Nat → State ε} {α : Nat → Option (Action ε)} {β : Nat → Option (Net.Action ε)} {o i : End}

/-- A callback that has begun returns. -/
theorem callback_returns (hx : Execution (step c) σ α) (h0 : Reachable c N (σ 0)) (r : Net.FairRun c.node N (fun t => (σ t).net) β) (u : Unbroken (fun t => (σ t).net) β o i) (hN : 0 < (c.node i.node).numWorkers)
    (hh : c.handler < (c.node i.node).numHandlers) {t : Nat} {p : Part ε} {y : Gossip.Handler} (hp : (σ t).parts[i.node]? = some p) (hy : y ∈ p.g.handlers) (hpc : y.pc = .callback) :
    ∃ (t' : Nat) (p' : Part ε), t ≤ t' ∧ (σ t').parts[i.node]? = some p' ∧ (y.sender, y.data) ∈ p'.g.delivered := by
  obtain ⟨j, hj⟩ := List.getElem?_of_mem hy
  have hr : ∀ t, Reachable c N (σ t) := fun t => h0.trans (Fair.reach hx t)
  obtain ⟨t0, hl⟩ := u.linked
  obtain ⟨X, hX⟩ := r.has (u.inn r hl).exist t
  have w := (Inv2.reach (hr t)).work _ X p hX hp
  obtain ⟨k, hk⟩ : ∃ k, (k, j) ∈ p.runs := by
    have : j ∈ p.runs.map Prod.snd := by rw [w.idx]; exact List.mem_range.2 (List.getElem?_eq_some_iff.1 hj).1
    obtain ⟨⟨k, j'⟩, h1, rfl⟩ := List.mem_map.1 this
    exact ⟨k, h1⟩
  obtain ⟨q, it, y', hq, hit, -⟩ := w.item k j hk
  obtain ⟨t1, X1, q1, h1, hX1, hq1, hf⟩ := u.finishes r hN hX hq hit hh
  have key : ∃ p1 : Part ε, (σ t1).parts[i.node]? = some p1 ∧ (k, j) ∈ p1.runs ∧ (p1.g.handlers[j]? = some y ∨ (y.sender, y.data) ∈ p1.g.delivered) := by
    refine Fair.stays (P := fun t => ∃ p1 : Part ε, (σ t).parts[i.node]? = some p1 ∧ (k, j) ∈ p1.runs ∧ (p1.g.handlers[j]? = some y ∨ (y.sender, y.data) ∈ p1.g.delivered)) ?_ h1 ⟨p, hp, hk, .inl hj⟩
    rintro t ⟨p, hp, hk, hj⟩
    rcases hx t with ⟨-, e⟩ | ⟨a, -, hs⟩
    · rw [e]; exact ⟨p, hp, hk, hj⟩
    · obtain ⟨p', hp', hrun⟩ := runs_step hs hp
      refine ⟨p', hp', hrun.subset hk, ?_⟩
      cases step_eff hs with
      | net b h1 h2 => rw [h2, hp] at hp'; cases hp'; exact hj
      | gossip m x p0 p1 b hx hp0 hn hps hg =>
        rw [hps] at hp'
        rcases (parts_set hp0).1 hp' with ⟨rfl, rfl⟩ | ⟨-, h⟩
        · rw [hp] at hp0; cases hp0
          rcases hj with hj | hj
          · exact Gossip.step_callback hg hj hpc
          · exact .inr ((Gossip.step_delivered hg).subset hj)
        · rw [hp] at h; cases h; exact hj
      | send m x p0 k j q gg hx hp0 hq hgg hpc hno hn hps =>
        rw [hps] at hp'
        rcases (parts_set hp0).1 hp' with ⟨rfl, rfl⟩ | ⟨-, h⟩
        · rw [hp] at hp0; cases hp0; exact hj
        · rw [hp] at h; cases h; exact hj
  obtain ⟨p1, hp1, hk1, hj1 | hj1⟩ := key
  · have w1 := (Inv2.reach (hr t1)).work _ X1 p1 hX1 hp1
    obtain ⟨it1, g1, ⟨g2, -⟩ | ⟨j', y1, g2, g3, g4, -⟩⟩ := w1.fin q1 k none hq1 hf
    · obtain ⟨q2, it2, y2, e1, e2, -, e3⟩ := w1.item k j hk1
      rw [hq1] at e1; cases e1
      rw [g1] at e2; cases e2
      rw [g2] at e3; cases e3
    · have : j' = j := by
        have hnd := w1.once
        have := (List.nodup_map_iff_inj_on (List.Nodup.of_map _ hnd)).1 hnd _ g2 _ hk1 rfl
        cases this; rfl
      subst this
      rw [hj1] at g3; cases g3
      rw [hpc] at g4; cases g4
  · exact ⟨t1, p1, h1, hp1, hj1⟩

end Noise.GWire
