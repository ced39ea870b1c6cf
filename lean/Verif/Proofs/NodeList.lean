import Verif.Proofs.NodeCalls
/-! # The whole node: its pools have every connection that has not ended -/
namespace Noise.Node
variable {ε : Type}

/-- Client `j` is an outbound one and has not removed itself from the pool. -/
def liveOut (s : State ε) (j : Nat) : Prop := ∃ x : Conn ε, s.conns[j]? = some x ∧ x.c.side = .outbound ∧ ¬ past x.c

/-- The outbound clients that have not removed themselves are in the pool, or being evicted. -/
def OutCover (s : State ε) : Prop := ∀ j, liveOut s j → (∃ e ∈ (s.pool .outbound).entries, e.2 = j) ∨ ∃ k, ev s (.call k) = some j

theorem Mild.liveOut {s s' : State ε} (h : Mild s s') {j : Nat} (hl : liveOut s' j) : liveOut s j := by
  obtain ⟨x', hx', hs, hp⟩ := hl
  have hj : j < s.conns.length := by rw [← h.len]; exact (List.getElem?_eq_some_iff.1 hx').1
  obtain ⟨x2, h2, -, h4, h5⟩ := h.old j _ (List.getElem?_eq_getElem hj)
  rw [hx'] at h2; cases h2
  exact ⟨_, List.getElem?_eq_getElem hj, h4 ▸ hs, fun hh => hp (h5.2 hh)⟩

theorem liveOut_push {s s' : State ε} {a : Text} {d : Cl.Side} (hc : s'.conns = s.conns ++ [⟨a, Cl.State.new d, false⟩]) {j : Nat} (hl : liveOut s' j) : liveOut s j ∨ (j = s.conns.length ∧ d = .outbound) := by
  obtain ⟨x, hx, hs, hp⟩ := hl
  rw [hc] at hx
  by_cases hlt : j < s.conns.length
  · rw [List.getElem?_append_left hlt] at hx; exact .inl ⟨x, hx, hs, hp⟩
  · rw [List.getElem?_append_right (by omega)] at hx
    have hj : j - s.conns.length = 0 := by
      have := (List.getElem?_eq_some_iff.1 hx).1
      simp at this; omega
    rw [hj] at hx
    simp only [List.getElem?_cons_zero, Option.some.injEq] at hx
    subst hx
    exact .inr ⟨by omega, hs⟩

theorem OutCover.step {cfg : Cfg ε} {s s' : State ε} {a : Action ε} (hr : Reachable cfg s) (hi : OutCover s) (h : step cfg s a = some s') : OutCover s' := by
  have hv := Inv.reach hr
  have hre := Reaches.reach hr
  rcases step_eff h with h | rfl
  swap
  · exact hi
  cases h with
  | quiet hp hm he hr => intro j hj; rw [hp, he]; exact hi j (hm.liveOut hj)
  | found d e hl hf hp hc he hr =>
    intro j hj
    rw [he]
    have hj' : liveOut s j := by unfold liveOut at hj ⊢; rw [hc] at hj; exact hj
    rcases hi j hj' with ⟨q, h1, h2⟩ | h1
    · left
      refine ⟨q, ?_, h2⟩
      rw [hp]; simp only
      split
      · next hd =>
        subst hd
        by_cases hqe : q.1 = e.1
        · have h3 := find_fst (hv.nodup _) h1
          rw [hqe, hf] at h3
          cases h3
          exact List.mem_cons_self
        · exact List.mem_cons_of_mem _ (List.mem_filter.2 ⟨h1, by simp [hqe]⟩)
      · exact h1
    · exact .inr h1
  | added d a hl hf hn hp hc he hd hr hw hacc =>
    intro j hj
    rw [he, hp]; simp only
    rcases liveOut_push hc hj with hj | ⟨hj, hd⟩
    · rcases hi j hj with ⟨q, h1, h2⟩ | h1
      · left
        refine ⟨q, ?_, h2⟩
        split
        · next hd => subst hd; exact List.mem_cons_of_mem _ h1
        · exact h1
      · exact .inr h1
    · subst hd
      exact .inl ⟨_, List.mem_cons_self, hj.symm⟩
  | evict t e hl hn hg hp hm he0 he heo hd hr hw =>
    intro j hj
    have hother : (∃ k, ev s (.call k) = some j) → ∃ k, ev s' (.call k) = some j := by
      rintro ⟨k, hk⟩
      refine ⟨k, ?_⟩
      have : Tid.call k ≠ t := fun hh => by rw [hh, he0] at hk; cases hk
      rw [heo _ this]; exact hk
    rcases hi j (hm.liveOut hj) with ⟨q, h1, h2⟩ | h1
    · rw [hp]; simp only
      split
      · next hd' =>
        rw [← hd'] at hg
        rw [eq_dropLast_append hg] at h1
        rcases List.mem_append.1 h1 with h1 | h1
        · exact .inl ⟨q, hd' ▸ h1, h2⟩
        · simp only [List.mem_singleton] at h1
          subst h1
          right
          cases t with
          | accept => cases hd'
          | call k => exact ⟨k, h2 ▸ he⟩
      · exact .inl ⟨q, h1, h2⟩
    · exact .inr (hother h1)
  | evicted t v a he0 hd hp hc he heo hs hr =>
    intro j hj
    rw [hp]; simp only
    rcases liveOut_push hc hj with hj | ⟨hj, hd⟩
    · rcases hi j hj with ⟨q, h1, h2⟩ | ⟨k, h1⟩
      · left
        refine ⟨q, ?_, h2⟩
        split
        · next hd => exact List.mem_cons_of_mem _ (hd ▸ h1)
        · exact h1
      · by_cases hk : Tid.call k = t
        · rw [hk, he0] at h1; cases h1
          obtain ⟨x, hx, -, hnp⟩ := hj
          exact absurd (done_past hre hx hd) hnp
        · exact .inr ⟨k, by rw [heo _ hk]; exact h1⟩
    · left
      rw [hd]
      exact ⟨_, by rw [if_pos rfl]; exact List.mem_cons_self, hj.symm⟩
  | removed j x hx hrm hl hp hlen hc he hr =>
    have hlive : ∀ i, liveOut s' i → liveOut s i ∧ i ≠ j := by
      rintro i ⟨y', hy', hs, hnp⟩
      have hlt : i < s.conns.length := by rw [← hlen]; exact (List.getElem?_eq_some_iff.1 hy').1
      obtain ⟨y2, g1, -, g3, g4, -⟩ := hc i _ (List.getElem?_eq_getElem hlt)
      rw [hy'] at g1; cases g1
      exact ⟨⟨_, List.getElem?_eq_getElem hlt, g3 ▸ hs, fun hh => hnp (g4.2 (.inl hh))⟩, fun hh => hnp (g4.2 (.inr hh))⟩
    intro i hi'
    obtain ⟨h1, h2⟩ := hlive i hi'
    rw [he]
    rcases hi i h1 with ⟨q, h3, h4⟩ | h3
    · left
      refine ⟨q, ?_, h4⟩
      rw [hp]; simp only
      split
      · next hb =>
        refine List.mem_filter.2 ⟨hb ▸ h3, ?_⟩
        simp only [ne_eq, decide_not, Bool.not_eq_true', decide_eq_false_iff_not]
        intro hqa
        have hlj : liveOut s j := ⟨x, hx, hb.symm, by simp [past, hrm]⟩
        rcases hi j hlj with ⟨q', h5, h6⟩ | ⟨k, h5⟩
        · obtain ⟨y, g1, g2, -⟩ := hv.ent _ q' h5
          rw [h6, hx] at g1; cases g1
          have h7 := find_fst (hv.nodup _) h3
          have h8 := find_fst (hv.nodup _) h5
          rw [← g2, ← hqa, h7] at h8
          cases h8
          exact h2 (h4.symm.trans h6)
        · have := (hv.evict _ _ h5).1
          rw [← hb] at hl
          simp only [Tid.side] at this
          rw [hl] at this; cases this
      · exact h3
    · exact .inr h3
  | released l hl hperm ha hb hp hm he =>
    intro j hj
    rw [hp, he]
    simpa using hi j (hm.liveOut hj)

theorem OutCover.reach {cfg : Cfg ε} {s : State ε} (h : Reachable cfg s) : OutCover s :=
  (h.inv (P := fun s => Reachable cfg s ∧ OutCover s) (fun _ _ _ ⟨h1, h2⟩ hs => ⟨h1.snoc hs, h2.step h1 hs⟩) ⟨.refl _, fun j => by rintro ⟨x, hx, -⟩; cases hx⟩).2

/-- The inbound pool, once released, stays empty. -/
def Emptied (s : State ε) : Prop := s.accept.released = true → (s.pool .inbound).entries = []

theorem released_stage {a : Accept} : a.released = true ↔ 5 ≤ a.stage := by cases a <;> simp [Accept.stage, Accept.released]

theorem release_stays {cfg : Cfg ε} {s s' : State ε} {a : Action ε} (hs : s.accept = .release) (h : step cfg s a = some s') : s'.accept = .release ∨ (s'.pool .inbound).entries = [] := by
  by_cases ho : a.other = true
  · left; rw [(step_keeps ho h).accept]; exact hs
  · unfold step at h
    split at h
    · cases h
    · cases a with
      | listen => simp [hs] at h
      | acceptConn a => simp [hs] at h
      | acceptFail => simp [hs] at h
      | acceptStep => simp [State.acceptStep, hs] at h
      | acceptRelease l =>
        simp only [hs] at h
        split at h
        · cases h; right; simp [State.setPool]
        · cases h
      | close => simp only at h; split at h <;> · cases h; exact .inl hs
      | closeListener c => simp only at h; split at h; cases h; exact .inl hs; cases h
      | closeRecv c =>
        simp only at h
        split at h
        · split at h
          · cases h; exact .inl hs
          · split at h
            · cases h; exact .inl hs
            · cases h
        · cases h
      | _ => simp [Action.other] at ho

theorem Emptied.step {cfg : Cfg ε} {s s' : State ε} {a : Action ε} (hi : Emptied s) (h : step cfg s a = some s') : Emptied s' := by
  intro hrel
  by_cases h0 : s.accept = .release
  · rcases release_stays h0 h with h1 | h1
    · rw [h1] at hrel; cases hrel
    · exact h1
  have hrel0 : s.accept.released = true := by
    rw [released_stage] at hrel ⊢
    cases adv h with
    | same h1 => rw [← h1]; exact hrel
    | early h1 h2 => omega
    | release l h1 => exact absurd h1 h0
    | mark l h1 => rw [h1]; simp [Accept.stage]
    | next j l h1 => rw [h1]; simp [Accept.stage]
    | released b h1 => rw [h1]; simp [Accept.stage]
    | closeWork h1 => rw [h1]; simp [Accept.stage]
    | waited w h1 => rw [h1]; simp [Accept.stage]
    | store h1 => rw [h1]; simp [Accept.stage]
    | ended h1 => rw [h1]; simp [Accept.stage]
  have he := hi hrel0
  have hns : s.accept.serving = false := serving_stage (by rw [released_stage] at hrel0; omega)
  rcases step_eff h with h | rfl
  swap
  · exact he
  cases h with
  | quiet hp hm => rw [hp]; exact he
  | found d e hl hf hp hc => rw [hp]; simp only; split; · next hd => subst hd; rw [he] at hf; cases hf
                             · exact he
  | added d a hl hf hn hp hc _ hd => rw [hp]; simp only; split; · next hdd => rw [hd hdd.symm] at hns; cases hns
                                     · exact he
  | evict t e hl hn hg hp hm he0 _ heo hd => rw [hp]; simp only; split; · next hdd => rw [hd hdd.symm] at hns; cases hns
                                             · exact he
  | evicted t v a he0 hd hp hc _ heo hs => rw [hp]; simp only; split; · next hdd => rw [hs hdd.symm] at hns; cases hns
                                           · exact he
  | removed j x hx hrm hl hp => rw [hp]; simp only; split; · next hdd => rw [← hdd, he]; rfl
                                · exact he
  | released l hl hperm ha hb hp => rw [hp]; simp

theorem Emptied.reach {cfg : Cfg ε} {s : State ε} (h : Reachable cfg s) : Emptied s :=
  h.inv (P := Emptied) (fun _ _ _ h2 hs => h2.step hs) (fun h => by cases h)

/-- When nobody holds the mutex, the pool has the connections that have not ended - unless it was released. -/
theorem listed {cfg : Cfg ε} {s : State ε} (h : Reachable cfg s) (d : Cl.Side) (hl : (s.pool d).lock = none) (hrel : d = .inbound → s.accept.released = false) {j : Nat} {x : Conn ε} (hx : s.conns[j]? = some x)
    (hs : x.c.side = d) (hp : ¬ past x.c) : (x.addr, j) ∈ (s.pool d).entries := by
  have hv := Inv.reach h
  have hmem : ∃ e ∈ (s.pool d).entries, e.2 = j := by
    cases d with
    | inbound =>
      rcases hv.cover (hrel rfl) j ⟨x, hx, hs, hp⟩ with h1 | h1
      · exact h1
      · have := (hv.evict _ _ h1).1
        rw [show Tid.accept.side = .inbound from rfl, hl] at this; cases this
    | outbound =>
      rcases OutCover.reach h j ⟨x, hx, hs, hp⟩ with h1 | ⟨k, h1⟩
      · exact h1
      · have := (hv.evict _ _ h1).1
        rw [show (Tid.call k).side = .outbound from rfl, hl] at this; cases this
  obtain ⟨e, h1, h2⟩ := hmem
  obtain ⟨y, g1, g2, -⟩ := hv.ent d e h1
  rw [h2, hx] at g1; cases g1
  rw [← h2, g2]; exact h1

theorem entries_snd_nodup {cfg : Cfg ε} {s : State ε} (h : Reachable cfg s) (d : Cl.Side) : ((s.pool d).entries.map Prod.snd).Nodup := by
  have hv := Inv.reach h
  have hp : (s.pool d).entries.Pairwise (fun e e' => e.1 ≠ e'.1) := List.pairwise_map.1 (hv.nodup d)
  refine List.pairwise_map.2 (hp.imp_of_mem fun {e e'} he he' hne heq => hne ?_)
  rw [hv.entry he he' heq]

/-- What the end of a client removes from a pool is its own entry. -/
theorem own_entry {cfg : Cfg ε} {s : State ε} (h : Reachable cfg s) {j : Nat} {x : Conn ε} (hx : s.conns[j]? = some x) (hrm : x.c.main = .remove) (hl : (s.pool x.c.side).lock = none) {e : Text × Nat}
    (he : e ∈ (s.pool x.c.side).entries) : e.1 = x.addr ↔ e.2 = j := by
  have hv := Inv.reach h
  constructor
  · intro ha
    by_cases hrel : x.c.side = .inbound → s.accept.released = false
    · have hmem := listed h x.c.side hl hrel hx rfl (by simp [past, hrm])
      have g := find_fst (hv.nodup _) he
      have g' := find_fst (hv.nodup _) hmem
      simp only at g'
      rw [ha, g'] at g
      cases g
      rfl
    · simp only [Classical.not_imp, Bool.not_eq_false] at hrel
      rw [hrel.1, Emptied.reach h hrel.2] at he
      cases he
  · intro hj
    obtain ⟨y, g1, g2, -⟩ := hv.ent _ e he
    rw [hj, hx] at g1; cases g1
    exact g2.symm

end Noise.Node
