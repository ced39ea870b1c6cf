import Verif.Model.IterShare
import Verif.Proofs.Iterator
/-! # Calls of `Find` on one iterator, one after the other -/
namespace Noise.Iter.Reuse

def isFind : Action → Bool
  | .find _ _ => true
  | _ => false

/-- `Find` is called only when all calls so far have returned. -/
def seqStep (S : Sorter) (o : Opts) (s : State) (a : Action) : Option State :=
  if isFind a = true ∧ ∃ c ∈ s.calls, c.returned = none then none else step S o s a

structure TInv (c : Cfg) (t : Iter.State) : Prop where
  inv : ∀ l ∈ t.lookups, LInv c l
  closed : t.closed = true → ∀ l ∈ t.lookups, l.main = .done
  ret : t.returned ≠ none → t.closed = true ∧ t.shared.chan = []

theorem TInv.init {c : Cfg} {n : Nat} {peers : List ID} {t : Iter.State} (h : Iter.init c n peers = .ok t) : TInv c t := by
  unfold Iter.init at h
  split at h
  · cases h
  · cases h
    refine ⟨?_, by simp, by simp⟩
    intro l hl
    obtain ⟨b, _, rfl⟩ := List.mem_map.1 hl
    exact LInv.new c b

theorem TInv.step {S : Sorter} {c : Cfg} {t t' : Iter.State} {a : Iter.Action} (h : TInv c t) (hs : Iter.step S c t a = some t') : TInv c t' := by
  cases a with
  | lookup i a =>
    simp only [Iter.step] at hs
    split at hs
    · rename_i l hl
      split at hs
      · rename_i sh l' hst
        cases hs
        have hm := List.mem_of_getElem? hl
        refine ⟨?_, ?_, ?_⟩
        · intro x hx
          rcases List.mem_or_eq_of_mem_set hx with hx | rfl
          · exact h.inv x hx
          · exact LInv.step (h.inv l hm) hst
        · intro hc
          exact (done_stuck (h.inv l hm) (h.closed hc l hm) hst).elim
        · intro hr
          exact (done_stuck (h.inv l hm) (h.closed (h.ret hr).1 l hm) hst).elim
      · cases hs
    · cases hs
  | close =>
    simp only [Iter.step] at hs
    split at hs
    · rename_i hc
      cases hs
      refine ⟨h.inv, fun _ l hl => by simpa using List.all_eq_true.1 hc.2 l hl, fun hr => ?_⟩
      exact absurd (h.ret hr).1 (by simp [hc.1])
    · cases hs
  | collect =>
    simp only [Iter.step] at hs
    split at hs
    · rename_i id rest hc
      cases hs
      refine ⟨h.inv, h.closed, fun hr => ?_⟩
      exact absurd (h.ret hr).2 (by simp [hc])
    · cases hs
  | finish =>
    simp only [Iter.step] at hs
    split at hs
    · rename_i hc
      cases hs
      exact ⟨h.inv, h.closed, fun _ => ⟨hc.1, hc.2.1⟩⟩
    · cases hs

/-- The call is at the point where a call on a new iterator can be. -/
structure Sim (S : Sorter) (o : Opts) (c : Call) (t : Iter.State) : Prop where
  run : ∃ t0 as, Iter.init (o.cfg c.target) o.lookups c.peers = .ok t0 ∧ runs (Iter.step S (o.cfg c.target)) t0 as = some t
  inv : TInv (o.cfg c.target) t
  lookups : t.lookups = c.lookups
  asked : t.shared.asked = c.asked
  replies : t.shared.replies = c.replies
  ended : t.closed = c.ended
  collected : t.collected = c.collected
  returned : t.returned = c.returned

structure Panicked (o : Opts) (c : Call) : Prop where
  init : ∀ t, Iter.init (o.cfg c.target) o.lookups c.peers ≠ .ok t
  returned : c.returned = some .panic
  ended : c.ended = true
  lookups : c.lookups = []
  chan : c.chan = none

def Dead (S : Sorter) (o : Opts) (s : State) (k : Nat) (c : Call) : Prop :=
  Panicked o c ∨ ((∃ t, Sim S o c t) ∧ c.returned ≠ none ∧ c.chan = some k ∧ s.chans[k]? = some ⟨[], true⟩)

def Live (S : Sorter) (o : Opts) (s : State) (k : Nat) (c : Call) : Prop :=
  Panicked o c ∨ ∃ t, Sim S o c t ∧ t.shared.visited = s.visited ∧ s.chans[k]? = some ⟨t.shared.chan, t.closed⟩ ∧ s.buckets = c.lookups.map Lookup.bucket ∧
    (c.chan = some k ∨ c.chan = none ∧ c.returned = none)

structure SInv (S : Sorter) (o : Opts) (s : State) : Prop where
  crashed : s.crashed = false
  len : s.chans.length = s.calls.length
  results : s.results = s.calls.length - 1
  dead : ∀ k c, s.calls[k]? = some c → k + 1 < s.calls.length → Dead S o s k c
  live : ∀ k c, s.calls[k]? = some c → k + 1 = s.calls.length → Live S o s k c

theorem SInv.new (S : Sorter) (o : Opts) : SInv S o State.new := ⟨rfl, rfl, rfl, by simp [State.new], by simp [State.new]⟩

theorem Live.dead {S : Sorter} {o : Opts} {s : State} {k : Nat} {c : Call} (h : Live S o s k c) (hr : c.returned ≠ none) : Dead S o s k c := by
  rcases h with h | ⟨t, h, _, h2, _, h4⟩
  · exact Or.inl h
  · rcases h4 with h4 | ⟨_, h4⟩
    · obtain ⟨h5, h6⟩ := h.inv.ret (by rw [h.returned]; exact hr)
      rw [h5, h6] at h2
      exact Or.inr ⟨⟨t, h⟩, hr, h4, h2⟩
    · exact absurd h4 hr

theorem stuck {c : Cfg} {sh sh' : Shared} {l l' : Lookup} {a : LAction} (hw : ∀ (j : Nat) (w : Worker), l.workers[j]? = some w → w = .exited) (hd : l.main = .done)
    (hs : lookupStep c sh l a = some (sh', l')) : False := by
  cases a <;> simp only [lookupStep] at hs
  · simp [mainStep, hd] at hs
  · rename_i j
    split at hs
    · rename_i w h
      rw [hw j w h] at hs
      simp [workerStep] at hs
    · cases hs
  · rename_i j _ _
    split at hs
    · rename_i w h
      cases hw j _ h
    · cases hs

/-- the call to which a step belongs -/
def Action.call : Action → Option Nat
  | .find _ _ => none
  | .lookup k _ _ | .close k | .range k | .collect k | .finish k => some k

theorem Dead.stuck {S : Sorter} {o : Opts} {s s' : State} {k : Nat} {c : Call} {a : Action} (h : Dead S o s k c) (hc : s.calls[k]? = some c) (ha : a.call = some k)
    (hs : step S o s a = some s') : False := by
  unfold step at hs
  split at hs
  · cases hs
  rename_i hcr
  cases a <;> simp only [Action.call, Option.some.injEq, reduceCtorEq] at ha <;> subst ha <;> simp only [hc] at hs
  · rename_i i a
    rcases h with h | ⟨⟨t, h⟩, h1, h2, h3⟩
    · split at hs
      · rename_i c' ch hc' _
        cases hc'
        simp [h.lookups] at hs
      · cases hs
    · split at hs
      · rename_i c' ch hc' _
        cases hc'
        split at hs
        · rename_i l b hl _
          split at hs
          · rename_i sh l' hst
            have hcl := (h.inv.ret (by rw [h.returned]; exact h1)).1
            have hm : l ∈ t.lookups := by rw [h.lookups]; exact List.mem_of_getElem? hl
            exact Reuse.stuck (l := { l with bucket := b }) ((h.inv.inv l hm).done (h.inv.closed hcl l hm)) (h.inv.closed hcl l hm) hst
          · cases hs
        · cases hs
      · cases hs
  · have he : c.ended = true := by
      rcases h with h | ⟨⟨t, h⟩, h1, h2, h3⟩
      · exact h.ended
      · rw [← h.ended]; exact (h.inv.ret (by rw [h.returned]; exact h1)).1
    split at hs
    · rename_i c' ch hc' _
      cases hc'
      simp [he] at hs
    · cases hs
  · have he : c.returned ≠ none := by
      rcases h with h | ⟨⟨t, h⟩, h1, h2, h3⟩
      · rw [h.returned]; simp
      · exact h1
    simp [he] at hs
  · rcases h with h | ⟨⟨t, h⟩, h1, h2, h3⟩
    · simp [h.chan] at hs
    · simp [h2, h3] at hs
  · rcases h with h | ⟨⟨t, h⟩, h1, h2, h3⟩
    · simp [h.chan] at hs
    · simp [h2, h3, h1] at hs

theorem SInv.find {S : Sorter} {o : Opts} {s : State} (h : SInv S o s) (hall : ∀ c ∈ s.calls, c.returned ≠ none) {v : List PublicKey} {b : List (List ID)} {c : Call}
    (hc : ∀ s' : State, s'.visited = v → s'.buckets = b → s'.chans[s.calls.length]? = some ⟨[], false⟩ → Live S o s' s.calls.length c) : SInv S o (s.start v b c) := by
  have hdead : ∀ k c', s.calls[k]? = some c' → Dead S o s k c' := by
    intro k c' hk
    have hlt := (List.getElem?_eq_some_iff.1 hk).1
    by_cases e : k + 1 < s.calls.length
    · exact h.dead k c' hk e
    · exact (h.live k c' hk (by omega)).dead (hall c' (List.mem_of_getElem? hk))
  refine ⟨h.crashed, by simp [State.start, h.len], by simp [State.start, h.len], ?_, ?_⟩
  · intro k c' hk hlt
    simp only [State.start, List.length_append, List.length_singleton] at hk hlt
    have hk' : k < s.calls.length := by omega
    rw [List.getElem?_append_left hk'] at hk
    rcases hdead k c' hk with hd | ⟨h1, h2, h3, h4⟩
    · exact Or.inl hd
    · refine Or.inr ⟨h1, h2, h3, ?_⟩
      simp only [State.start]
      rw [List.getElem?_append_left (by rw [h.len]; exact hk')]
      exact h4
  · intro k c' hk hlt
    simp only [State.start, List.length_append, List.length_singleton] at hk hlt
    have hk' : k = s.calls.length := by omega
    subst hk'
    rw [List.getElem?_append_right (Nat.le_refl _)] at hk
    simp only [Nat.sub_self, List.getElem?_cons_zero, Option.some.injEq] at hk
    subst hk
    refine hc _ rfl rfl ?_
    simp only [State.start]
    rw [List.getElem?_append_right (Nat.le_of_eq h.len), h.len]
    simp

/-- The last call takes a step. -/
theorem SInv.last {S : Sorter} {o : Opts} {s s' : State} {k : Nat} {c : Call} (h : SInv S o s) (hk : s.calls[k]? = some c) (hlast : k + 1 = s.calls.length) {ch : Chan} {c' : Call}
    (h1 : s'.crashed = false) (h2 : s'.chans = s.chans.set k ch) (h3 : s'.results = s.results) (h4 : s'.calls = s.calls.set k c')
    (hl : s'.chans[k]? = some ch → Live S o s' k c') : SInv S o s' := by
  have hkl : k < s.chans.length := by rw [h.len]; omega
  refine ⟨h1, by rw [h2, h4, List.length_set, List.length_set, h.len], by rw [h3, h4, List.length_set, h.results], ?_, ?_⟩
  · intro j d hj hlt
    rw [h4] at hj hlt
    rw [List.length_set] at hlt
    rw [List.getElem?_set_ne (by omega)] at hj
    rcases h.dead j d hj hlt with hd | ⟨g1, g2, g3, g4⟩
    · exact Or.inl hd
    · refine Or.inr ⟨g1, g2, g3, ?_⟩
      rw [h2, List.getElem?_set_ne (by omega)]
      exact g4
  · intro j d hj hlt
    rw [h4] at hj hlt
    rw [List.length_set] at hlt
    have : j = k := by omega
    subst this
    rw [List.getElem?_set_self (by omega)] at hj
    cases hj
    exact hl (by rw [h2, List.getElem?_set_self hkl])

theorem Sim.step {S : Sorter} {o : Opts} {c c' : Call} {t t' : Iter.State} {a : Iter.Action} (h : Sim S o c t) (hs : Iter.step S (o.cfg c.target) t a = some t')
    (h1 : c'.target = c.target) (h2 : c'.peers = c.peers) (g1 : t'.lookups = c'.lookups) (g2 : t'.shared.asked = c'.asked) (g3 : t'.shared.replies = c'.replies)
    (g4 : t'.closed = c'.ended) (g5 : t'.collected = c'.collected) (g6 : t'.returned = c'.returned) : Sim S o c' t' := by
  obtain ⟨t0, as, i0, i1⟩ := h.run
  refine ⟨⟨t0, as ++ [a], by rw [h1, h2]; exact i0, ?_⟩, by rw [h1]; exact h.inv.step hs, g1, g2, g3, g4, g5, g6⟩
  rw [h1, runs_append, i1]
  simp [runs, hs]

theorem SInv.step {S : Sorter} {o : Opts} {s s' : State} {a : Action} (h : SInv S o s) (hs : seqStep S o s a = some s') : SInv S o s' := by
  unfold seqStep at hs
  split at hs
  · cases hs
  rename_i hseq
  cases hcall : a.call with
  | none =>
    cases a <;> simp only [Action.call, reduceCtorEq] at hcall
    rename_i target peers
    have hall : ∀ c ∈ s.calls, c.returned ≠ none := fun c hc hr => hseq ⟨rfl, c, hc, hr⟩
    unfold Reuse.step at hs
    rw [h.crashed] at hs
    simp only [Bool.false_eq_true, if_false] at hs
    split at hs
    · rename_i t ht
      cases hs
      refine h.find hall fun s' h1 h2 h3 => Or.inr ⟨t, ⟨⟨t, [], ht, rfl⟩, TInv.init ht, rfl, ?_, ?_, ?_, ?_, ?_⟩, h1.symm, ?_, h2, Or.inr ⟨rfl, rfl⟩⟩
      all_goals (unfold Iter.init at ht; split at ht <;> cases ht; first | rfl | exact h3)
    · rename_i hne
      cases hs
      exact h.find hall fun s' h1 h2 h3 => Or.inl ⟨fun t ht => hne t ht, rfl, rfl, rfl, rfl⟩
  | some k =>
    rcases hk : s.calls[k]? with _ | c
    · exfalso
      unfold Reuse.step at hs
      rw [h.crashed] at hs
      cases a <;> simp only [Action.call, Option.some.injEq, reduceCtorEq] at hcall <;> subst hcall <;> simp [hk] at hs
    · have hlt := (List.getElem?_eq_some_iff.1 hk).1
      by_cases e : k + 1 < s.calls.length
      · exact ((h.dead k c hk e).stuck hk hcall hs).elim
      · have hlast : k + 1 = s.calls.length := by omega
        have hres : s.results = k := by rw [h.results]; omega
        by_cases hret : c.returned = none
        · rcases h.live k c hk hlast with hp | ⟨t, hsim, hv, hch, hb, hchan⟩
          · rw [hp.returned] at hret; cases hret
          · unfold Reuse.step at hs
            rw [h.crashed] at hs
            simp only [Bool.false_eq_true, if_false] at hs
            have htret : t.returned = none := by rw [hsim.returned, hret]
            cases a <;> simp only [Action.call, Option.some.injEq, reduceCtorEq] at hcall <;> subst hcall <;> simp only [hk, hres, hch] at hs
            · rename_i i a
              split at hs
              · rename_i l b hl hbi
                rw [hb, List.getElem?_map, hl] at hbi
                simp only [Option.map_some, Option.some.injEq] at hbi
                subst hbi
                split at hs
                · rename_i sh l' hst
                  have hst' : Iter.step S (o.cfg c.target) t (.lookup i a) = some { t with shared := sh, lookups := t.lookups.set i l' } := by
                    have e1 : (⟨s.visited, t.shared.chan, c.asked, c.replies⟩ : Shared) = t.shared := by rw [← hv, ← hsim.asked, ← hsim.replies]
                    rw [e1] at hst
                    simp only [Iter.step, hsim.lookups, hl]
                    rw [show lookupStep (o.cfg c.target) t.shared l a = some (sh, l') from hst]
                  have hopen : t.closed = false := by
                    by_contra hcl
                    have hcl : t.closed = true := by simpa using hcl
                    have hm : l ∈ t.lookups := by rw [hsim.lookups]; exact List.mem_of_getElem? hl
                    exact Reuse.stuck (l := { l with bucket := l.bucket }) ((hsim.inv.inv l hm).done (hsim.inv.closed hcl l hm)) (hsim.inv.closed hcl l hm) hst
                  rw [if_neg (by simp [hopen])] at hs
                  cases hs
                  refine h.last hk hlast rfl rfl hres.symm rfl fun hch' => Or.inr ⟨_, hsim.step hst' rfl rfl ?_ rfl rfl ?_ ?_ ?_, rfl, hch', ?_, ?_⟩
                  · simp only [hsim.lookups]
                  · exact hsim.ended
                  · exact hsim.collected
                  · exact hsim.returned
                  · simp only [List.map_set, hb]
                  · exact hchan
                · cases hs
              · cases hs
            · split at hs
              · rename_i hcl
                rw [← hsim.ended] at hcl
                rw [if_neg (by simp [hcl.1])] at hs
                cases hs
                have hst' : Iter.step S (o.cfg c.target) t .close = some { t with closed := true } := by
                  simp only [Iter.step, hsim.lookups]
                  rw [if_pos hcl]
                exact h.last hk hlast rfl rfl hres.symm rfl fun hch' => Or.inr ⟨_, hsim.step hst' rfl rfl hsim.lookups hsim.asked hsim.replies rfl hsim.collected hsim.returned, hv, hch', hb, hchan⟩
              · cases hs
            · split at hs
              · cases hs
                refine h.last (ch := ⟨t.shared.chan, t.closed⟩) hk hlast rfl ?_ hres.symm rfl fun hch' => Or.inr ⟨t, ⟨hsim.run, hsim.inv, hsim.lookups, hsim.asked, hsim.replies, hsim.ended, hsim.collected, hsim.returned⟩, hv, hch', hb, Or.inl rfl⟩
                obtain ⟨hx, hy⟩ := List.getElem?_eq_some_iff.1 hch
                simp only
                rw [← hy, List.set_getElem_self]
              · cases hs
            · rcases hchan with hchan | ⟨hchan, _⟩
              · simp only [hchan, hch] at hs
                split at hs
                · rename_i id rest hbuf
                  cases hs
                  have hst' : Iter.step S (o.cfg c.target) t .collect = some { t with shared := { t.shared with chan := rest }, collected := t.collected ++ [id] } := by
                    simp only [Iter.step, hbuf]
                  exact h.last hk hlast rfl rfl hres.symm rfl fun hch' => Or.inr ⟨_, hsim.step hst' rfl rfl hsim.lookups hsim.asked hsim.replies hsim.ended (by simp [hsim.collected]) hsim.returned, hv, hch', hb, Or.inl rfl⟩
                · cases hs
              · simp [hchan] at hs
            · rcases hchan with hchan | ⟨hchan, _⟩
              · simp only [hchan, hch] at hs
                split at hs
                · rename_i hcond
                  cases hs
                  have hst' : Iter.step S (o.cfg c.target) t .finish = some { t with returned := some (truncate o.max (sortByDistance S c.target c.collected)) } := by
                    simp only [Iter.step, ← hsim.collected]
                    rw [if_pos ⟨hcond.1, hcond.2.1, htret⟩]
                    rfl
                  refine h.last (ch := ⟨t.shared.chan, t.closed⟩) hk hlast rfl ?_ hres.symm rfl fun hch' => Or.inr ⟨_, hsim.step hst' rfl rfl hsim.lookups hsim.asked hsim.replies hsim.ended hsim.collected rfl, hv, hch', hb, Or.inl rfl⟩
                  obtain ⟨hx, hy⟩ := List.getElem?_eq_some_iff.1 hch
                  simp only
                  rw [← hy, List.set_getElem_self]
                · cases hs
              · simp [hchan] at hs
        · exact (((h.live k c hk hlast).dead hret).stuck hk hcall hs).elim

end Noise.Iter.Reuse
