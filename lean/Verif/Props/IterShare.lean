import Verif.Proofs.IterShare
import Verif.Props.Iterator
/-! # C127: one iterator for several searches -/
namespace Noise
open Iter Iter.Reuse

/-! ## One after the other -/

/-- C127, what does hold: if each search is begun after those before it have returned (`seqStep`), nothing crashes, and each search is one that a new iterator could have made with the same peers: it sends the same
requests, gets the same answers and returns the same. So C58, C60, C61 and C75 hold of it. -/
theorem C127_one_after_another_partial (S : Sorter) (o : Opts) (s : Reuse.State) (h : ReachFrom (seqStep S o) State.new s) :
    s.crashed = false ∧ ∀ c ∈ s.calls,
      (∃ t0 t, Iter.init (o.cfg c.target) o.lookups c.peers = .ok t0 ∧ ReachFrom (Iter.step S (o.cfg c.target)) t0 t ∧
        t.shared.asked = c.asked ∧ t.shared.replies = c.replies ∧ t.returned = c.returned) ∨
      (Iter.init (o.cfg c.target) o.lookups c.peers = .panic ∧ c.returned = some .panic) := by
  have hi : SInv S o s := h.inv (fun _ _ _ hp hs => hp.step hs) (SInv.new S o)
  refine ⟨hi.crashed, fun c hc => ?_⟩
  obtain ⟨k, hk, rfl⟩ := List.getElem_of_mem hc
  have hk' : s.calls[k]? = some s.calls[k] := List.getElem?_eq_getElem hk
  have fin : Panicked o s.calls[k] ∨ ∃ t, Sim S o s.calls[k] t := by
    by_cases e : k + 1 < s.calls.length
    · rcases hi.dead k _ hk' e with h | ⟨h, _⟩
      · exact Or.inl h
      · exact Or.inr h
    · rcases hi.live k _ hk' (by omega) with h | ⟨t, h, _⟩
      · exact Or.inl h
      · exact Or.inr ⟨t, h⟩
  rcases fin with h | ⟨t, h⟩
  · refine Or.inr ⟨?_, h.returned⟩
    have := h.init
    unfold Iter.init at this ⊢
    split
    · rfl
    · rename_i hne
      rw [if_neg hne] at this
      exact absurd rfl (this _)
  · obtain ⟨t0, as, h1, h2⟩ := h.run
    exact Or.inl ⟨t0, t, h1, ⟨as, h2⟩, h.asked, h.replies, h.returned⟩

/-- the step of call `k` -/
def liftAct (k : Nat) : Iter.Action → Reuse.Action
  | .lookup i a => .lookup k i a
  | .close => .close k
  | .collect => .collect k
  | .finish => .finish k

/-- call `k` is where `t` is -/
structure At (o : Opts) (s : Reuse.State) (k : Nat) (c : Call) (t : Iter.State) : Prop where
  crashed : s.crashed = false
  get : s.calls[k]? = some c
  results : s.results = k
  visited : t.shared.visited = s.visited
  chan : s.chans[k]? = some ⟨t.shared.chan, t.closed⟩
  buckets : s.buckets = c.lookups.map Lookup.bucket
  range : c.chan = some k
  inv : TInv (o.cfg c.target) t
  lookups : t.lookups = c.lookups
  asked : t.shared.asked = c.asked
  replies : t.shared.replies = c.replies
  ended : t.closed = c.ended
  collected : t.collected = c.collected
  returned : t.returned = c.returned

theorem At.step {S : Sorter} {o : Opts} {s : Reuse.State} {k : Nat} {c : Call} {t t' : Iter.State} {a : Iter.Action} (h : At o s k c t)
    (hs : Iter.step S (o.cfg c.target) t a = some t') : ∃ s' c', seqStep S o s (liftAct k a) = some s' ∧ At o s' k c' t' ∧ c'.target = c.target ∧ c'.peers = c.peers := by
  have hinv := h.inv.step hs
  have hck : k < s.calls.length := (List.getElem?_eq_some_iff.1 h.get).1
  have hhk : k < s.chans.length := (List.getElem?_eq_some_iff.1 h.chan).1
  cases a with
  | lookup i a =>
    simp only [Iter.step] at hs
    split at hs
    · rename_i l hl
      split at hs
      · rename_i sh l' hst
        cases hs
        have hopen : t.closed = false := by
          by_contra hcl
          have hcl : t.closed = true := by simpa using hcl
          have hm : l ∈ t.lookups := List.mem_of_getElem? hl
          exact Reuse.stuck ((h.inv.inv l hm).done (h.inv.closed hcl l hm)) (h.inv.closed hcl l hm) hst
        have hl' : c.lookups[i]? = some l := by rw [← h.lookups]; exact hl
        have hb : s.buckets[i]? = some l.bucket := by rw [h.buckets, List.getElem?_map, hl']; rfl
        have e1 : (⟨s.visited, t.shared.chan, c.asked, c.replies⟩ : Shared) = t.shared := by rw [← h.visited, ← h.asked, ← h.replies]
        refine ⟨{ s with chans := s.chans.set k ⟨sh.chan, t.closed⟩, visited := sh.visited, buckets := s.buckets.set i l'.bucket, calls := s.calls.set k { c with lookups := c.lookups.set i l', asked := sh.asked, replies := sh.replies } }, _, ?_,
          ⟨h.crashed, List.getElem?_set_self hck, h.results, rfl, List.getElem?_set_self hhk, ?_, h.range, hinv, ?_, rfl, rfl, h.ended, h.collected, h.returned⟩, rfl, rfl⟩
        · simp only [seqStep, liftAct, isFind, Bool.false_eq_true, false_and, if_false, Reuse.step, h.crashed, h.get, h.results, h.chan, hl', hb, e1]
          rw [show lookupStep (o.cfg c.target) t.shared l a = some (sh, l') from hst]
          simp [hopen]
        · simp only [List.map_set, h.buckets]
        · simp only [h.lookups]
      · cases hs
    · cases hs
  | close =>
    simp only [Iter.step] at hs
    split at hs
    · rename_i hc
      cases hs
      refine ⟨{ s with chans := s.chans.set k ⟨t.shared.chan, true⟩, calls := s.calls.set k { c with ended := true } }, _, ?_,
        ⟨h.crashed, List.getElem?_set_self hck, h.results, h.visited, List.getElem?_set_self hhk, h.buckets, h.range, hinv, h.lookups, h.asked, h.replies, rfl, h.collected, h.returned⟩, rfl, rfl⟩
      rw [h.ended, h.lookups] at hc
      simp only [seqStep, liftAct, isFind, Bool.false_eq_true, false_and, if_false, Reuse.step, h.crashed, h.get, h.results, h.chan]
      rw [if_pos hc, h.ended, hc.1]
      simp
    · cases hs
  | collect =>
    simp only [Iter.step] at hs
    split at hs
    · rename_i id rest hc
      cases hs
      refine ⟨{ s with chans := s.chans.set k ⟨rest, t.closed⟩, calls := s.calls.set k { c with collected := c.collected ++ [id] } }, _, ?_,
        ⟨h.crashed, List.getElem?_set_self hck, h.results, h.visited, List.getElem?_set_self hhk, h.buckets, h.range, hinv, h.lookups, h.asked, h.replies, h.ended, by simp [h.collected], h.returned⟩, rfl, rfl⟩
      simp [seqStep, liftAct, isFind, Reuse.step, h.crashed, h.get, h.range, h.chan, hc]
    · cases hs
  | finish =>
    simp only [Iter.step] at hs
    split at hs
    · rename_i hc
      cases hs
      refine ⟨{ s with calls := s.calls.set k { c with returned := some (truncate o.max (sortByDistance S c.target c.collected)) } }, _, ?_,
        ⟨h.crashed, List.getElem?_set_self hck, h.results, h.visited, h.chan, h.buckets, h.range, hinv, h.lookups, h.asked, h.replies, h.ended, h.collected, by simp [← h.collected, Opts.cfg]⟩, rfl, rfl⟩
      rw [h.returned] at hc
      simp only [seqStep, liftAct, isFind, Bool.false_eq_true, false_and, if_false, Reuse.step, h.crashed, h.get, h.range, h.chan]
      rw [if_pos hc]
    · cases hs

theorem At.runs {S : Sorter} {o : Opts} {k : Nat} : ∀ {as : List Iter.Action} {s : Reuse.State} {c : Call} {t t' : Iter.State}, At o s k c t → runs (Iter.step S (o.cfg c.target)) t as = some t' →
    ∃ s' c', runs (seqStep S o) s (as.map (liftAct k)) = some s' ∧ At o s' k c' t' ∧ c'.target = c.target ∧ c'.peers = c.peers
  | [], s, c, t, t', h, hr => by simp only [Noise.runs, Option.some.injEq] at hr; subst hr; exact ⟨s, c, rfl, h, rfl, rfl⟩
  | a :: as, s, c, t, t', h, hr => by
    obtain ⟨t1, h1, h2⟩ := runs_cons hr
    obtain ⟨s1, c1, h3, h4, h5, h6⟩ := h.step h1
    rw [← h5] at h2
    obtain ⟨s', c', h7, h8, h9, h10⟩ := h4.runs h2
    exact ⟨s', c', runs_step h3 h7, h8, h9.trans h5, h10.trans h6⟩

/-- C127, what does hold, the other way round: a used iterator, all searches of which have returned, can do in a further search whatever a new one can do. So C59 and C60 hold of it: no search keeps the next one from
returning. -/
theorem C127_as_new_partial (S : Sorter) (o : Opts) (s : Reuse.State) (h : ReachFrom (seqStep S o) State.new s) (hidle : ∀ c ∈ s.calls, c.returned ≠ none) (target : PublicKey) (peers : List ID)
    (t0 t : Iter.State) (h0 : Iter.init (o.cfg target) o.lookups peers = .ok t0) (as : List Iter.Action) (hr : runs (Iter.step S (o.cfg target)) t0 as = some t) :
    ∃ s' c, runs (seqStep S o) s (.find target peers :: .range s.calls.length :: as.map (liftAct s.calls.length)) = some s' ∧ s'.calls[s.calls.length]? = some c ∧
      c.target = target ∧ c.asked = t.shared.asked ∧ c.replies = t.shared.replies ∧ c.returned = t.returned := by
  have hi : SInv S o s := h.inv (fun _ _ _ hp hs => hp.step hs) (SInv.new S o)
  have hf : seqStep S o s (.find target peers) = some (s.start t0.shared.visited (t0.lookups.map Lookup.bucket) ⟨target, peers, t0.lookups, [], [], false, none, [], none⟩) := by
    unfold seqStep
    rw [if_neg (by rintro ⟨_, c, hc, hn⟩; exact hidle c hc hn)]
    simp [Reuse.step, hi.crashed, h0]
  have hrg : seqStep S o (s.start t0.shared.visited (t0.lookups.map Lookup.bucket) ⟨target, peers, t0.lookups, [], [], false, none, [], none⟩) (.range s.calls.length) =
      some (s.start t0.shared.visited (t0.lookups.map Lookup.bucket) ⟨target, peers, t0.lookups, [], [], false, some s.calls.length, [], none⟩) := by
    simp [seqStep, isFind, Reuse.step, State.start, hi.crashed, hi.len]
  have hat : At o (s.start t0.shared.visited (t0.lookups.map Lookup.bucket) ⟨target, peers, t0.lookups, [], [], false, some s.calls.length, [], none⟩) s.calls.length
      ⟨target, peers, t0.lookups, [], [], false, some s.calls.length, [], none⟩ t0 := by
    have hinv := TInv.init h0
    unfold Iter.init at h0
    split at h0
    · cases h0
    · cases h0
      exact ⟨hi.crashed, by simp [State.start], by simp [State.start, hi.len], rfl, by simp [State.start, hi.len], rfl, rfl, hinv, rfl, rfl, rfl, rfl, rfl, rfl⟩
  obtain ⟨s', c, h1, h2, h3, h4⟩ := hat.runs hr
  exact ⟨s', c, runs_step hf (runs_step hrg h1), h2.get, h3, h2.asked.symm, h2.replies.symm, h2.returned.symm⟩

/-! ## At the same time -/

structure Forgotten (s : Reuse.State) (k n : Nat) : Prop where
  res : n < s.results
  len : s.results < s.chans.length
  open' : ∃ ch, s.chans[n]? = some ch ∧ ch.closed = false
  call : ∃ c, s.calls[k]? = some c ∧ c.chan = some n ∧ c.returned = none

theorem Forgotten.step {S : Sorter} {o : Opts} {s s' : Reuse.State} {k n : Nat} {a : Reuse.Action} (h : Forgotten s k n) (hs : Reuse.step S o s a = some s') : Forgotten s' k n := by
  obtain ⟨h1, h2, ⟨ch, h3, h4⟩, ⟨c, h5, h6, h7⟩⟩ := h
  have hk : k < s.calls.length := (List.getElem?_eq_some_iff.1 h5).1
  have hn : n < s.chans.length := (List.getElem?_eq_some_iff.1 h3).1
  unfold Reuse.step at hs
  split at hs
  · cases hs
  cases a with
  | find target peers =>
    have key : ∀ v b c', Forgotten (s.start v b c') k n := fun v b c' =>
      ⟨by simp only [State.start]; omega, by simp [State.start], ⟨ch, by simp only [State.start]; rw [List.getElem?_append_left hn]; exact h3, h4⟩,
        ⟨c, by simp only [State.start]; rw [List.getElem?_append_left hk]; exact h5, h6, h7⟩⟩
    simp only at hs
    split at hs <;> (cases hs; exact key _ _ _)
  | lookup j i a =>
    simp only at hs
    split at hs
    · rename_i d dh hd hdh
      split at hs
      · split at hs
        · rename_i sh l' _
          split at hs
          · cases hs; exact ⟨h1, h2, ⟨ch, h3, h4⟩, ⟨c, h5, h6, h7⟩⟩
          · cases hs
            refine ⟨h1, by simpa using h2, ⟨ch, by simp only; rw [List.getElem?_set_ne (by omega)]; exact h3, h4⟩, ?_⟩
            simp only
            rw [List.getElem?_set]
            split
            · rename_i e; subst e; rw [h5] at hd; cases hd; exact ⟨_, if_pos hk, h6, h7⟩
            · exact ⟨c, h5, h6, h7⟩
        · cases hs
      · cases hs
    · cases hs
  | close j =>
    simp only at hs
    split at hs
    · rename_i d dh hd hdh
      split at hs
      · split at hs
        · cases hs; exact ⟨h1, h2, ⟨ch, h3, h4⟩, ⟨c, h5, h6, h7⟩⟩
        · cases hs
          refine ⟨h1, by simpa using h2, ⟨ch, by simp only; rw [List.getElem?_set_ne (by omega)]; exact h3, h4⟩, ?_⟩
          simp only
          rw [List.getElem?_set]
          split
          · rename_i e; subst e; rw [h5] at hd; cases hd; exact ⟨_, if_pos hk, h6, h7⟩
          · exact ⟨c, h5, h6, h7⟩
      · cases hs
    · cases hs
  | range j =>
    simp only at hs
    split at hs
    · rename_i d hd
      split at hs
      · rename_i hcond
        cases hs
        refine ⟨h1, h2, ⟨ch, h3, h4⟩, ?_⟩
        simp only
        rw [List.getElem?_set]
        split
        · rename_i e; subst e; rw [h5] at hd; cases hd; rw [h6] at hcond; cases hcond.1
        · exact ⟨c, h5, h6, h7⟩
      · cases hs
    · cases hs
  | collect j =>
    simp only at hs
    split at hs
    · rename_i d hd
      split at hs
      · rename_i m hm
        split at hs
        · rename_i dh hdh
          split at hs
          · rename_i id rest hbuf
            cases hs
            refine ⟨h1, by simpa using h2, ?_, ?_⟩
            · simp only
              rw [List.getElem?_set]
              split
              · rename_i e; subst e; rw [h3] at hdh; cases hdh; exact ⟨_, if_pos hn, h4⟩
              · exact ⟨ch, h3, h4⟩
            · simp only
              rw [List.getElem?_set]
              split
              · rename_i e; subst e; rw [h5] at hd; cases hd; exact ⟨_, if_pos hk, h6, h7⟩
              · exact ⟨c, h5, h6, h7⟩
          · cases hs
        · cases hs
      · cases hs
    · cases hs
  | finish j =>
    simp only at hs
    split at hs
    · rename_i d hd
      split at hs
      · rename_i m hm
        split at hs
        · rename_i dh hdh
          split at hs
          · rename_i hcond
            cases hs
            refine ⟨h1, h2, ⟨ch, h3, h4⟩, ?_⟩
            simp only
            rw [List.getElem?_set]
            split
            · rename_i e; subst e; rw [h5] at hd; cases hd
              rw [h6] at hm; cases hm
              rw [h3] at hdh; cases hdh
              rw [h4] at hcond; cases hcond.1
            · exact ⟨c, h5, h6, h7⟩
          · cases hs
        · cases hs
      · cases hs
    · cases hs

/-- C127 is false: if `Find` is called while another call waits for the results of its search (its channel is open and it ranges over it), that other call never returns, whatever happens. -/
theorem C127_never_returns_refuted (S : Sorter) (o : Opts) (s s' : Reuse.State) (k : Nat) (c : Call) (ch : Chan) (hk : s.calls[k]? = some c) (hr : c.returned = none) (hch : c.chan = some s.results)
    (hopen : s.chans[s.results]? = some ch) (hcl : ch.closed = false) (target : PublicKey) (peers : List ID) (as : List Reuse.Action)
    (h : runs (Reuse.step S o) s (.find target peers :: as) = some s') : ∃ c', s'.calls[k]? = some c' ∧ c'.returned = none := by
  obtain ⟨s1, h1, h2⟩ := runs_cons h
  have hlen := (List.getElem?_eq_some_iff.1 hopen).1
  have hkl := (List.getElem?_eq_some_iff.1 hk).1
  have h0 : Forgotten s1 k s.results := by
    have key : ∀ v b c', Forgotten (s.start v b c') k s.results := fun v b c' =>
      ⟨by simp only [State.start]; omega, by simp [State.start], ⟨ch, by simp only [State.start]; rw [List.getElem?_append_left hlen]; exact hopen, hcl⟩,
        ⟨c, by simp only [State.start]; rw [List.getElem?_append_left hkl]; exact hk, hch, hr⟩⟩
    unfold Reuse.step at h1
    split at h1
    · cases h1
    simp only at h1
    split at h1 <;> (cases h1; exact key _ _ _)
  obtain ⟨c', h3, _, h4⟩ := (runs_inv (fun _ _ _ hp hs => Forgotten.step hp hs) h2 h0).call
  exact ⟨c', h3, h4⟩

structure Twice (s : Reuse.State) (j k : Nat) : Prop where
  both : ∃ c d, s.calls[j]? = some c ∧ s.calls[k]? = some d ∧ (c.ended = false ∨ d.ended = false) ∧
    (c.ended = true ∨ d.ended = true → ∃ ch, s.chans[s.results]? = some ch ∧ ch.closed = true)

theorem Twice.step {S : Sorter} {o : Opts} {s s' : Reuse.State} {j k : Nat} {a : Reuse.Action} (hne : j ≠ k) (h : Twice s j k) (ha : isFind a = false) (hs : Reuse.step S o s a = some s') :
    Twice s' j k := by
  obtain ⟨c, d, h1, h2, h3, h4⟩ := h
  have hj : j < s.calls.length := (List.getElem?_eq_some_iff.1 h1).1
  have hk : k < s.calls.length := (List.getElem?_eq_some_iff.1 h2).1
  -- a step that leaves `ended` alone and does not reopen the channel
  have keep : ∀ (s' : Reuse.State) (i : Nat) (e e' : Call), s'.calls = s.calls.set i e' → s.calls[i]? = some e → e'.ended = e.ended → s'.results = s.results →
      ((∃ ch, s.chans[s.results]? = some ch ∧ ch.closed = true) → ∃ ch, s'.chans[s.results]? = some ch ∧ ch.closed = true) → Twice s' j k := by
    intro s' i e e' hc hi he hres hch
    have g : ∀ (m : Nat) (x : Call), s.calls[m]? = some x → ∃ x', s'.calls[m]? = some x' ∧ x'.ended = x.ended := by
      intro m x hx
      rw [hc, List.getElem?_set]
      split
      · rename_i em; subst em; rw [hx] at hi; cases hi
        exact ⟨e', by rw [if_pos (List.getElem?_eq_some_iff.1 hx).1], he⟩
      · exact ⟨x, hx, rfl⟩
    obtain ⟨c', g1, g2⟩ := g j c h1
    obtain ⟨d', g3, g4⟩ := g k d h2
    exact ⟨c', d', g1, g3, by rw [g2, g4]; exact h3, fun h => by rw [hres]; exact hch (h4 (by rw [g2, g4] at h; exact h))⟩
  unfold Reuse.step at hs
  split at hs
  · cases hs
  cases a with
  | find target peers => cases ha
  | lookup m i a =>
    simp only at hs
    split at hs
    · rename_i e eh he heh
      split at hs
      · split at hs
        · split at hs
          · cases hs; exact ⟨c, d, h1, h2, h3, h4⟩
          · cases hs
            refine keep _ m e _ rfl he rfl rfl ?_
            rintro ⟨ch, g1, g2⟩
            rw [heh] at g1; cases g1
            exact ⟨_, List.getElem?_set_self (List.getElem?_eq_some_iff.1 heh).1, g2⟩
        · cases hs
      · cases hs
    · cases hs
  | close m =>
    simp only at hs
    split at hs
    · rename_i e eh he heh
      split at hs
      · rename_i hcond
        split at hs
        · cases hs; exact ⟨c, d, h1, h2, h3, h4⟩
        · rename_i hopen
          cases hs
          have hl := (List.getElem?_eq_some_iff.1 heh).1
          have hno : c.ended = false ∧ d.ended = false := by
            constructor
            · by_contra hx
              obtain ⟨ch, g1, g2⟩ := h4 (Or.inl (by simpa using hx))
              rw [heh] at g1; cases g1; exact hopen g2
            · by_contra hx
              obtain ⟨ch, g1, g2⟩ := h4 (Or.inr (by simpa using hx))
              rw [heh] at g1; cases g1; exact hopen g2
          by_cases ej : m = j
          · subst ej
            exact ⟨{ e with ended := true }, d, List.getElem?_set_self hj, by simp only; rw [List.getElem?_set_ne hne]; exact h2, Or.inr hno.2, fun _ => ⟨_, List.getElem?_set_self hl, rfl⟩⟩
          · by_cases ek : m = k
            · subst ek
              exact ⟨c, { e with ended := true }, by simp only; rw [List.getElem?_set_ne ej]; exact h1, List.getElem?_set_self hk, Or.inl hno.1, fun _ => ⟨_, List.getElem?_set_self hl, rfl⟩⟩
            · exact ⟨c, d, by simp only; rw [List.getElem?_set_ne ej]; exact h1, by simp only; rw [List.getElem?_set_ne ek]; exact h2, Or.inl hno.1, fun _ => ⟨_, List.getElem?_set_self hl, rfl⟩⟩
      · cases hs
    · cases hs
  | range m =>
    simp only at hs
    split at hs
    · rename_i e he
      split at hs
      · cases hs; exact keep _ m e _ rfl he rfl rfl id
      · cases hs
    · cases hs
  | collect m =>
    simp only at hs
    split at hs
    · rename_i e he
      split at hs
      · split at hs
        · rename_i n _ eh heh
          split at hs
          · cases hs
            refine keep _ m e _ rfl he rfl rfl ?_
            rintro ⟨ch, g1, g2⟩
            simp only
            rw [List.getElem?_set]
            split
            · rename_i en; subst en; rw [heh] at g1; cases g1
              exact ⟨_, if_pos (List.getElem?_eq_some_iff.1 heh).1, g2⟩
            · exact ⟨ch, g1, g2⟩
          · cases hs
        · cases hs
      · cases hs
    · cases hs
  | finish m =>
    simp only at hs
    split at hs
    · rename_i e he
      split at hs
      · split at hs
        · split at hs
          · cases hs; exact keep _ m e _ rfl he rfl rfl id
          · cases hs
        · cases hs
      · cases hs
    · cases hs

/-- C127 is false: two searches that are under way at the same time never both come to an end, whatever the schedule (the second one crashes the process instead, as in `C127_crash_refuted`). -/
theorem C127_both_end_refuted (S : Sorter) (o : Opts) (s s' : Reuse.State) (j k : Nat) (hne : j ≠ k) (c d : Call) (hj : s.calls[j]? = some c) (hk : s.calls[k]? = some d) (hc : c.ended = false)
    (hd : d.ended = false) (as : List Reuse.Action) (hnf : ∀ a ∈ as, isFind a = false) (h : runs (Reuse.step S o) s as = some s') :
    ∃ c' d', s'.calls[j]? = some c' ∧ s'.calls[k]? = some d' ∧ (c'.ended = false ∨ d'.ended = false) := by
  obtain ⟨c', d', h1, h2, h3, _⟩ := (runs_inv' (Q := fun a => isFind a = false) (fun _ _ _ hp ha hs => Twice.step hne hp ha hs) hnf h
    (⟨c, d, hj, hk, Or.inl hc, fun h => by rcases h with h | h <;> simp_all⟩ : Twice s j k)).both
  exact ⟨c', d', h1, h2, h3⟩

/-- the options of `NewIterator` -/
def itOpts : Opts := ⟨keyOf [1], 3, 8, 16⟩

/-- The goroutines of call `k` when there are no peers to ask. -/
def idleRun (k : Nat) : List Reuse.Action :=
  (List.range 3).flatMap fun i => [.lookup k i .main, .lookup k i .main] ++ (List.range 8).map (fun j => .lookup k i (.worker j)) ++ [.lookup k i .main]

/-- C127 is false: with the default options, and a table without peers, two calls of `Find` at the same time crash the process: a channel is closed twice. -/
theorem C127_crash_refuted : ∃ s, runs (Reuse.step insertionSorter itOpts) State.new
    ([.find (keyOf [9]) [], .find (keyOf [8]) []] ++ idleRun 0 ++ idleRun 1 ++ [.close 0, .close 1]) = some s ∧ s.crashed = true := by
  have hr : (runs (Reuse.step insertionSorter itOpts) State.new ([.find (keyOf [9]) [], .find (keyOf [8]) []] ++ idleRun 0 ++ idleRun 1 ++ [.close 0, .close 1])).map (fun s => s.crashed) = some true := by
    decide +kernel
  exact view_of hr

/-- The hypotheses of `C127_never_returns_refuted` are met by a call that waits for its results, those of `C127_both_end_refuted` when another is made. -/
example : (runs (Reuse.step insertionSorter itOpts) State.new [.find (keyOf [9]) lkPeers, .range 0]).map
    (fun s => (s.calls[0]?.map (fun c => (c.returned.isNone, c.chan)), s.results, s.chans[s.results]?.map fun ch => ch.closed)) = some (some (true, some 0), 0, some false) := by decide +kernel

example : (runs (Reuse.step insertionSorter itOpts) State.new [.find (keyOf [9]) lkPeers, .range 0, .find (keyOf [8]) lkPeers]).map (fun s => s.calls.map Call.ended) = some [false, false] := by
  decide +kernel

/-- Two searches with one iterator, one after the other: the example network is searched to the end twice. -/
example : (runs (seqStep insertionSorter ⟨keyOf [1], 2, 1, 16⟩) State.new
    ([.find (keyOf [9]) lkPeers, .range 0] ++ (lkRun (keyOf [2])).map (liftAct 0) ++ [.find (keyOf [9]) lkPeers, .range 1] ++ (lkRun (keyOf [2])).map (liftAct 1))).map
    (fun s => s.calls.map Call.returned) = some [some (.ok [lkPeer 2, lkPeer 4]), some (.ok [lkPeer 2, lkPeer 4])] := by decide +kernel

end Noise
