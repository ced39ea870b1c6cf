import Verif.Proofs.GossipNet
import Verif.Spec.Gossip
/-! # C62-C65: gossip -/
namespace Noise
open Gossip Spec

theorem times_eq (l : List (ID × Bytes)) (d : Bytes) : times l d = dels d l := by
  unfold times dels; rw [List.countP_eq_length_filter]; congr 1; apply List.filter_congr; intro e _; by_cases h : e.2 = d <;> simp [h]
theorem timesTo_eq (l : List (ID × Bytes)) (k : PublicKey) (d : Bytes) : timesTo l k d = sends d k l := by
  unfold timesTo sends; rw [List.countP_eq_length_filter]; congr 1; apply List.filter_congr; intro e _
  by_cases h1 : e.1.id = k <;> by_cases h2 : e.2 = d <;> simp [h1, h2, beq_eq_false_iff_ne]
  exact fun h => h1 (Subtype.ext h)

/-! ## C62 -/

/-- C62: The cache key of (peer, message) is the peer's key followed by the message, and different pairs have different keys: setting one pair never makes another pair present. -/
theorem C62_keys (k k' : PublicKey) (d d' : Bytes) :
    (hash k d = hash k' d' ↔ k = k' ∧ d = d') ∧
    ∀ cache, cacheHas (cacheSet cache (hash k d)) (hash k' d') = true → cacheHas cache (hash k' d') = true ∨ (k' = k ∧ d' = d) := by
  refine ⟨⟨hash_inj, fun h => by rw [h.1, h.2]⟩, fun cache h => ?_⟩
  rw [cacheHas_iff] at h ⊢
  rcases mem_cacheSet.1 h with h | ⟨h, _⟩
  · exact Or.inl h
  · exact Or.inr (hash_inj h)

def gk (n : UInt8) : PublicKey := ⟨List.replicate 32 n, by simp⟩
def gid (n : UInt8) : ID := newID (gk n) [127, 0, 0, 1] n.toNat.toUInt16

example : hash (gk 1) [2, 3] ≠ hash (gk 2) [3] := fun h => absurd (hash_inj h).2 (by decide)

/-! ## C63 -/

/-- C63, the part that holds: for data of fewer than 65500 bytes, in every history of receipts and pushes and every interleaving, the application is told about it at most as often
as there are workers; in particular at most once with one worker. Missing: at most once with more than one worker (`C63_two_workers_refuted`); larger data (`C63_large_refuted`). -/
theorem C63_at_most_workers_partial (c : Cfg) (d : Bytes) (hd : d.length < 65500) (s : State) (h : ReachFrom (step c) State.new s) : times s.delivered d ≤ c.workers := by
  rw [times_eq]
  have := (h.inv (P := DInv c d) (fun _ _ _ h hs => h.step hd hs) (DInv.new c d)).bound
  omega

/-- C63, the part that holds about own messages: once this node has begun to push `d`, or has accepted it, and no handler is between finding `d` new and reporting it, `d` is never reported (again). -/
theorem C63_not_after_push_partial (c : Cfg) (d : Bytes) (hd : d.length < 65500) (s s' : State) (h : ReachFrom (step c) State.new s)
    (hp : ∃ p ∈ s.pushes, p.data = d ∧ p.pc ≠ .mark) (hh : ∀ x ∈ s.handlers, x.data = d → x.pc ≠ .mark ∧ x.pc ≠ .callback) (h' : ReachFrom (step c) s s') :
    times s'.delivered d = times s.delivered d := by
  rw [times_eq, times_eq]
  have hm := h.inv (P := OwnInv c d) (fun _ _ _ h hs => h.step hd hs) (OwnInv.new c d)
  obtain ⟨p, hp, hpd, hpc⟩ := hp
  have h0 : pend d s.handlers = 0 := by
    unfold pend
    rw [List.countP_eq_zero]
    intro x hx hxx
    simp only [decide_eq_true_eq] at hxx
    have := hh x hx hxx.1
    rcases hxx.2 with e | e
    · exact this.1 e
    · exact this.2 e
  refine (h'.inv (P := fun t => hash c.self d ∈ t.cache ∧ pend d t.handlers = 0 ∧ dels d t.delivered = dels d s.delivered) ?_ ⟨hm.marked p hp hpd hpc, h0, rfl⟩).2.2
  rintro t a t' ⟨h1, h2, h3⟩ hs
  obtain ⟨h4, h5, h6⟩ := frozen_step h1 h2 hs
  exact ⟨h4, h5, h6.trans h3⟩

theorem gossip_run {c : Cfg} {s : State} {as : List Action} {α : Type} {f : State → α} {v : α} (h : (runs (step c) s as).map f = some v) :
    ∃ t, ReachFrom (step c) s t ∧ f t = v := by
  cases hr : runs (step c) s as with
  | none => rw [hr] at h; cases h
  | some t => rw [hr] at h; exact ⟨t, ⟨as, hr⟩, by simpa using h⟩

/-- C63 is false with two workers: both handle the same message, both find it new, both report it. -/
theorem C63_two_workers_refuted : ∃ (d : Bytes) (s : State), ReachFrom (step ⟨gk 0, 2, 2⟩) State.new s ∧ times s.delivered d = 2 ∧ d.length = 1 := by
  obtain ⟨t, h1, h2⟩ := gossip_run (c := ⟨gk 0, 2, 2⟩) (s := State.new) (f := fun t => times t.delivered [7]) (v := 2)
    (as := [.receive (gid 1) [7], .receive (gid 2) [7], .handler 0, .handler 1, .handler 0, .handler 1, .handler 0, .handler 1, .callback 0 true, .callback 1 true])
    (by decide +kernel)
  exact ⟨[7], t, h1, h2, rfl⟩

/-- C63 is false for own messages even with one worker: the application pushes a message while the worker is about to report the same message received from a peer; the
push completes and then the message is reported. -/
theorem C63_own_push_refuted : ∃ (d : Bytes) (s s' : State), ReachFrom (step ⟨gk 0, 1, 2⟩) State.new s ∧ (∃ p ∈ s.pushes, p.data = d ∧ p.pc = .done) ∧ times s.delivered d = 0 ∧
    ReachFrom (step ⟨gk 0, 1, 2⟩) s s' ∧ times s'.delivered d = 1 := by
  obtain ⟨s, h1, h2⟩ := gossip_run (c := ⟨gk 0, 1, 2⟩) (s := State.new) (f := id)
    (v := ⟨[hash (gk 0) [7], hash (gk 1) [7]], [⟨gid 1, [7], .mark⟩], [⟨[7], .done, []⟩], [], []⟩)
    (as := [.receive (gid 1) [7], .handler 0, .handler 0, .push [7], .pushing 0 [], .pushing 0 [], .pushing 0 []])
    (by decide +kernel)
  obtain ⟨t, h3, h4⟩ := gossip_run (c := ⟨gk 0, 1, 2⟩) (s := s) (f := fun t => times t.delivered [7]) (v := 1) (as := [.handler 0, .callback 0 true])
    (by rw [show s = _ from h2]; decide +kernel)
  simp only [id] at h2
  exact ⟨[7], s, t, h1, by rw [h2]; exact ⟨_, List.mem_singleton.2 rfl, rfl, rfl⟩, by rw [h2]; decide, h3, h4⟩

theorem cacheSet_big {cache : List Bytes} {k : PublicKey} {d : Bytes} (hd : 65500 ≤ d.length) : cacheSet cache (hash k d) = cache := by
  unfold cacheSet
  rw [if_neg]
  rw [hash_length]; omega

theorem running_snoc (l : List Handler) (h : Handler) : running (l ++ [h]) = running l + if h.pc = .done then 0 else 1 := by
  unfold running
  rw [List.countP_append, List.countP_singleton]
  by_cases e : h.pc = .done <;> simp [e]

/-- one more receipt of large data -/
theorem big_receipt (c : Cfg) (e : ID) (d : Bytes) (hd : 65500 ≤ d.length) (hc : 0 < c.workers) (s : State) (h0 : s.cache = []) (hr : running s.handlers = 0) :
    ∃ t, ReachFrom (step c) s t ∧ t.cache = [] ∧ running t.handlers = 0 ∧ t.delivered = s.delivered ++ [(e, d)] := by
  refine ⟨{ s with handlers := s.handlers ++ [⟨e, d, .done⟩], delivered := s.delivered ++ [(e, d)] },
    ⟨[.receive e d, .handler s.handlers.length, .handler s.handlers.length, .handler s.handlers.length, .callback s.handlers.length false], ?_⟩, h0, ?_, rfl⟩
  · obtain ⟨ca, H, P, D, Se⟩ := s
    simp only at h0 hr
    subst h0
    simp [runs, step, hr, hc, State.setH, cacheSet_big hd, cacheHas]
  · simp only
    rw [running_snoc, hr]; simp

/-- C63 is false for data of 65500 bytes or more, even with one worker and one receipt after the other: every receipt is reported. -/
theorem C63_large_refuted (d : Bytes) (hd : 65500 ≤ d.length) (k : Nat) :
    ∃ s : State, ReachFrom (step ⟨gk 0, 1, 1⟩) State.new s ∧ times s.delivered d = k := by
  suffices h : ∃ s : State, ReachFrom (step ⟨gk 0, 1, 1⟩) State.new s ∧ s.cache = [] ∧ running s.handlers = 0 ∧ times s.delivered d = k by
    obtain ⟨s, h1, _, _, h2⟩ := h; exact ⟨s, h1, h2⟩
  induction k with
  | zero => exact ⟨State.new, .refl _, rfl, rfl, rfl⟩
  | succ k ih =>
    obtain ⟨s, h1, h2, h3, h4⟩ := ih
    obtain ⟨t, h5, h6, h7, h8⟩ := big_receipt ⟨gk 0, 1, 1⟩ (gid 1) d hd (by decide) s h2 h3
    refine ⟨t, h1.trans h5, h6, h7, ?_⟩
    rw [times_eq] at h4 ⊢
    rw [h8, dels_append, h4]; simp

example : ∃ d : Bytes, 65500 ≤ d.length := ⟨List.replicate 65500 0, by rw [List.length_replicate]; exact Nat.le_refl _⟩

/-- The hypotheses of `C63_not_after_push_partial` are met: a push is done, then the same data is received. -/
example : ∃ s : State, ReachFrom (step ⟨gk 0, 1, 1⟩) State.new s ∧ (∃ p ∈ s.pushes, p.data = [7] ∧ p.pc ≠ .mark) ∧
    (∀ x ∈ s.handlers, x.data = [7] → x.pc ≠ .mark ∧ x.pc ≠ .callback) ∧ s.handlers.length = 1 := by
  obtain ⟨s, h1, h2⟩ := gossip_run (c := ⟨gk 0, 1, 1⟩) (s := State.new) (f := id)
    (v := ⟨[hash (gk 1) [7], hash (gk 0) [7]], [⟨gid 1, [7], .done⟩], [⟨[7], .done, []⟩], [], []⟩)
    (as := [.push [7], .pushing 0 [], .pushing 0 [], .pushing 0 [], .receive (gid 1) [7], .handler 0, .handler 0])
    (by decide +kernel)
  simp only [id] at h2
  subst h2
  exact ⟨_, h1, ⟨_, List.mem_singleton.2 rfl, rfl, by decide⟩, by intro x hx; rw [List.mem_singleton.1 hx]; intro _; decide, rfl⟩

/-! ## C64 -/

/-- C64, the part that holds: for data of fewer than 65500 bytes a node never sends a message to itself, in every interleaving. -/
theorem C64_not_to_itself_partial (c : Cfg) (d : Bytes) (hd : d.length < 65500) (s : State) (h : ReachFrom (step c) State.new s) : timesTo s.sent c.self d = 0 := by
  rw [timesTo_eq]
  exact (h.inv (P := OwnInv c d) (fun _ _ _ h hs => h.step hd hs) (OwnInv.new c d)).none.1

/-- C64, the part that holds: to the same peer a message is sent successfully at most as often as pushes overlap; at most once if pushes do not overlap. -/
theorem C64_not_twice_partial (c : Cfg) (d : Bytes) (hd : d.length < 65500) (k : PublicKey) (s : State) (h : ReachFrom (step c) State.new s) : timesTo s.sent k d ≤ c.pushes := by
  rw [timesTo_eq]
  have := (h.inv (P := SInv c d k) (fun _ _ _ h hs => h.step hd hs) (SInv.new c d k)).bound
  omega

structure NotedInv (d : Bytes) (s : State) : Prop where
  wf : ∀ p ∈ s.pushes, p.Wf
  noted : ∀ h ∈ s.handlers, h.data = d → h.pc ≠ .sender → hash h.sender.id d ∈ s.cache

theorem NotedInv.step {c : Cfg} {d : Bytes} (hd : d.length < 65500) {s s' : State} {a : Action} (h : NotedInv d s) (hs : step c s a = some s') : NotedInv d s' := by
  refine ⟨wf_step h.wf hs, ?_⟩
  have h1 := h.noted
  have h2 := fun x hx => cache_mono (x := x) hs hx
  g_cases a hs
  all_goals grind [List.mem_or_eq_of_mem_set, List.mem_of_getElem?, mem_cacheSet, hash_length]

/-- C64, the part that holds: once the receipt of `d` from a peer is noted (the first thing its handler does) and unless a goroutine is just about to send it there, `d` is never
sent to that peer any more. -/
theorem C64_not_back_partial (c : Cfg) (d : Bytes) (hd : d.length < 65500) (s s' : State) (h : ReachFrom (step c) State.new s) (x : Handler) (hx : x ∈ s.handlers) (hxd : x.data = d)
    (hpc : x.pc ≠ .sender) (hg : ∀ p ∈ s.pushes, p.data = d → ∀ g ∈ p.gors, g.peer.id = x.sender.id → g.pc ≠ .send) (h' : ReachFrom (step c) s s') :
    timesTo s'.sent x.sender.id d = timesTo s.sent x.sender.id d := by
  rw [timesTo_eq, timesTo_eq]
  have hi := h.inv (P := NotedInv d) (fun _ _ _ h hs => h.step hd hs) ⟨by simp [State.new], by simp [State.new]⟩
  have h0 : sumSend d x.sender.id s.pushes = 0 := by
    refine Iter.sum_zero _ _ fun p hp => ?_
    unfold gsend
    split
    · rename_i e
      unfold gcount
      rw [List.countP_eq_zero]
      intro g hgm hh
      simp only [decide_eq_true_eq] at hh
      exact hg p hp e g hgm hh.1 hh.2
    · rfl
  refine (h'.inv (P := fun t => (∀ p ∈ t.pushes, p.Wf) ∧ hash x.sender.id d ∈ t.cache ∧ sumSend d x.sender.id t.pushes = 0 ∧
    sends d x.sender.id t.sent = sends d x.sender.id s.sent) ?_ ⟨hi.wf, hi.noted x hx hxd hpc, h0, rfl⟩).2.2.2
  rintro t a t' ⟨h1, h2, h3, h4⟩ hs
  obtain ⟨h5, h6, h7⟩ := quiet_step h1 h2 h3 hs
  exact ⟨wf_step h1 hs, h5, h6, h7.trans h4⟩

/-- C64 is false for overlapping pushes: both send the message to the same peer. -/
theorem C64_overlapping_refuted : ∃ (d : Bytes) (k : PublicKey) (s : State), ReachFrom (step ⟨gk 0, 1, 2⟩) State.new s ∧ timesTo s.sent k d = 2 ∧ d.length = 1 := by
  obtain ⟨t, h1, h2⟩ := gossip_run (c := ⟨gk 0, 1, 2⟩) (s := State.new) (f := fun t => timesTo t.sent (gk 1) [7]) (v := 2)
    (as := [.push [7], .push [7], .pushing 0 [], .pushing 1 [], .pushing 0 [gid 0, gid 1], .pushing 1 [gid 0, gid 1], .gor 0 1, .gor 1 1, .sent 0 1 true, .sent 1 1 true])
    (by decide +kernel)
  exact ⟨[7], gk 1, t, h1, h2, rfl⟩

/-- C64 is false for data of 65500 bytes or more, even sequentially: it is sent to the node itself (which is an entry of its own table) and back to the peer it came from. -/
theorem C64_large_refuted (d : Bytes) (hd : 65500 ≤ d.length) (self peer : ID) :
    push (fun _ => true) self.id [self, peer] d [] = ([], [self, peer]) ∧
    handle (fun _ => true) true self.id [self, peer] peer.id d [] = ([], [self, peer], true) := by
  simp [push, handle, pushLoop, cacheSet_big hd, cacheHas]

/-- a push, one goroutine after the other -/
theorem pushLoop_spec (ok : ID → Bool) (d : Bytes) (hd : d.length < 65500) : ∀ (peers : List ID) (cache : List Bytes) (sent : List ID), (peers.map ID.id).Nodup →
    (pushLoop ok d peers cache sent).2 = sent ++ peers.filter (fun e => ok e && !cacheHas cache (hash e.id d))
  | [], _, _, _ => by simp [pushLoop]
  | e :: peers, cache, sent, hn => by
    obtain ⟨h1, h2⟩ := List.nodup_cons.1 hn
    unfold pushLoop
    split
    · rename_i hc
      rw [pushLoop_spec ok d hd peers cache sent h2]; simp [hc]
    · rename_i hc
      split
      · rename_i ho
        rw [pushLoop_spec ok d hd peers _ _ h2, List.filter_cons, if_pos (by simp [ho, hc]), List.append_assoc]
        congr 1
        simp only [List.singleton_append]
        congr 1
        apply List.filter_congr
        intro x hx
        have : x.id ≠ e.id := fun h => h1 (List.mem_map.2 ⟨x, hx, h⟩)
        have : cacheHas (cacheSet cache (hash e.id d)) (hash x.id d) = cacheHas cache (hash x.id d) := by
          rw [Bool.eq_iff_iff, cacheHas_iff, cacheHas_iff, mem_cacheSet]
          constructor
          · rintro (h | ⟨h, _⟩)
            · exact h
            · exact absurd (hash_inj h).1 this
          · exact Or.inl
        rw [this]
      · rename_i ho
        rw [pushLoop_spec ok d hd peers cache sent h2]; simp [ho]

/-- C64 for one call after the other, exactly: `Push` sends to those entries of the table, in order, that are not the node itself, not noted to have the message and reachable; a
handled message is reported if it is new and then sent to those entries which in addition are not its sender. -/
theorem C64_sequential_partial (ok : ID → Bool) (self sender : PublicKey) (peers : List ID) (hn : (peers.map ID.id).Nodup) (d : Bytes) (hd : d.length < 65500) (cache : List Bytes) :
    (push ok self peers d cache).2 = peers.filter (fun e => ok e && (e.id.1 != self.1) && !cacheHas cache (hash e.id d)) ∧
    (hash self d ∉ cache → sender ≠ self → (handle ok true self peers sender d cache).2 =
      (peers.filter (fun e => ok e && (e.id.1 != self.1) && (e.id.1 != sender.1) && !cacheHas cache (hash e.id d)), true)) := by
  have hl : ∀ k : PublicKey, (hash k d).length < 65532 := fun k => by rw [hash_length]; omega
  have hset : ∀ (cache : List Bytes) (k : PublicKey) (e : ID), cacheHas (cacheSet cache (hash k d)) (hash e.id d) = (cacheHas cache (hash e.id d) || (e.id.1 == k.1)) := by
    intro cache k e
    rw [Bool.eq_iff_iff, Bool.or_eq_true, cacheHas_iff, cacheHas_iff, mem_cacheSet, beq_iff_eq]
    constructor
    · rintro (h | ⟨h, _⟩)
      · exact Or.inl h
      · exact Or.inr (congrArg Subtype.val (hash_inj h).1)
    · rintro (h | h)
      · exact Or.inl h
      · exact Or.inr ⟨by rw [Subtype.ext h], hl k⟩
  constructor
  · unfold push
    rw [pushLoop_spec ok d hd _ _ _ hn, List.nil_append]
    apply List.filter_congr
    intro e _
    rw [hset]
    cases ok e <;> cases cacheHas cache (hash e.id d) <;> simp [bne]
  · intro hc hse
    unfold handle
    have h0 : cacheHas (cacheSet cache (hash sender d)) (hash self d) = false := by
      rw [Bool.eq_false_iff]
      intro h
      rw [cacheHas_iff, mem_cacheSet] at h
      rcases h with h | ⟨h, _⟩
      · exact hc h
      · exact hse (hash_inj h).1.symm
    simp only [h0, Bool.false_eq_true, if_false, if_true]
    refine Prod.ext ?_ rfl
    simp only [push]
    rw [pushLoop_spec ok d hd _ _ _ hn, List.nil_append]
    apply List.filter_congr
    intro e _
    rw [hset, hset, hset]
    simp only [bne]
    generalize (e.id.1 == self.1) = x
    generalize (e.id.1 == sender.1) = y
    cases ok e <;> cases cacheHas cache (hash e.id d) <;> cases x <;> cases y <;> rfl

example : ([gid 0, gid 1, gid 2].map ID.id).Nodup ∧ hash (gk 0) [7] ∉ ([] : List Bytes) ∧ gk 1 ≠ gk 0 := by decide +kernel

/-- Small data, sequentially: neither to itself nor back (shows the previous theorem is about the size). -/
example : handle (fun _ => true) true (gk 0) [gid 0, gid 1, gid 2] (gk 1) [7] [] = ([hash (gk 2) [7], hash (gk 0) [7], hash (gk 0) [7], hash (gk 1) [7]], [gid 2], true) := by
  decide +kernel

/-- The hypotheses of `C64_not_back_partial` are met in a run that sends something. -/
example : ∃ s : State, ReachFrom (step ⟨gk 0, 1, 1⟩) State.new s ∧ (∃ x ∈ s.handlers, x.sender.id = gk 1 ∧ x.data = [7] ∧ x.pc ≠ .sender) ∧ timesTo s.sent (gk 2) [7] = 1 ∧
    timesTo s.sent (gk 1) [7] = 0 := by
  obtain ⟨s, h1, h2⟩ := gossip_run (c := ⟨gk 0, 1, 1⟩) (s := State.new) (f := fun t => (t.handlers, timesTo t.sent (gk 2) [7], timesTo t.sent (gk 1) [7]))
    (v := ([⟨gid 1, [7], .pushing 0⟩], 1, 0))
    (as := [.receive (gid 1) [7], .handler 0, .handler 0, .handler 0, .callback 0 true, .handler 0, .pushing 0 [], .pushing 0 [gid 0, gid 1, gid 2], .gor 0 0, .gor 0 1, .gor 0 2,
      .sent 0 2 true])
    (by decide +kernel)
  simp only [Prod.mk.injEq] at h2
  exact ⟨s, h1, ⟨⟨gid 1, [7], .pushing 0⟩, by rw [h2.1]; exact List.mem_singleton.2 rfl, by decide, rfl, by decide⟩, h2.2.1, h2.2.2⟩

end Noise
