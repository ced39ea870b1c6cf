import Verif.Proofs.NodeKeep
import Mathlib.Data.List.Perm.Subperm
/-! # Properties C112-C115: a whole node with its pools -/
namespace Noise
open Node
variable {ε : Type}

/-! ## C112 -/

theorem filter_length_le_of_index {α : Type} (xs : List α) (p : α → Bool) (l : List Nat) (h : ∀ (j : Nat) (x : α), xs[j]? = some x → p x = true → j ∈ l) : (xs.filter p).length ≤ l.length := by
  have key : ∀ xs : List α, (xs.filter p).length = ((List.range xs.length).filter fun j => (xs[j]?).any p).length := by
    intro xs
    induction xs using List.reverseRecOn with
    | nil => rfl
    | append_singleton xs x ih =>
      rw [List.filter_append, List.length_append, List.length_append, List.length_singleton, List.range_succ, List.filter_append, List.length_append, ih]
      congr 1
      · congr 1
        apply List.filter_congr
        intro j hj
        rw [List.getElem?_append_left (by simpa using hj)]
      · simp only [List.filter_cons, List.filter_nil, List.getElem?_concat_length, Option.any_some]
        cases p x <;> rfl
  rw [key]
  refine (List.subperm_of_subset (List.nodup_range.filter _) ?_).length_le
  intro j hj
  simp only [List.mem_filter, Option.any_eq_true] at hj
  obtain ⟨-, x, h1, h2⟩ := hj
  exact h j x h1 h2

/-- **C112.** A node never serves more than `maxInboundConnections` inbound connections at a time: in every reachable state of the whole node, at most that many accepted connections are being shaken hands with, read from or handed to the
application - they end with leaving the pool. -/
theorem C112_inbound_connections_bounded (cfg : Cfg ε) (s : Node.State ε) (h : Node.Reachable cfg s) :
    (s.conns.filter fun x => x.c.side = .inbound ∧ x.c.main ≠ .done ∧ x.c.main ≠ .finished).length ≤ cfg.max := by
  obtain ⟨l, h1, h2⟩ := (Inv.reach h).few
  refine Nat.le_trans (filter_length_le_of_index _ _ l ?_) h1
  intro j x hx hp
  simp only [decide_eq_true_eq] at hp
  exact h2 j ⟨x, hx, hp.1, fun hpast => hpast.elim hp.2.1 hp.2.2⟩

/-- The bound is reached: with `maxInboundConnections` of 2, two connections are served. -/
example : ∃ s : Node.State Unit, Node.Reachable ⟨2, 3, 1, 1, fun _ => false⟩ s ∧ (s.conns.filter fun x => x.c.side = .inbound ∧ x.c.main ≠ .done ∧ x.c.main ≠ .finished).length = 2 := by
  have h : (runs (Node.step ⟨2, 3, 1, 1, fun _ => false⟩) (Node.State.new : Node.State Unit) [.listen, .acceptStep, .acceptConn ['a'], .acceptStep, .acceptConn ['b'], .acceptStep]).map
      (fun s => (s.conns.filter fun x => x.c.side = .inbound ∧ x.c.main ≠ .done ∧ x.c.main ≠ .finished).length) = some 2 := by decide +kernel
  obtain ⟨s, h1, h2⟩ := Option.map_eq_some_iff.1 h
  exact ⟨s, ⟨_, h1⟩, h2⟩

/-! ## C113 -/

/-- The accept goroutine has not left its loop. -/
def Node.Accept.early : Accept → Bool
  | .none | .start | .loop | .get _ | .evict _ _ _ => true
  | _ => false

/-- No call of `Close` has returned. -/
def NoneReturned (s : Node.State ε) : Prop := ∀ c ∈ s.closers, c = .closing ∨ c = .waiting

/-- Until the accept goroutine has left its loop, nothing has been sent to those who call `Close`. -/
def Early (s : Node.State ε) : Prop := s.accept.early = true → s.doneBuf = 0 ∧ s.doneClosed = false ∧ NoneReturned s

theorem acceptStep_early {cfg : Cfg ε} {s s' : Node.State ε} (h : s.acceptStep cfg = some s') (he : s'.accept.early = true) :
    s.accept.early = true ∧ s'.doneBuf = s.doneBuf ∧ s'.doneClosed = s.doneClosed ∧ s'.closers = s.closers := by
  unfold State.acceptStep at h
  split at h
  · next ha => cases h; exact ⟨by simp [ha, Accept.early], rfl, rfl, rfl⟩
  · next a ha =>
    refine get_pres (Q := fun s' => s.accept.early = true ∧ s'.doneBuf = s.doneBuf ∧ s'.doneClosed = s.doneClosed ∧ s'.closers = s.closers) h ?_ ?_
    · simp [ha, Accept.early]
    · intro conns pool j
      simp [ha, Accept.early]
  · next v a ha =>
    rcases closeClient_some h with rfl | h
    · simp [ha, Accept.early]
    · have := stepConn_same h; exact ⟨by simp [ha, Accept.early], this.doneBuf, this.doneClosed, this.closers⟩
  · next v a ha =>
    split at h
    · cases h; exact ⟨by simp [ha, Accept.early], rfl, rfl, rfl⟩
    · cases h
  · split at h
    · cases h; cases he
    · cases h
  · cases h; cases he
  · next ha =>
    rcases closeClient_some h with rfl | h
    · cases he
    · have := stepConn_same h; rw [this.accept, ha] at he; cases he
  · split at h
    · cases h; cases he
    · cases h
  · split at h
    · next w hw =>
      cases hq : Wk.step w .closeQueue with
      | none => rw [hq] at h; cases h
      | some w' => rw [hq] at h; cases h; cases he
    · cases h
  · split at h
    · split at h
      · cases h; cases he
      · cases h
    · cases h
  · cases h; cases he
  · cases h; cases he
  · cases h

theorem Early.step {cfg : Cfg ε} {s s' : Node.State ε} {a : Node.Action ε} (hi : Early s) (h : Node.step cfg s a = some s') : Early s' := by
  intro he
  by_cases ha : a.other = true
  · have hk := step_keeps ha h
    rw [hk.accept] at he
    obtain ⟨h1, h2, h3⟩ := hi he
    exact ⟨hk.doneBuf.trans h1, hk.doneClosed.trans h2, by unfold NoneReturned; rw [hk.closers]; exact h3⟩
  · unfold Node.step at h
    split at h
    · cases h
    · cases a with
      | listen =>
        simp only at h
        split at h
        · next hacc => cases h; exact hi (by simp [hacc, Accept.early])
        · cases h
      | acceptConn a =>
        simp only at h
        split at h
        · next hacc _ => cases h; exact hi (by simp [hacc, Accept.early])
        · cases h
      | acceptFail =>
        simp only at h
        split at h
        · cases h; cases he
        · cases h
      | acceptStep =>
        obtain ⟨h1, h2, h3, h4⟩ := acceptStep_early h he
        obtain ⟨g1, g2, g3⟩ := hi h1
        exact ⟨h2.trans g1, h3.trans g2, by unfold NoneReturned; rw [h4]; exact g3⟩
      | acceptRelease l =>
        simp only at h
        split at h
        · split at h
          · cases h; cases he
          · cases h
        · cases h
      | close =>
        simp only at h
        split at h <;>
        · cases h
          obtain ⟨h1, h2, h3⟩ := hi he
          refine ⟨h1, h2, fun c hc => ?_⟩
          rcases List.mem_append.1 hc with hc | hc
          · exact h3 c hc
          · rw [List.mem_singleton] at hc; simp [hc]
      | closeListener c =>
        simp only at h
        split at h
        · cases h
          obtain ⟨h1, h2, h3⟩ := hi he
          refine ⟨h1, h2, fun x hx => ?_⟩
          rcases List.mem_or_eq_of_mem_set hx with hx | rfl
          · exact h3 x hx
          · simp
        · cases h
      | closeRecv c =>
        simp only at h
        split at h
        · split at h
          · next hb => cases h; rw [(hi he).1] at hb; cases hb
          · split at h
            · next hb => cases h; rw [(hi he).2.1] at hb; cases hb
            · cases h
        · cases h
      | _ => exact absurd rfl ha

theorem Early.reach {cfg : Cfg ε} {s : Node.State ε} (h : Node.Reachable cfg s) : Early s :=
  h.inv (P := Early) (fun _ _ _ hi h => hi.step h) (fun _ => ⟨rfl, rfl, fun c hc => by cases hc⟩)

theorem victim_some {a : Accept} {v : Nat} (h : a.victim = some v) : ∃ b addr, a = .evict v b addr := by
  cases a <;> simp_all [Accept.victim]

theorem evict_answers {cfg : Cfg ε} {s s' : Node.State ε} {a : Node.Action ε} {v : Nat} (hr : Node.Reachable cfg s) (he : ev s .accept = some v) (h : Node.step cfg s a = some s') :
    s'.log.filter Event.answers = s.log.filter Event.answers := by
  by_cases ha : a.other = true
  · exact (step_keeps ha h).answers
  obtain ⟨-, x, hx, -, hp⟩ := (Inv.reach hr).evict _ _ he
  obtain ⟨b, addr, hacc⟩ := victim_some he
  unfold Node.step at h
  split at h
  · cases h
  · cases a with
    | listen => rw [hacc] at h; cases h
    | acceptConn a => rw [hacc] at h; cases h
    | acceptFail => rw [hacc] at h; cases h
    | acceptStep =>
      simp only [State.acceptStep, hacc] at h
      cases b with
      | false =>
        rcases closeClient_some h with rfl | h
        · rfl
        · rw [(stepConn_same h).log]
      | true =>
        simp only at h
        split at h
        · next hd => exact absurd (done_past (Reaches.reach hr) hx hd) hp
        · cases h
    | acceptRelease l => rw [hacc] at h; cases h
    | close => simp only at h; split at h <;> · cases h; rfl
    | closeListener c =>
      simp only at h
      split at h
      · cases h; rfl
      · cases h
    | closeRecv c =>
      simp only at h
      split at h
      · split at h
        · cases h; rfl
        · split at h
          · cases h; rfl
          · cases h
      · cases h
    | _ => exact absurd rfl ha

/-- **C113, refuted.** "A node that listens accepts connections until it is closed, and closing it completes." Once the accept goroutine has begun to evict a client - which it does when a connection comes from a further address while
the pool is full - then, whatever happens: no connection is accepted any more, no call of `Close` ever returns, `Inbound()` does not return, and none of the connections that the node has accepted ever ends, not even those whose peer is gone. -/
theorem C113_full_pool_ends_the_node_refuted (cfg : Cfg ε) (s : Node.State ε) (hr : Node.Reachable cfg s) (v : Nat) (b : Bool) (a : Text) (he : s.accept = .evict v b a)
    (as : List (Node.Action ε)) (s' : Node.State ε) (h : runs (Node.step cfg) s as = some s') :
    s'.log.filter Event.answers = s.log.filter Event.answers ∧
    NoneReturned s' ∧
    Node.step cfg s' (.list .inbound) = none ∧
    ∀ (j : Nat) (x : Conn ε), s.conns[j]? = some x → x.c.side = .inbound → x.c.main ≠ .done ∧ x.c.main ≠ .finished →
      ∃ x' : Conn ε, s'.conns[j]? = some x' ∧ x'.c.side = .inbound ∧ x'.c.main ≠ .done ∧ x'.c.main ≠ .finished := by
  have key : Node.Reachable cfg s' ∧ ev s' .accept = some v ∧ s'.log.filter Event.answers = s.log.filter Event.answers ∧
      ∀ (j : Nat) (x : Conn ε), s.conns[j]? = some x → x.c.side = .inbound → ¬ past x.c → ∃ x' : Conn ε, s'.conns[j]? = some x' ∧ x'.c.side = .inbound ∧ ¬ past x'.c := by
    refine runs_inv (P := fun s' => Node.Reachable cfg s' ∧ ev s' .accept = some v ∧ s'.log.filter Event.answers = s.log.filter Event.answers ∧
      ∀ (j : Nat) (x : Conn ε), s.conns[j]? = some x → x.c.side = .inbound → ¬ past x.c → ∃ x' : Conn ε, s'.conns[j]? = some x' ∧ x'.c.side = .inbound ∧ ¬ past x'.c) ?_ h ⟨hr, by simp [ev, he, Accept.victim], rfl, fun j x h1 h2 h3 => ⟨x, h1, h2, h3⟩⟩
    rintro s1 act s2 ⟨h1, h2, h3, h4⟩ hs
    refine ⟨h1.snoc hs, ev_forever h1 hs h2, (evict_answers h1 h2 hs).trans h3, fun j x hx hx2 hx3 => ?_⟩
    obtain ⟨x1, g1, g2, g3⟩ := h4 j x hx hx2 hx3
    obtain ⟨x2, f1, f2, f3⟩ := locked_live hs g1 (by have := ((Inv.reach h1).evict _ _ h2).1; rw [g2]; simp only [Tid.side] at this; simp [this]) g3
    exact ⟨x2, f1, f2.trans g2, f3⟩
  obtain ⟨k1, k2, k3, k4⟩ := key
  have hlock := ((Inv.reach k1).evict _ _ k2).1
  obtain ⟨b', a', hacc⟩ := victim_some k2
  refine ⟨k3, (Early.reach k1 (by rw [hacc]; rfl)).2.2, ?_, fun j x hx hx2 hx3 => ?_⟩
  · unfold Node.step
    split
    · rfl
    · simp only [Tid.side] at hlock
      simp [hlock]
  · obtain ⟨x', h1, h2, h3⟩ := k4 j x hx hx2 (fun h => h.elim hx3.1 hx3.2)
    exact ⟨x', h1, h2, fun h => h3 (.inl h), fun h => h3 (.inr h)⟩

/-- The accept goroutine holds the mutex of the inbound pool only to evict. -/
theorem inbound_unlocked {cfg : Cfg ε} {s : Node.State ε} (hr : Node.Reachable cfg s) (h : ev s .accept = none) : (s.pool .inbound).lock = none := by
  cases hl : (s.pool .inbound).lock with
  | none => rfl
  | some t =>
    obtain ⟨h1, h2⟩ := (Inv.reach hr).lock _ _ hl
    cases t with
    | accept => exact absurd h h2
    | call k => cases h1

/-- **C113, refuted: how it comes to that.** Whenever the pool is full, the next connection from a further address ends the node in this way. -/
theorem C113_next_connection_refuted (cfg : Cfg ε) (s : Node.State ε) (hr : Node.Reachable cfg s) (hc : s.crashed = false) (ha : s.accept = .loop) (ho : s.listenerOpen = true) (h0 : cfg.max ≠ 0)
    (hf : (s.pool .inbound).entries.length = cfg.max) (a : Text) (hn : ∀ e ∈ (s.pool .inbound).entries, e.1 ≠ a) :
    ∃ s' v, runs (Node.step cfg) s [.acceptConn a, .acceptStep] = some s' ∧ s'.accept = .evict v false a := by
  have hl := inbound_unlocked hr (by simp [ev, ha, Accept.victim])
  have hfind : (s.pool .inbound).entries.find? (fun e => e.1 = a) = none := by simpa using hn
  have h1 : Node.step cfg s (.acceptConn a) = some { s with accept := .get a } := by simp [Node.step, hc, ha, ho]
  cases hg : (s.pool .inbound).entries.getLast? with
  | none => rw [List.getLast?_eq_none_iff] at hg; rw [hg] at hf; exact absurd hf.symm h0
  | some e =>
    have h2 : Node.step cfg { s with accept := .get a } .acceptStep = some { ({ s with accept := .get a } : Node.State ε).setPool .inbound ⟨some .accept, (s.pool .inbound).entries.dropLast⟩ |>.drop e.2 with accept := .evict e.2 false a } := by
      simp [Node.step, hc, State.acceptStep, State.get, hl, hfind, hf, hg]
    exact ⟨_, _, runs_step h1 (runs_one h2), rfl⟩

theorem fill (cfg : Cfg ε) (n : Nat) (hn : n ≤ cfg.max) : ∃ (as : List (Node.Action ε)) (s : Node.State ε), runs (Node.step cfg) Node.State.new as = some s ∧ s.crashed = false ∧ s.accept = .loop ∧ s.listenerOpen = true ∧
    (s.pool .inbound).entries.length = n ∧ ∀ e ∈ (s.pool .inbound).entries, e.1.length < n := by
  induction n with
  | zero =>
    refine ⟨[.listen, .acceptStep], { Node.State.new with listenerOpen := true, wk := some (Wk.State.new cfg.numWorkers cfg.numHandlers), listening := true, accept := .loop }, runs_step rfl (runs_one rfl), rfl, rfl, rfl, rfl, fun e he => ?_⟩
    cases he
  | succ n ih =>
    obtain ⟨as, s, h1, h2, h3, h4, h5, h6⟩ := ih (by omega)
    have hl := inbound_unlocked ⟨as, h1⟩ (by simp [ev, h3, Accept.victim])
    let a : Text := List.replicate n 'a'
    have hfind : (s.pool .inbound).entries.find? (fun e => e.1 = a) = none := by
      simp only [List.find?_eq_none, decide_eq_true_eq]
      intro e he heq
      have := h6 e he
      rw [heq, List.length_replicate] at this
      omega
    have g1 : Node.step cfg s (.acceptConn a) = some { s with accept := .get a } := by simp [Node.step, h2, h3, h4]
    have g2 : Node.step cfg { s with accept := .get a } .acceptStep = some { (({ s with accept := .get a } : Node.State ε).push .inbound a) with accept := .loop, log := s.log ++ [.accepted a s.conns.length] } := by
      have : (s.pool .inbound).entries.length ≠ cfg.max := by omega
      simp only [Node.step, h2, State.acceptStep, State.get, hl, hfind]
      simp [this, State.push, State.setPool]
    have hrun := runs_trans h1 (runs_step g1 (runs_one g2))
    refine ⟨_, _, hrun, h2, rfl, h4, ?_, ?_⟩
    · simp [State.push, setPool_pool, h5]
    · intro e he
      simp only [State.push, setPool_pool, if_true, List.mem_cons] at he
      rcases he with rfl | he
      · simp [a]
      · have := h6 e he; omega

/-- **C113, witness.** Whatever the configuration, one connection more than the pool may hold, each from another address, does it. -/
theorem C113_witness (cfg : Cfg ε) (h0 : cfg.max ≠ 0) : ∃ (s : Node.State ε) (v : Nat) (a : Text), Node.Reachable cfg s ∧ s.accept = .evict v false a := by
  obtain ⟨as, s, h1, h2, h3, h4, h5, h6⟩ := fill cfg cfg.max (Nat.le_refl _)
  obtain ⟨s', v, h7, h8⟩ := C113_next_connection_refuted cfg s ⟨as, h1⟩ h2 h3 h4 h0 h5 (List.replicate cfg.max 'a') (by
    intro e he heq
    have := h6 e he
    rw [heq, List.length_replicate] at this
    omega)
  exact ⟨s', v, _, ⟨_, runs_trans h1 h7⟩, h8⟩

/-- Somebody wants a client, and there is room for it: at most `max` addresses are ever wanted. -/
theorem room {max : Nat} {s : Node.State ε} (hi : Inv max s) {d : Cl.Side} {L : List Text} (hL : L.length ≤ max) (hsub : ∀ e ∈ (s.pool d).entries, e.1 ∈ L) {a : Text} (ha : a ∈ L)
    (hf : (s.pool d).entries.find? (fun q => q.1 = a) = none) : (s.pool d).entries.length < max := by
  have hn : (a :: (s.pool d).entries.map Prod.fst).Nodup := by
    rw [List.nodup_cons]
    refine ⟨fun h => ?_, hi.nodup d⟩
    obtain ⟨e, he, rfl⟩ := List.mem_map.1 h
    exact find_mem_ne hf e he rfl
  have := (List.subperm_of_subset hn (fun b hb => (by
    rcases List.mem_cons.1 hb with rfl | hb
    · exact ha
    · obtain ⟨e, he, rfl⟩ := List.mem_map.1 hb
      exact hsub e he : b ∈ L))).length_le
  simp only [List.length_cons, List.length_map] at this
  omega

/-- The pool holds wanted addresses only, and nobody evicts, as long as no more than `max` addresses are wanted. -/
theorem within_step {cfg : Cfg ε} {s s' : Node.State ε} {a : Node.Action ε} {d : Cl.Side} {L : List Text} (hr : Node.Reachable cfg s) (hL : L.length ≤ cfg.max) (h : Node.step cfg s a = some s') (hw : ∀ b, Wants s d b → b ∈ L)
    (hsub : ∀ e ∈ (s.pool d).entries, e.1 ∈ L) (hev : ∀ t, t.side = d → ev s t = none) : (∀ e ∈ (s'.pool d).entries, e.1 ∈ L) ∧ ∀ t, t.side = d → ev s' t = none := by
  have hi := Inv.reach hr
  rcases step_eff h with h | rfl
  swap
  · exact ⟨hsub, hev⟩
  cases h with
  | quiet hp _ he => rw [hp, he]; exact ⟨hsub, hev⟩
  | found d' e _ hf hp _ he =>
    rw [hp, he]
    refine ⟨fun q hq => ?_, hev⟩
    simp only at hq
    split at hq
    · next hd =>
      subst hd
      rcases List.mem_cons.1 hq with rfl | hq
      · exact hsub _ (List.mem_of_find?_eq_some hf)
      · exact hsub _ (List.mem_filter.1 hq).1
    · exact hsub _ hq
  | added d' b _ _ _ hp _ he _ _ hwa =>
    rw [hp, he]
    refine ⟨fun q hq => ?_, hev⟩
    simp only at hq
    split at hq
    · next hd =>
      subst hd
      rcases List.mem_cons.1 hq with rfl | hq
      · exact hw _ hwa
      · exact hsub _ hq
    · exact hsub _ hq
  | evict t e _ hn _ hp _ _ _ heo _ _ hwa =>
    obtain ⟨b, h1, h2⟩ := hwa
    by_cases hd : t.side = d
    · subst hd
      exact absurd hn (Nat.ne_of_lt (room hi hL hsub (hw b h1) h2))
    · rw [hp]
      refine ⟨fun q hq => ?_, fun t' ht' => ?_⟩
      · simp only [if_neg (Ne.symm hd)] at hq; exact hsub _ hq
      · rw [heo t' (fun h => hd (h ▸ ht'))]; exact hev _ ht'
  | evicted t v b he0 _ hp _ _ heo =>
    by_cases hd : t.side = d
    · rw [hev t hd] at he0; cases he0
    · rw [hp]
      refine ⟨fun q hq => ?_, fun t' ht' => ?_⟩
      · simp only [if_neg (Ne.symm hd)] at hq; exact hsub _ hq
      · rw [heo t' (fun h => hd (h ▸ ht'))]; exact hev _ ht'
  | removed j x _ _ _ hp _ _ he =>
    rw [hp, he]
    refine ⟨fun q hq => ?_, hev⟩
    simp only at hq
    split at hq
    · next hd => subst hd; exact hsub _ (List.mem_filter.1 hq).1
    · exact hsub _ hq
  | released l _ _ _ _ hp _ he =>
    rw [hp, he]
    refine ⟨fun q hq => ?_, hev⟩
    simp only at hq
    split at hq
    · cases hq
    · exact hsub _ hq

/-- **C113, what holds.** As long as connections come from at most `maxInboundConnections` addresses - ever, not at a time - the accept goroutine does not evict, and answers every connection: it goes back to its loop with one step. -/
theorem C113_accepts_few_addresses_partial (cfg : Cfg ε) (L : List Text) (hL : L.length ≤ cfg.max) (as : List (Node.Action ε)) (s : Node.State ε) (h : runs (Node.step cfg) Node.State.new as = some s)
    (hin : ∀ a, .acceptConn a ∈ as → a ∈ L) :
    (∀ v b a, s.accept ≠ .evict v b a) ∧
    (s.crashed = false → ∀ a, s.accept = .get a → ∃ s' e, Node.step cfg s .acceptStep = some s' ∧ s'.accept = .loop ∧ e.answers = true ∧ s'.log = s.log ++ [e]) := by
  have key : Node.Reachable cfg s ∧ (∀ a, s.accept = .get a → a ∈ L) ∧ (∀ e ∈ (s.pool .inbound).entries, e.1 ∈ L) ∧ ∀ t, t.side = .inbound → ev s t = none := by
    refine runs_inv' (P := fun s => Node.Reachable cfg s ∧ (∀ a, s.accept = .get a → a ∈ L) ∧ (∀ e ∈ (s.pool .inbound).entries, e.1 ∈ L) ∧ ∀ t, t.side = .inbound → ev s t = none)
      (Q := fun act : Node.Action ε => ∀ a, act = .acceptConn a → a ∈ L) ?_ (fun act hact a ha => hin a (ha ▸ hact)) h ⟨.refl _, fun a ha => (by cases ha), fun e he => (by cases he), fun t ht => (by cases t with | accept => rfl | call k => cases ht)⟩
    rintro s1 act s2 ⟨h1, h2, h3, h4⟩ hq hs
    obtain ⟨h5, h6⟩ := within_step (d := .inbound) h1 hL hs h2 h3 h4
    refine ⟨h1.snoc hs, fun a ha => ?_, h5, h6⟩
    rcases get_from hs ha with h | h
    · exact h2 a h
    · exact hq a h
  obtain ⟨hr, h2, h3, h4⟩ := key
  refine ⟨fun v b a ha => ?_, fun hc a ha => ?_⟩
  · have := h4 .accept rfl
    simp [ev, ha, Accept.victim] at this
  · have hl := inbound_unlocked hr (h4 .accept rfl)
    cases hf : (s.pool .inbound).entries.find? (fun q => q.1 = a) with
    | some e =>
      refine ⟨{ s.setPool .inbound { s.pool .inbound with entries := e :: (s.pool .inbound).entries.filter (fun q => q.1 ≠ a) } with accept := .loop, log := s.log ++ [.ignored a] }, .ignored a, ?_, rfl, rfl, rfl⟩
      simp only [Node.step, hc, State.acceptStep, ha, State.get, hl, hf]
      simp [State.setPool]
    | none =>
      have hlt := room (Inv.reach hr) hL h3 (h2 a ha) hf
      refine ⟨{ (s.push .inbound a) with accept := .loop, log := s.log ++ [.accepted a s.conns.length] }, .accepted a s.conns.length, ?_, rfl, rfl, rfl⟩
      simp only [Node.step, hc, State.acceptStep, ha, State.get, hl, hf]
      simp [Nat.ne_of_lt hlt, State.push, State.setPool]

/-- A run of this kind in which the accept goroutine holds a connection, with the pool full. -/
example : ∃ (as : List (Node.Action Unit)) (s : Node.State Unit), runs (Node.step ⟨1, 3, 1, 1, fun _ => false⟩) Node.State.new as = some s ∧ (∀ a, .acceptConn a ∈ as → a ∈ [['a']]) ∧ s.crashed = false ∧ s.accept = .get ['a'] ∧
    (s.pool .inbound).entries.length = 1 := by
  have h : (runs (Node.step ⟨1, 3, 1, 1, fun _ => false⟩) (Node.State.new : Node.State Unit) [.listen, .acceptStep, .acceptConn ['a'], .acceptStep, .acceptConn ['a']]).map
      (fun s => (s.crashed, s.accept, (s.pool .inbound).entries.length)) = some (false, .get ['a'], 1) := by decide +kernel
  obtain ⟨s, h1, h2⟩ := Option.map_eq_some_iff.1 h
  injection h2 with h2 h3
  injection h3 with h3 h4
  exact ⟨_, s, h1, by simp, h2, h3, h4⟩

/-! ## C114 -/

/-- **C114, refuted.** "A call of `Ping`, `Send` or `Request` returns once its context has ended." Once some call has begun to evict a client - which it does when it needs a connection to a further address while the outbound pool is
full - then, whatever happens: neither that call nor any call that needs a connection after it ever gets past the pool, with whatever context and to whatever address - even one that the node is connected to; and `Outbound()` does not return. -/
theorem C114_full_pool_ends_calls_refuted (cfg : Cfg ε) (hat : 0 < cfg.attempts) (s : Node.State ε) (hr : Node.Reachable cfg s) (k : Nat) (c : Call ε) (hk : s.calls[k]? = some c) (v : Nat) (b : Bool) (he : c.pc = .evict v b)
    (as : List (Node.Action ε)) (s' : Node.State ε) (h : runs (Node.step cfg) s as = some s') :
    (∃ c' : Call ε, s'.calls[k]? = some c' ∧ ∀ r, c'.pc ≠ .returned r) ∧
    (∀ (i : Nat) (c0 : Call ε), s.calls[i]? = some c0 → c0.pc = .get ∧ 0 < c0.left → ∃ c' : Call ε, s'.calls[i]? = some c' ∧ ∀ r, c'.pc ≠ .returned r) ∧
    (∀ (i : Nat) (c' : Call ε), s.calls.length ≤ i → s'.calls[i]? = some c' → ∀ r, c'.pc ≠ .returned r) ∧
    Node.step cfg s' (.list .outbound) = none := by
  have key : Node.Reachable cfg s' ∧ ev s' (.call k) = some v ∧ (∀ (i : Nat) (c0 : Call ε), s.calls[i]? = some c0 → c0.waits → ∃ c' : Call ε, s'.calls[i]? = some c' ∧ c'.waits) ∧
      (∀ (i : Nat) (c' : Call ε), s.calls.length ≤ i → s'.calls[i]? = some c' → c'.waits) := by
    refine runs_inv (P := fun s' => Node.Reachable cfg s' ∧ ev s' (.call k) = some v ∧ (∀ (i : Nat) (c0 : Call ε), s.calls[i]? = some c0 → c0.waits → ∃ c' : Call ε, s'.calls[i]? = some c' ∧ c'.waits) ∧
      (∀ (i : Nat) (c' : Call ε), s.calls.length ≤ i → s'.calls[i]? = some c' → c'.waits)) ?_ h ⟨hr, by simp [ev, hk, he, Pc.victim], fun i c0 h1 h2 => ⟨c0, h1, h2⟩, fun i c' h1 h2 => ?_⟩
    · rintro s1 act s2 ⟨h1, h2, h3, h4⟩ hs
      have hl : (s1.pool .outbound).lock ≠ none := by
        have := ((Inv.reach h1).evict _ _ h2).1
        simp only [Tid.side] at this
        simp [this]
      refine ⟨h1.snoc hs, ev_forever h1 hs h2, fun i c0 hc0 hw => ?_, fun i c' hi hc' => ?_⟩
      · obtain ⟨c1, g1, g2⟩ := h3 i c0 hc0 hw
        exact locked_waits hs g1 hl g2
      · cases hc1 : s1.calls[i]? with
        | some c1 =>
          obtain ⟨c2, g1, g2⟩ := locked_waits hs hc1 hl (h4 i c1 hi hc1)
          rw [hc'] at g1; cases g1; exact g2
        | none =>
          have hge : s1.calls.length ≤ i := List.getElem?_eq_none_iff.1 hc1
          rcases step_calls hs with h | ⟨kd, ad, -, h⟩ | ⟨i', c0, c2, g1, g2, -, -⟩
          · rw [h, hc1] at hc'; cases hc'
          · rw [h, List.getElem?_append_right hge] at hc'
            have := List.mem_of_getElem? hc'
            rw [List.mem_singleton] at this
            subst this
            exact ⟨rfl, hat⟩
          · rw [g2] at hc'
            have := (List.getElem?_eq_some_iff.1 hc').1
            rw [List.length_set] at this
            omega
    · have := (List.getElem?_eq_some_iff.1 h2).1; omega
  obtain ⟨k1, k2, k3, k4⟩ := key
  refine ⟨?_, fun i c0 h1 h2 => ?_, fun i c' h1 h2 r hr => ?_, ?_⟩
  · simp only [ev] at k2
    cases hc : s'.calls[k]? with
    | none => simp [hc] at k2
    | some c' =>
      refine ⟨c', rfl, fun r hr => ?_⟩
      simp [hc, hr, Pc.victim] at k2
  · obtain ⟨c', g1, g2⟩ := k3 i c0 h1 h2
    exact ⟨c', g1, fun r hr => by have := g2.1; rw [hr] at this; cases this⟩
  · have := (k4 i c' h1 h2).1; rw [hr] at this; cases this
  · have hlock := ((Inv.reach k1).evict _ _ k2).1
    unfold Node.step
    split
    · rfl
    · simp only [Tid.side] at hlock
      simp [hlock]

theorem outbound_unlocked {cfg : Cfg ε} {s : Node.State ε} (hr : Node.Reachable cfg s) (h : ∀ k, ev s (.call k) = none) : (s.pool .outbound).lock = none := by
  cases hl : (s.pool .outbound).lock with
  | none => rfl
  | some t =>
    obtain ⟨h1, h2⟩ := (Inv.reach hr).lock _ _ hl
    cases t with
    | accept => cases h1
    | call k => exact absurd (h k) h2

theorem fill_out (cfg : Cfg ε) (hat : 0 < cfg.attempts) (n : Nat) (hn : n ≤ cfg.max) : ∃ (as : List (Node.Action ε)) (s : Node.State ε), runs (Node.step cfg) Node.State.new as = some s ∧ s.crashed = false ∧ (s.pool .outbound).lock = none ∧
    (s.pool .outbound).entries.length = n ∧ ∀ e ∈ (s.pool .outbound).entries, e.1.length < n := by
  induction n with
  | zero => exact ⟨[], _, rfl, rfl, rfl, rfl, fun e he => by cases he⟩
  | succ n ih =>
    obtain ⟨as, s, h1, h2, h3, h5, h6⟩ := ih (by omega)
    let a : Text := List.replicate n 'a'
    obtain ⟨m, hm⟩ : ∃ m, cfg.attempts = m + 1 := ⟨cfg.attempts - 1, by omega⟩
    have hfind : (s.pool .outbound).entries.find? (fun e => e.1 = a) = none := by
      simp only [List.find?_eq_none, decide_eq_true_eq]
      intro e he heq
      have := h6 e he
      rw [heq, List.length_replicate] at this
      omega
    have g1 : Node.step cfg s (.call .ping a) = some { s with calls := s.calls ++ [⟨.ping, a, cfg.attempts, .get, false⟩] } := by simp [Node.step, h2]
    have g2 : Node.step cfg { s with calls := s.calls ++ [⟨.ping, a, cfg.attempts, .get, false⟩] } (.callStep s.calls.length) =
        some ((({ s with calls := s.calls ++ [⟨.ping, a, cfg.attempts, .get, false⟩] } : Node.State ε).push .outbound a).setCall s.calls.length ⟨.ping, a, m, .select s.conns.length, false⟩) := by
      have : (s.pool .outbound).entries.length ≠ cfg.max := by omega
      simp only [Node.step, h2, State.callStep, State.get, h3, hfind, List.getElem?_concat_length, hm]
      simp [this]
    have hrun := runs_trans h1 (runs_step g1 (runs_one g2))
    refine ⟨_, _, hrun, h2, ?_, ?_, ?_⟩
    · simp [State.push, State.setCall, setPool_pool, h3]
    · simp [State.push, State.setCall, setPool_pool, h5]
    · intro e he
      simp only [State.push, State.setCall, setPool_pool, if_true, List.mem_cons] at he
      rcases he with rfl | he
      · simp [a]
      · have := h6 e he; omega

/-- **C114, refuted: how it comes to that.** Whenever the outbound pool is full and its mutex free, a call to a further address ends all calls in this way. -/
theorem C114_next_call_refuted (cfg : Cfg ε) (hat : 0 < cfg.attempts) (s : Node.State ε) (hc : s.crashed = false) (hl : (s.pool .outbound).lock = none) (h0 : cfg.max ≠ 0)
    (hf : (s.pool .outbound).entries.length = cfg.max) (kind : Kind) (a : Text) (hn : ∀ e ∈ (s.pool .outbound).entries, e.1 ≠ a) :
    ∃ s' c v, runs (Node.step cfg) s [.call kind a, .callStep s.calls.length] = some s' ∧ s'.calls[s.calls.length]? = some c ∧ c.pc = .evict v false := by
  have hfind : (s.pool .outbound).entries.find? (fun e => e.1 = a) = none := by simpa using hn
  obtain ⟨m, hm⟩ : ∃ m, cfg.attempts = m + 1 := ⟨cfg.attempts - 1, by omega⟩
  cases hg : (s.pool .outbound).entries.getLast? with
  | none => rw [List.getLast?_eq_none_iff] at hg; rw [hg] at hf; exact absurd hf.symm h0
  | some e =>
    have g1 : Node.step cfg s (.call kind a) = some { s with calls := s.calls ++ [⟨kind, a, cfg.attempts, .get, false⟩] } := by simp [Node.step, hc]
    have g2 : Node.step cfg { s with calls := s.calls ++ [⟨kind, a, cfg.attempts, .get, false⟩] } (.callStep s.calls.length) =
        some (((({ s with calls := s.calls ++ [⟨kind, a, cfg.attempts, .get, false⟩] } : Node.State ε).setPool .outbound ⟨some (.call s.calls.length), (s.pool .outbound).entries.dropLast⟩).drop e.2).setCall s.calls.length ⟨kind, a, m, .evict e.2 false, false⟩) := by
      simp only [Node.step, hc, State.callStep, State.get, hl, hfind, List.getElem?_concat_length, hm]
      simp [hf, hg]
    have hs := drop_same (({ s with calls := s.calls ++ [⟨kind, a, cfg.attempts, .get, false⟩] } : Node.State ε).setPool .outbound ⟨some (.call s.calls.length), (s.pool .outbound).entries.dropLast⟩) e.2
    refine ⟨_, ⟨kind, a, m, .evict e.2 false, false⟩, e.2, runs_step g1 (runs_one g2), ?_, rfl⟩
    simp only [State.setCall, hs.calls]
    simp [State.setPool]

/-- **C114, witness.** Whatever the configuration, one call more than the pool may hold, each to another address, does it - before any of the peers has answered. -/
theorem C114_witness (cfg : Cfg ε) (hat : 0 < cfg.attempts) (h0 : cfg.max ≠ 0) : ∃ (s : Node.State ε) (k v : Nat) (c : Call ε), Node.Reachable cfg s ∧ s.calls[k]? = some c ∧ c.pc = .evict v false := by
  obtain ⟨as, s, h1, h2, h3, h5, h6⟩ := fill_out cfg hat cfg.max (Nat.le_refl _)
  obtain ⟨s', c, v, h7, h8, h9⟩ := C114_next_call_refuted cfg hat s h2 h3 h0 h5 .ping (List.replicate cfg.max 'a') (by
    intro e he heq
    have := h6 e he
    rw [heq, List.length_replicate] at this
    omega)
  exact ⟨s', _, v, c, ⟨_, runs_trans h1 h7⟩, h8, h9⟩

/-- **C114, what holds.** As long as calls are made to at most `maxInboundConnections` addresses - ever, not at a time - no call evicts, and every call that needs a connection gets a client with its next step, or gives up. -/
theorem C114_few_addresses_partial (cfg : Cfg ε) (L : List Text) (hL : L.length ≤ cfg.max) (as : List (Node.Action ε)) (s : Node.State ε) (h : runs (Node.step cfg) Node.State.new as = some s)
    (hin : ∀ kind a, .call kind a ∈ as → a ∈ L) :
    (∀ (k : Nat) (c : Call ε), s.calls[k]? = some c → ∀ v b, c.pc ≠ .evict v b) ∧
    (s.crashed = false → ∀ (k : Nat) (c : Call ε), s.calls[k]? = some c → c.pc = .get → ∃ (s' : Node.State ε) (c' : Call ε), Node.step cfg s (.callStep k) = some s' ∧ s'.calls[k]? = some c' ∧
      (c'.pc = .failing ∧ c.left = 0 ∨ ∃ (j : Nat) (x : Conn ε), c'.pc = .select j ∧ s'.conns[j]? = some x ∧ x.addr = c.addr)) := by
  have key : Node.Reachable cfg s ∧ (∀ (k : Nat) (c : Call ε), s.calls[k]? = some c → c.addr ∈ L) ∧ (∀ e ∈ (s.pool .outbound).entries, e.1 ∈ L) ∧ ∀ t, t.side = .outbound → ev s t = none := by
    refine runs_inv' (P := fun s => Node.Reachable cfg s ∧ (∀ (k : Nat) (c : Call ε), s.calls[k]? = some c → c.addr ∈ L) ∧ (∀ e ∈ (s.pool .outbound).entries, e.1 ∈ L) ∧ ∀ t, t.side = .outbound → ev s t = none)
      (Q := fun act : Node.Action ε => ∀ kind a, act = .call kind a → a ∈ L) ?_ (fun act hact kind a ha => hin kind a (ha ▸ hact)) h ⟨.refl _, fun k c hc => (by cases hc), fun e he => (by cases he), fun t ht => (by cases t with | accept => cases ht | call k => rfl)⟩
    rintro s1 act s2 ⟨h1, h2, h3, h4⟩ hq hs
    obtain ⟨h5, h6⟩ := within_step h1 hL hs (by rintro b ⟨k, c, hc, rfl⟩; exact h2 k c hc) h3 h4
    refine ⟨h1.snoc hs, fun k c hc => ?_, h5, h6⟩
    rcases step_calls hs with h | ⟨kd, ad, h0, h⟩ | ⟨i, c0, c2, g1, g2, g3, -⟩
    · rw [h] at hc; exact h2 k c hc
    · rw [h] at hc
      rcases List.mem_append.1 (List.mem_of_getElem? hc) with hm | hm
      · obtain ⟨i, hi⟩ := List.getElem?_of_mem hm
        exact h2 i c hi
      · rw [List.mem_singleton] at hm
        rw [hm]
        exact hq kd ad h0
    · rw [g2] at hc
      rcases List.mem_or_eq_of_mem_set (List.mem_of_getElem? hc) with hm | rfl
      · obtain ⟨i, hi⟩ := List.getElem?_of_mem hm
        exact h2 i c hi
      · rw [g3]; exact h2 i c0 g1
  obtain ⟨hr, h2, h3, h4⟩ := key
  refine ⟨fun k c hk v b ha => ?_, fun hc k c hk ha => ?_⟩
  · have := h4 (.call k) rfl
    simp [ev, hk, ha, Pc.victim] at this
  · have hl := outbound_unlocked hr (fun k => h4 (.call k) rfl)
    have hlt := (List.getElem?_eq_some_iff.1 hk).1
    cases hleft : c.left with
    | zero =>
      refine ⟨s.setCall k { c with pc := .failing }, { c with pc := .failing }, ?_, ?_, .inl ⟨rfl, rfl⟩⟩
      · simp [Node.step, hc, hk, State.callStep, ha, hleft]
      · simp [State.setCall, hlt]
    | succ n =>
      cases hf : (s.pool .outbound).entries.find? (fun q => q.1 = c.addr) with
      | some e =>
        obtain ⟨x, hx1, hx2, -⟩ := (Inv.reach hr).ent _ e (List.mem_of_find?_eq_some hf)
        have hea : e.1 = c.addr := by simpa using List.find?_some hf
        refine ⟨(s.setPool .outbound { s.pool .outbound with entries := e :: (s.pool .outbound).entries.filter (fun q => q.1 ≠ c.addr) }).setCall k { c with left := n, pc := .select e.2 }, { c with left := n, pc := .select e.2 }, ?_, ?_, .inr ⟨e.2, x, rfl, hx1, hx2.trans hea⟩⟩
        · simp only [Node.step, hc, hk, State.callStep, ha, hleft, State.get, hl, hf]
          simp
        · simp [State.setCall, State.setPool, hlt]
      | none =>
        have hlt' := room (Inv.reach hr) hL h3 (h2 k c hk) hf
        refine ⟨(s.push .outbound c.addr).setCall k { c with left := n, pc := .select s.conns.length }, { c with left := n, pc := .select s.conns.length }, ?_, ?_, .inr ⟨s.conns.length, ⟨c.addr, Cl.State.new .outbound, false⟩, rfl, ?_, rfl⟩⟩
        · simp only [Node.step, hc, hk, State.callStep, ha, hleft, State.get, hl, hf]
          simp [Nat.ne_of_lt hlt']
        · simp [State.setCall, State.push, State.setPool, hlt]
        · simp [State.setCall, State.push, State.setPool]

/-- A run of this kind in which two calls to one address want a connection. -/
example : ∃ (as : List (Node.Action Unit)) (s : Node.State Unit), runs (Node.step ⟨1, 3, 1, 1, fun _ => false⟩) Node.State.new as = some s ∧ (∀ kind a, .call kind a ∈ as → a ∈ [['a']]) ∧ s.crashed = false ∧
    s.calls.map (fun c => c.pc) = [.select 0, .get] := by
  have h : (runs (Node.step ⟨1, 3, 1, 1, fun _ => false⟩) (Node.State.new : Node.State Unit) [.call .ping ['a'], .callStep 0, .call (.send [1]) ['a']]).map
      (fun s => (s.crashed, s.calls.map fun c => c.pc)) = some (false, [.select 0, .get]) := by decide +kernel
  obtain ⟨s, h1, h2⟩ := Option.map_eq_some_iff.1 h
  injection h2 with h2 h3
  exact ⟨_, s, h1, fun kind a h => by simp at h ⊢; rcases h with ⟨-, h⟩ | ⟨-, h⟩ <;> exact h, h2, h3⟩

/-! ## C115 -/

/-- The clients made for connections that `Accept` returned. -/
def served (l : List Node.Event) : List (Text × Nat) := l.filterMap fun e => match e with | .accepted a j => some (a, j) | _ => none

/-- The inbound clients with their addresses. -/
def inboundClients (s : Node.State ε) : List (Text × Nat) := (List.range s.conns.length).filterMap fun j => (s.conns[j]?).bind fun x => if x.c.side = .inbound then some (x.addr, j) else none

theorem served_append (l l' : List Node.Event) : served (l ++ l') = served l ++ served l' := List.filterMap_append

theorem served_filter (l : List Node.Event) : served (l.filter Event.answers) = served l := by
  induction l with
  | nil => rfl
  | cons e l ih => cases e <;> simp_all [served, Event.answers, List.filter_cons]

theorem Node.Keeps.served {s s' : Node.State ε} (h : Keeps s s') : served s'.log = served s.log := by
  rw [← served_filter s'.log, h.answers, served_filter]

theorem inboundClients_of {s s' : Node.State ε} (hlen : s'.conns.length = s.conns.length) (h : ∀ (j : Nat) (x : Conn ε), s.conns[j]? = some x → ∃ x' : Conn ε, s'.conns[j]? = some x' ∧ x'.addr = x.addr ∧ x'.c.side = x.c.side) :
    inboundClients s' = inboundClients s := by
  unfold inboundClients
  rw [hlen]
  apply List.filterMap_congr
  intro j hj
  obtain ⟨x', h1, h2, h3⟩ := h j _ (List.getElem?_eq_getElem (List.mem_range.1 hj))
  rw [h1, List.getElem?_eq_getElem (List.mem_range.1 hj)]
  simp [h2, h3]

theorem Node.Mild.inboundClients {s s' : Node.State ε} (h : Mild s s') : inboundClients s' = inboundClients s :=
  inboundClients_of h.len fun j x hx => by obtain ⟨x', h1, h2, h3, -⟩ := h.old j x hx; exact ⟨x', h1, h2, h3⟩

theorem inboundClients_append {s s' : Node.State ε} {a : Text} {d : Cl.Side} (h : s'.conns = s.conns ++ [⟨a, Cl.State.new d, false⟩]) :
    inboundClients s' = inboundClients s ++ if d = .inbound then [(a, s.conns.length)] else [] := by
  unfold inboundClients
  rw [h, List.length_append, List.length_singleton, List.range_succ, List.filterMap_append]
  congr 1
  · apply List.filterMap_congr
    intro j hj
    rw [List.getElem?_append_left (List.mem_range.1 hj)]
  · simp only [List.filterMap_cons, List.filterMap_nil, List.getElem?_concat_length, Option.bind_some, Cl.State.new]
    split <;> simp_all

/-- Every connection that the node serves has a client of its own. -/
theorem served_step {cfg : Cfg ε} {s s' : Node.State ε} {a : Node.Action ε} (hi : served s.log = inboundClients s) (h : Node.step cfg s a = some s') : served s'.log = inboundClients s' := by
  by_cases ha : a.other = true
  · have hk := step_keeps ha h
    rw [hk.served, hi]
    symm
    rcases step_eff h with h | rfl
    swap
    · rfl
    cases h with
    | quiet _ h _ => exact h.inboundClients
    | found _ _ _ _ _ h => exact (Mild.of_eq h).inboundClients
    | added d b _ _ _ _ h _ _ _ _ hacc =>
      rw [inboundClients_append h]
      cases d with
      | inbound => exact absurd hk.accept (hacc rfl)
      | outbound => simp
    | evict _ _ _ _ _ _ h => exact h.inboundClients
    | evicted t v b he0 _ _ h he =>
      rw [inboundClients_append h]
      cases t with
      | accept => simp only [ev, hk.accept] at he he0; rw [he] at he0; cases he0
      | call k => simp [Tid.side]
    | removed _ _ _ _ _ _ hlen h => exact inboundClients_of hlen fun j x hx => by obtain ⟨x', h1, h2, h3, -⟩ := h j x hx; exact ⟨x', h1, h2, h3⟩
    | released _ _ _ _ _ _ h => exact h.inboundClients
  unfold Node.step at h
  split at h
  · cases h
  · cases a with
    | listen => simp only at h; split at h; cases h; exact hi; cases h
    | acceptConn a => simp only at h; split at h; cases h; exact hi; cases h
    | acceptFail => simp only at h; split at h; cases h; exact hi; cases h
    | acceptStep =>
      simp only at h
      have same : ∀ {s1 : Node.State ε} {j : Nat} {act : Cl.Action ε}, s.stepConn j act = some s1 → act ≠ .main → served s1.log = inboundClients s1 := by
        intro s1 j act h1 h2
        rw [(stepConn_same h1).log, (stepConn_mild h1 (.inl h2)).inboundClients]; exact hi
      unfold State.acceptStep at h
      split at h
      · cases h; exact hi
      · next a ha =>
        unfold State.get at h
        simp only at h
        split at h
        · cases h
        · split at h
          · cases h
            show served (s.log ++ [.ignored a]) = inboundClients s
            rw [served_append, ← hi]
            simp [served]
          · split at h
            · split at h
              · next e _ =>
                cases h
                have h1 := drop_same (s.setPool .inbound ⟨some .accept, (s.pool .inbound).entries.dropLast⟩) e.2
                have h2 := (drop_mild (s.setPool .inbound ⟨some .accept, (s.pool .inbound).entries.dropLast⟩) e.2).inboundClients
                show served ((s.setPool .inbound ⟨some .accept, (s.pool .inbound).entries.dropLast⟩).drop e.2).log = inboundClients ((s.setPool .inbound ⟨some .accept, (s.pool .inbound).entries.dropLast⟩).drop e.2)
                rw [h1.log, h2]
                exact hi
              · cases h; exact hi
            · cases h
              rw [inboundClients_append (s := s) (a := a) (d := .inbound) rfl]
              simp only [served_append]
              show served s.log ++ _ = _
              rw [hi]
              simp [served]
      · rcases closeClient_some h with rfl | h
        · exact hi
        · exact same h (by simp)
      · next v a ha =>
        split at h
        · cases h
          rw [inboundClients_append (s := s) (a := a) (d := .inbound) rfl]
          simp only [served_append]
          rw [hi]
          simp [served]
        · cases h
      · split at h
        · cases h; exact hi
        · cases h
      · cases h; exact hi
      · rcases closeClient_some h with rfl | h
        · exact hi
        · exact same h (by simp)
      · split at h
        · cases h; exact hi
        · cases h
      · split at h
        · next w hw =>
          cases hq : Wk.step w .closeQueue with
          | none => rw [hq] at h; cases h
          | some w' => rw [hq] at h; cases h; exact hi
        · cases h
      · split at h
        · split at h
          · cases h; exact hi
          · cases h
        · cases h
      · cases h; exact hi
      · cases h; exact hi
      · cases h
    | acceptRelease l =>
      simp only at h
      split at h
      · split at h
        · cases h
          have h1 := drops_same l s
          have h2 := (drops_mild l s).inboundClients
          show served (l.foldl State.drop s).log = inboundClients (l.foldl State.drop s)
          rw [h1.log, h2]
          exact hi
        · cases h
      · cases h
    | close => simp only at h; split at h <;> · cases h; exact hi
    | closeListener c => simp only at h; split at h; cases h; exact hi; cases h
    | closeRecv c =>
      simp only at h
      split at h
      · split at h
        · cases h; exact hi
        · split at h
          · cases h; exact hi
          · cases h
      · cases h
    | _ => exact absurd rfl ha

/-- **C115, what holds (1).** The connections that are answered otherwise than by ignoring them have a client each, in the order in which they were accepted, and no other inbound client exists. -/
theorem C115_served_have_clients_partial (cfg : Cfg ε) (s : Node.State ε) (h : Node.Reachable cfg s) : served s.log = inboundClients s :=
  h.inv (P := fun s => served s.log = inboundClients s) (fun _ _ _ hi h => served_step hi h) rfl

/-- **C115, what holds (2).** A connection is ignored only if a connection that was accepted from the same address has not ended. -/
theorem C115_ignored_only_if_known_partial (cfg : Cfg ε) (s s' : Node.State ε) (hr : Node.Reachable cfg s) (a : Text) (ha : s.accept = .get a) (h : Node.step cfg s .acceptStep = some s') (hlog : s'.log = s.log ++ [.ignored a]) :
    ∃ (j : Nat) (x : Conn ε), s.conns[j]? = some x ∧ x.addr = a ∧ x.c.side = .inbound ∧ x.c.main ≠ .done ∧ x.c.main ≠ .finished := by
  simp only [Node.step, State.acceptStep, ha, State.get] at h
  split at h
  · cases h
  · split at h
    · cases h
    · split at h
      · next e he =>
        obtain ⟨x, h1, h2, h3, h4⟩ := (Inv.reach hr).ent _ e (List.mem_of_find?_eq_some he)
        have hea : e.1 = a := by simpa using List.find?_some he
        exact ⟨e.2, x, h1, h2.trans hea, h3, fun h => h4 (.inl h), fun h => h4 (.inr h)⟩
      · split at h
        · split at h
          · next e _ =>
            cases h
            have := drop_same (s.setPool .inbound ⟨some .accept, (s.pool .inbound).entries.dropLast⟩) e.2
            have h1 := congrArg List.length (this.log.symm.trans hlog)
            simp [State.setPool] at h1
          · cases h
            have h1 := congrArg List.length hlog
            simp at h1
        · cases h
          have h1 := List.append_cancel_left (as := s.log) hlog
          cases h1

/-- **C115, refuted.** "A connection that the node accepts is served or closed." A connection from an address that the pool has a client for - in particular a peer's new connection from the port of its last one, while the node has not
noticed that the last one ended, or still handles its messages - is neither: no client comes to be for it, and the node forgets it. -/
theorem C115_ignored_refuted (cfg : Cfg ε) (s : Node.State ε) (hr : Node.Reachable cfg s) (hc : s.crashed = false) (ha : s.accept = .loop) (ho : s.listenerOpen = true) (a : Text) (hf : ∃ e ∈ (s.pool .inbound).entries, e.1 = a) :
    ∃ s', runs (Node.step cfg) s [.acceptConn a, .acceptStep] = some s' ∧ s'.accept = .loop ∧ s'.conns = s.conns ∧ s'.log = s.log ++ [.ignored a] := by
  have hl := inbound_unlocked hr (by simp [ev, ha, Accept.victim])
  cases hfind : (s.pool .inbound).entries.find? (fun e => e.1 = a) with
  | none => obtain ⟨e, h1, h2⟩ := hf; exact absurd h2 (find_mem_ne hfind e h1)
  | some e =>
    have h1 : Node.step cfg s (.acceptConn a) = some { s with accept := .get a } := by simp [Node.step, hc, ha, ho]
    have h2 : Node.step cfg { s with accept := .get a } .acceptStep = some { s.setPool .inbound { s.pool .inbound with entries := e :: (s.pool .inbound).entries.filter (fun q => q.1 ≠ a) } with accept := .loop, log := s.log ++ [.ignored a] } := by
      simp only [Node.step, hc, State.acceptStep, State.get, hl, hfind]
      simp [State.setPool, hc]
    exact ⟨_, runs_step h1 (runs_one h2), rfl, rfl, rfl⟩

/-- **C115, witness.** The second connection from any address, whatever the configuration. -/
theorem C115_witness (cfg : Cfg ε) (h0 : cfg.max ≠ 0) (a : Text) : ∃ s : Node.State ε, Node.Reachable cfg s ∧ s.conns.length = 1 ∧ s.log = [.accepted a 0, .ignored a] := by
  have : ∃ s : Node.State ε, runs (Node.step cfg) Node.State.new [.listen, .acceptStep, .acceptConn a, .acceptStep, .acceptConn a, .acceptStep] = some s ∧ s.conns.length = 1 ∧ s.log = [.accepted a 0, .ignored a] := by
    simp [runs, Node.step, Node.State.new, State.acceptStep, State.get, State.push, State.setPool, Ne.symm h0]
  obtain ⟨s, h1, h2⟩ := this
  exact ⟨s, ⟨_, h1⟩, h2⟩

end Noise
