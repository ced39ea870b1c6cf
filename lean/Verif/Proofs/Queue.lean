import Verif.Spec.Queue
import Verif.Proofs.Client
import Verif.Proofs.TS
/-! # The work channel during the life of a node -/
namespace Noise.WorkQ
open Spec
variable {ε : Type}

/-- The cases of a step. -/
theorem step_cases {P : State ε → Prop} {s s' : State ε} {a : Action ε} (hs : step s a = some s')
    (listen : s.phase = .idle → P { s with phase := .serving })
    (accept : s.phase = .serving → P { s with conns := s.conns ++ [⟨Cl.State.new .inbound, false⟩] })
    (dial : P { s with conns := s.conns ++ [⟨Cl.State.new .outbound, false⟩] })
    (stop : s.phase = .serving → P { s with phase := .stopping })
    (closeWork : s.phase = .stopping → s.released = true → P { s with phase := .closed })
    (take : ∀ it l, s.queue = it :: l → P { s with queue := l, taken := s.taken ++ [it] })
    (crash : ∀ (i : Nat) x m, s.conns[i]? = some x → x.c.main = .delivering m → x.nilChan = false → s.phase = .closed → P { s with crashed := true })
    (put : ∀ (i : Nat) x m c, s.conns[i]? = some x → x.c.main = .delivering m → x.nilChan = false → s.phase ≠ .idle → s.phase ≠ .closed → s.queue.length < s.cap → Cl.step x.c .deliver = some c →
      P { s with queue := s.queue ++ [(i, m)], conns := s.conns.set i { x with c := c } })
    (other : ∀ (i : Nat) x act c, s.conns[i]? = some x → act ≠ .deliver → Cl.step x.c act = some c →
      P { s with conns := s.conns.set i ⟨c, if sending c ∧ sending x.c = false then decide (s.phase = .idle) else x.nilChan⟩ }) :
    s.crashed = false ∧ P s' := by
  unfold step at hs
  split at hs
  · cases hs
  rename_i hcr
  refine ⟨by simpa using hcr, ?_⟩
  split at hs
  · split at hs
    · injection hs with hs; subst hs; apply listen; assumption
    · cases hs
  · split at hs
    · injection hs with hs; subst hs; apply accept; assumption
    · cases hs
  · injection hs with hs; subst hs; exact dial
  · split at hs
    · injection hs with hs; subst hs; apply stop; assumption
    · cases hs
  · split at hs
    · rename_i h; injection hs with hs; subst hs; exact closeWork h.1 h.2
    · cases hs
  · split at hs
    · rename_i h; injection hs with hs; subst hs; exact take _ _ h
    · cases hs
  · rename_i i act
    split at hs
    · rename_i x hx
      split at hs
      · unfold State.put at hs
        split at hs
        · rename_i m hm
          split at hs
          · cases hs
          · rename_i hnil
            have hnil : x.nilChan = false := by simpa using hnil
            split at hs
            · cases hs
            · rename_i hp; injection hs with hs; subst hs; exact crash i x m hx hm hnil hp
            · rename_i hp1 hp2
              split at hs
              · rename_i hlen
                obtain ⟨c, hc, rfl⟩ := Option.map_eq_some_iff.1 hs
                exact put i x m c hx hm hnil hp1 hp2 hlen hc
              · cases hs
        · cases hs
      · rename_i hnd
        obtain ⟨c, hc, rfl⟩ := Option.map_eq_some_iff.1 hs
        exact other i x act c hx hnd hc
    · cases hs

theorem get_append_one {α : Type} {l : List α} {a b : α} {i : Nat} (h : (l ++ [a])[i]? = some b) : l[i]? = some b ∨ (i = l.length ∧ b = a) := by
  rcases Nat.lt_trichotomy i l.length with h1 | h1 | h1
  · rw [List.getElem?_append_left h1] at h; exact Or.inl h
  · subst h1; simp at h; exact Or.inr ⟨rfl, h.symm⟩
  · rw [List.getElem?_eq_none (by simp; omega)] at h; cases h

theorem get_set {α : Type} {l : List α} {a b : α} {i j : Nat} (h : (l.set i a)[j]? = some b) : (j = i ∧ b = a) ∨ (j ≠ i ∧ l[j]? = some b) := by
  by_cases e : i = j
  · subst e
    rw [List.getElem?_set] at h
    simp only [if_true] at h
    split at h
    · injection h with h; exact Or.inl ⟨rfl, h.symm⟩
    · cases h
  · rw [List.getElem?_set_ne e] at h; exact Or.inr ⟨fun h => e h.symm, h⟩

/-- Every connection goes through states of `Model/Client.lean`. -/
def Conns (s : State ε) : Prop := ∀ (i : Nat) x, s.conns[i]? = some x → ∃ side, Cl.Reachable side x.c

theorem reach_step {side : Cl.Side} {c c' : Cl.State ε} {a : Cl.Action ε} (h : Cl.Reachable side c) (hs : Cl.step c a = some c') : Cl.Reachable side c' := by
  obtain ⟨as, h⟩ := h
  refine ⟨as ++ [a], ?_⟩
  rw [Cl.run_append, h]
  simp [Cl.run, hs]

theorem Conns.step {s s' : State ε} {a : Action ε} (h : Conns s) (hs : step s a = some s') : Conns s' := by
  refine (step_cases (P := Conns) hs (fun _ => h) ?_ ?_ (fun _ => h) (fun _ _ => h) (fun _ _ _ => h) (fun _ _ _ _ _ _ _ => h) ?_ ?_).2
  · intro _ i x hx
    rcases get_append_one hx with hx | ⟨_, rfl⟩
    · exact h i x hx
    · exact ⟨.inbound, [], rfl⟩
  · intro i x hx
    rcases get_append_one hx with hx | ⟨_, rfl⟩
    · exact h i x hx
    · exact ⟨.outbound, [], rfl⟩
  · intro i x m c hx _ _ _ _ _ hc j y hy
    rcases get_set hy with ⟨_, rfl⟩ | ⟨_, hy⟩
    · obtain ⟨side, hr⟩ := h i x hx
      exact ⟨side, reach_step hr hc⟩
    · exact h j y hy
  · intro i x act c hx _ hc j y hy
    rcases get_set hy with ⟨_, rfl⟩ | ⟨_, hy⟩
    · obtain ⟨side, hr⟩ := h i x hx
      exact ⟨side, reach_step hr hc⟩
    · exact h j y hy

theorem Conns.reach {cap : Nat} {s : State ε} (h : Reachable cap s) : Conns s :=
  ReachFrom.inv (P := Conns) (fun _ _ _ => Conns.step) h (by intro i x hx; cases hx)

/-- An ended connection stays ended. -/
theorem ended_step {c c' : Cl.State ε} {a : Cl.Action ε} (hd : ended c = true) (hs : Cl.step c a = some c') : ended c' = true := by
  unfold ended at *
  cl_cases a hs
  all_goals grind [Cl.State.closeReady, Cl.State.closeReaderDone, Cl.State.closeWriterDone, Cl.State.closeClientDone, Cl.State.report, Cl.State.send, Cl.State.setCall]

/-- When the channel is closed, inbound connections have ended; and if a goroutine panicked, an outbound connection was sending. -/
structure Safe (s : State ε) : Prop where
  conns : Conns s
  closed : s.phase = .closed → ∀ (i : Nat) x, s.conns[i]? = some x → x.c.side = .inbound → ended x.c = true
  crash : s.crashed = true → s.phase = .closed ∧ ∃ (i : Nat) (x : Conn ε), s.conns[i]? = some x ∧ x.c.side = .outbound ∧ sending x.c = true

theorem Safe.step {s s' : State ε} {a : Action ε} (h : Safe s) (hs : step s a = some s') : Safe s' := by
  have hconns := h.conns.step hs
  have : (s'.phase = .closed → ∀ (i : Nat) x, s'.conns[i]? = some x → x.c.side = .inbound → ended x.c = true) ∧
      (s'.crashed = true → s'.phase = .closed ∧ ∃ (i : Nat) (x : Conn ε), s'.conns[i]? = some x ∧ x.c.side = .outbound ∧ sending x.c = true) := by
    have hcr : s.crashed = false := (step_cases (P := fun _ => True) hs (fun _ => trivial) (fun _ => trivial) trivial (fun _ => trivial) (fun _ _ => trivial) (fun _ _ _ => trivial)
      (fun _ _ _ _ _ _ _ => trivial) (fun _ _ _ _ _ _ _ _ _ _ _ => trivial) (fun _ _ _ _ _ _ _ => trivial)).1
    refine (step_cases (P := fun s' => (s'.phase = .closed → ∀ (i : Nat) x, s'.conns[i]? = some x → x.c.side = .inbound → ended x.c = true) ∧
      (s'.crashed = true → s'.phase = .closed ∧ ∃ (i : Nat) (x : Conn ε), s'.conns[i]? = some x ∧ x.c.side = .outbound ∧ sending x.c = true)) hs ?_ ?_ ?_ ?_ ?_ ?_ ?_ ?_ ?_).2
    · intro _; exact ⟨(by intro h; cases h), fun h => (by rw [hcr] at h; cases h)⟩
    · intro hp; exact ⟨fun h => (by rw [hp] at h; cases h), fun h => (by rw [hcr] at h; cases h)⟩
    · refine ⟨?_, fun h => (by rw [hcr] at h; cases h)⟩
      intro hp i x hx hin
      rcases get_append_one hx with hx | ⟨_, rfl⟩
      · exact h.closed hp i x hx hin
      · cases hin
    · intro _; exact ⟨(by intro h; cases h), fun h => (by rw [hcr] at h; cases h)⟩
    · intro _ hrel
      refine ⟨?_, fun h => (by rw [hcr] at h; cases h)⟩
      intro _ i x hx hin
      have := List.all_eq_true.1 hrel x (List.mem_of_getElem? hx)
      simpa [hin] using this
    · intro it l _; exact ⟨h.closed, fun h => (by rw [hcr] at h; cases h)⟩
    · intro i x m hx hm _ hp
      refine ⟨h.closed, fun _ => ⟨hp, i, x, hx, ?_, by unfold sending; rw [hm]⟩⟩
      cases hside : x.c.side with
      | outbound => rfl
      | inbound =>
        have hd := h.closed hp i x hx hside
        simp [ended, hm] at hd
    · intro i x m c hx _ _ _ hp _ _
      exact ⟨fun h => absurd h hp, fun h => (by rw [hcr] at h; cases h)⟩
    · intro i x act c hx _ hc
      refine ⟨?_, fun h => (by rw [hcr] at h; cases h)⟩
      intro hp j y hy hin
      rcases get_set hy with ⟨_, rfl⟩ | ⟨_, hy⟩
      · have hin' : x.c.side = .inbound := (Cl.side_step hc).symm.trans hin
        exact ended_step (h.closed hp i x hx hin') hc
      · exact h.closed hp j y hy hin
  exact ⟨hconns, this.1, this.2⟩

theorem Safe.reach {cap : Nat} {s : State ε} (h : Reachable cap s) : Safe s :=
  ReachFrom.inv (P := Safe) (fun _ _ _ => Safe.step) h ⟨(by intro i x hx; cases hx), (by intro h; cases h), (by intro h; cases h)⟩

/-- What a connection in a send does otherwise: the receive loop stays where it is, and nothing is processed. -/
theorem sending_step {c c' : Cl.State ε} {a : Cl.Action ε} {m : Message} (hm : c.main = .delivering m) (ha : a ≠ .deliver) (hs : Cl.step c a = some c') :
    c'.main = .delivering m ∧ processedOf c'.log = processedOf c.log ∧
    ∀ (k : Nat) (r : Cl.Call), c.calls[k]? = some r → r.chan = none → (∀ m', r.st ≠ .returned m') →
      ∃ r' : Cl.Call, c'.calls[k]? = some r' ∧ r'.chan = none ∧ ∀ m', r'.st ≠ .returned m' := by
  cl_cases a hs
  all_goals first
    | (simp_all; done)
    | exact absurd rfl ha
    | skip
  all_goals refine ⟨?_, ?_, ?_⟩
  all_goals first
    | (simp_all [Cl.State.closeReady, Cl.State.closeReaderDone, Cl.State.closeWriterDone, Cl.State.closeClientDone, Cl.State.report, Cl.State.send, Cl.State.setCall]; done)
    | (simp_all [processedOf, Cl.State.closeReady, Cl.State.closeReaderDone, Cl.State.closeWriterDone, Cl.State.closeClientDone, Cl.State.report, Cl.State.send, Cl.State.setCall]; done)
    | (intro k r hk hc hst; exact ⟨r, hk, hc, hst⟩)
    | (intro k r hk hc hst; grind [Cl.State.send, Cl.State.setCall, Cl.State.closeWriterDone, Cl.State.report])


/-- A receive loop that has found the channel nil. -/
structure Nil (s : State ε) : Prop where
  send : ∀ (i : Nat) x, s.conns[i]? = some x → x.nilChan = true → sending x.c = true
  idle : s.phase = .idle → ∀ (i : Nat) x, s.conns[i]? = some x → sending x.c = true → x.nilChan = true

theorem sending_iff {c : Cl.State ε} : sending c = true ↔ ∃ m, c.main = .delivering m := by
  unfold sending
  split
  · rename_i m h; exact ⟨fun _ => ⟨m, h⟩, fun _ => rfl⟩
  · rename_i h; exact ⟨(fun h => by cases h), fun ⟨m, hm⟩ => absurd hm (h m)⟩

theorem Nil.step {s s' : State ε} {a : Action ε} (h : Nil s) (hs : step s a = some s') : Nil s' := by
  refine (step_cases (P := Nil) hs ?_ ?_ ?_ ?_ ?_ ?_ ?_ ?_ ?_).2
  · intro _; exact ⟨h.send, (by intro h; cases h)⟩
  · intro hp
    refine ⟨?_, (by intro h; rw [hp] at h; cases h)⟩
    intro i x hx hn
    rcases get_append_one hx with hx | ⟨_, rfl⟩
    · exact h.send i x hx hn
    · cases hn
  · constructor
    · intro i x hx hn
      rcases get_append_one hx with hx | ⟨_, rfl⟩
      · exact h.send i x hx hn
      · cases hn
    · intro hp i x hx hn
      rcases get_append_one hx with hx | ⟨_, rfl⟩
      · exact h.idle hp i x hx hn
      · cases hn
  · intro _; exact ⟨h.send, (by intro h; cases h)⟩
  · intro _ _; exact ⟨h.send, (by intro h; cases h)⟩
  · intro it l _; exact ⟨h.send, h.idle⟩
  · intro i x m hx hm _ hp; exact ⟨h.send, h.idle⟩
  · intro i x m c hx hm hn hp _ _ hc
    refine ⟨?_, fun h => absurd h hp⟩
    intro j y hy hny
    rcases get_set hy with ⟨_, rfl⟩ | ⟨_, hy⟩
    · rw [hn] at hny; cases hny
    · exact h.send j y hy hny
  · intro i x act c hx ha hc
    constructor
    · intro j y hy hny
      rcases get_set hy with ⟨_, rfl⟩ | ⟨_, hy⟩
      · simp only at hny ⊢
        split at hny
        · rename_i hh; exact hh.1
        · obtain ⟨m, hm⟩ := sending_iff.1 (h.send i x hx hny)
          exact sending_iff.2 ⟨m, (sending_step hm ha hc).1⟩
      · exact h.send j y hy hny
    · intro hp j y hy hsy
      have hp : s.phase = .idle := hp
      rcases get_set hy with ⟨_, rfl⟩ | ⟨_, hy⟩
      · simp only at hsy ⊢
        split
        · simp [hp]
        · rename_i hh
          apply h.idle hp i x hx
          cases hx' : sending x.c with
          | true => rfl
          | false => exact absurd ⟨hsy, hx'⟩ hh
      · exact h.idle hp j y hy hsy

theorem Nil.reach {cap : Nat} {s : State ε} (h : Reachable cap s) : Nil s :=
  ReachFrom.inv (P := Nil) (fun _ _ _ => Nil.step) h ⟨(by intro i x hx; cases hx), (by intro _ i x hx; cases hx)⟩

/-- Connection `i` is stuck: its receive loop sends on a nil channel. `p` is what it has processed, `ks` are the requests that wait. -/
def Stuck (i : Nat) (m : Message) (p : List Message) (ks : Nat → Prop) (s : State ε) : Prop :=
  ∃ x : Conn ε, s.conns[i]? = some x ∧ x.c.main = .delivering m ∧ x.nilChan = true ∧ processedOf x.c.log = p ∧
    ∀ k, ks k → ∃ r : Cl.Call, x.c.calls[k]? = some r ∧ r.chan = none ∧ ∀ m', r.st ≠ .returned m'

theorem Stuck.step {i : Nat} {m : Message} {p : List Message} {ks : Nat → Prop} {s s' : State ε} {a : Action ε} (h : Stuck i m p ks s) (hs : step s a = some s') : Stuck i m p ks s' := by
  have h0 := h
  obtain ⟨x, hx, hm, hn, hp, hk⟩ := h
  refine (step_cases (P := Stuck i m p ks) hs (fun _ => h0) ?_ ?_ (fun _ => h0) (fun _ _ => h0) (fun _ _ _ => h0) (fun _ _ _ _ _ _ _ => h0) ?_ ?_).2
  · intro _; exact ⟨x, by rw [List.getElem?_append_left (List.getElem?_eq_some_iff.1 hx).1]; exact hx, hm, hn, hp, hk⟩
  · exact ⟨x, by rw [List.getElem?_append_left (List.getElem?_eq_some_iff.1 hx).1]; exact hx, hm, hn, hp, hk⟩
  · intro j y m' c hy _ hny _ _ _ _
    have e : j ≠ i := by rintro rfl; rw [hx] at hy; injection hy with hy; subst hy; rw [hn] at hny; cases hny
    exact ⟨x, by rw [List.getElem?_set_ne e]; exact hx, hm, hn, hp, hk⟩
  · intro j y act c hy ha hc
    by_cases e : j = i
    · subst e
      rw [hx] at hy; injection hy with hy; subst hy
      obtain ⟨g1, g2, g3⟩ := sending_step hm ha hc
      refine ⟨_, List.getElem?_set_self (List.getElem?_eq_some_iff.1 hx).1, g1, ?_, g2.trans hp, ?_⟩
      · show (if _ then _ else _) = true
        rw [if_neg (by rw [show sending x.c = true from sending_iff.2 ⟨m, hm⟩]; simp)]; exact hn
      · intro k hkk
        obtain ⟨r, hr, hch, hst⟩ := hk k hkk
        exact g3 k r hr hch hst
    · exact ⟨x, by rw [List.getElem?_set_ne e]; exact hx, hm, hn, hp, hk⟩

/-- Once `Listen` has made the channel, no more receive loops get stuck. -/
def NoNew (s0 s : State ε) : Prop :=
  s.phase ≠ .idle ∧ ∀ (i : Nat) x, s.conns[i]? = some x → x.nilChan = true → ∃ y, s0.conns[i]? = some y ∧ y.nilChan = true

theorem NoNew.step {s0 s s' : State ε} {a : Action ε} (h : NoNew s0 s) (hs : step s a = some s') : NoNew s0 s' := by
  refine (step_cases (P := NoNew s0) hs (fun hp => absurd hp h.1) ?_ ?_ (fun _ => ⟨by simp, h.2⟩) (fun _ _ => ⟨by simp, h.2⟩) (fun _ _ _ => h) (fun _ _ _ _ _ _ _ => h) ?_ ?_).2
  · intro _
    refine ⟨h.1, ?_⟩
    intro i x hx hn
    rcases get_append_one hx with hx | ⟨_, rfl⟩
    · exact h.2 i x hx hn
    · cases hn
  · refine ⟨h.1, ?_⟩
    intro i x hx hn
    rcases get_append_one hx with hx | ⟨_, rfl⟩
    · exact h.2 i x hx hn
    · cases hn
  · intro i x m c hx hm hn hp _ _ hc
    refine ⟨h.1, ?_⟩
    intro j y hy hny
    rcases get_set hy with ⟨_, rfl⟩ | ⟨_, hy⟩
    · rw [hn] at hny; cases hny
    · exact h.2 j y hy hny
  · intro i x act c hx ha hc
    refine ⟨h.1, ?_⟩
    intro j y hy hny
    rcases get_set hy with ⟨rfl, rfl⟩ | ⟨_, hy⟩
    · simp only at hny
      split at hny
      · simp [h.1] at hny
      · exact h.2 _ x hx hny
    · exact h.2 j y hy hny

/-- Only `deliver` changes what has been delivered. -/
theorem delivered_other {c c' : Cl.State ε} {a : Cl.Action ε} (ha : a ≠ .deliver) (hs : Cl.step c a = some c') : deliveredOf c'.log = deliveredOf c.log := by
  cl_cases a hs
  all_goals first
    | exact absurd rfl ha
    | simp [deliveredOf, Cl.State.closeReady, Cl.State.closeReaderDone, Cl.State.closeWriterDone, Cl.State.closeClientDone, Cl.State.report, Cl.State.send, Cl.State.setCall]

/-- Nothing is lost, duplicated or reordered in the channel. -/
def Kept (s : State ε) : Prop :=
  (∀ (i : Nat) x, s.conns[i]? = some x → ofConn i (s.taken ++ s.queue) = deliveredOf x.c.log) ∧ ∀ p ∈ s.taken ++ s.queue, p.1 < s.conns.length

theorem ofConn_none {i : Nat} {l : List (Nat × Message)} (h : ∀ p ∈ l, p.1 < i) : ofConn i l = [] := by
  unfold ofConn
  rw [List.filterMap_eq_nil_iff]
  intro p hp
  rw [if_neg (by have := h p hp; omega)]

theorem Kept.step {s s' : State ε} {a : Action ε} (h : Kept s) (hs : step s a = some s') : Kept s' := by
  have new : ∀ side, Kept { s with conns := s.conns ++ [⟨Cl.State.new side, false⟩] } := by
    intro side
    refine ⟨?_, ?_⟩
    · intro i x hx
      rcases get_append_one hx with hx | ⟨rfl, rfl⟩
      · exact h.1 i x hx
      · exact ofConn_none h.2
    · intro p hp
      have := h.2 p hp
      simp only [List.length_append, List.length_singleton]; omega
  refine (step_cases (P := Kept) hs (fun _ => h) (fun _ => new _) (new _) (fun _ => h) (fun _ _ => h) ?_ (fun _ _ _ _ _ _ _ => h) ?_ ?_).2
  · intro it l hl
    have e : s.taken ++ [it] ++ l = s.taken ++ s.queue := by rw [hl]; simp
    unfold Kept
    simp only [e]
    exact h
  · intro i x m c hx hm hn hp _ _ hc
    have hlt := (List.getElem?_eq_some_iff.1 hx).1
    have hc' : deliveredOf c.log = deliveredOf x.c.log ++ [m] := by
      simp only [Cl.step, hm] at hc
      injection hc with hc; subst hc
      simp [deliveredOf]
    refine ⟨?_, ?_⟩
    · intro j y hy
      simp only [← List.append_assoc]
      unfold ofConn
      rw [List.filterMap_append]
      rcases get_set hy with ⟨rfl, rfl⟩ | ⟨hne, hy⟩
      · have := h.1 _ x hx
        unfold ofConn at this
        rw [this, hc']; simp
      · have := h.1 j y hy
        unfold ofConn at this
        rw [this]
        simp [Ne.symm hne]
    · intro p hp
      simp only [List.length_set]
      rw [← List.append_assoc, List.mem_append] at hp
      rcases hp with hp | hp
      · exact h.2 p hp
      · simp only [List.mem_singleton] at hp; subst hp; exact hlt
  · intro i x act c hx ha hc
    refine ⟨?_, by simpa using h.2⟩
    intro j y hy
    rcases get_set hy with ⟨rfl, rfl⟩ | ⟨_, hy⟩
    · rw [delivered_other ha hc]; exact h.1 _ x hx
    · exact h.1 j y hy

theorem Kept.reach {cap : Nat} {s : State ε} (h : Reachable cap s) : Kept s :=
  ReachFrom.inv (P := Kept) (fun _ _ _ => Kept.step) h ⟨(by intro i x hx; cases hx), (by intro p hp; cases hp)⟩

theorem step_other {s : State ε} {i : Nat} {x : Conn ε} {act : Cl.Action ε} {c : Cl.State ε} (hc : s.crashed = false) (hx : s.conns[i]? = some x) (ha : act ≠ .deliver) (hs : Cl.step x.c act = some c) :
    step s (.conn i act) = some { s with conns := s.conns.set i ⟨c, if sending c ∧ sending x.c = false then decide (s.phase = .idle) else x.nilChan⟩ } := by
  unfold step
  simp only [hc, hx]
  rw [if_neg (by simp)]
  cases act <;> first | exact absurd rfl ha | (simp only [State.other, hs, Option.map_some, hc])

theorem step_crash {s : State ε} {i : Nat} {x : Conn ε} {m : Message} (hc : s.crashed = false) (hx : s.conns[i]? = some x) (hm : x.c.main = .delivering m) (hn : x.nilChan = false) (hp : s.phase = .closed) :
    step s (.conn i .deliver) = some { s with crashed := true } := by
  unfold step
  simp only [hc, hx, State.put, hm, hn, hp]
  rfl

theorem step_put {s : State ε} {i : Nat} {x : Conn ε} {m : Message} (hc : s.crashed = false) (hx : s.conns[i]? = some x) (hm : x.c.main = .delivering m) (hn : x.nilChan = false) (hp : s.phase ≠ .closed)
    (hp' : s.phase ≠ .idle) (hr : s.queue.length < s.cap) :
    ∃ s', step s (.conn i .deliver) = some s' ∧ s'.queue = s.queue ++ [(i, m)] ∧ s'.crashed = false := by
  have hstep : Cl.step x.c .deliver = some { x.c with main := .recvCb, log := x.c.log ++ [.delivered m x.c.id x.c.suite] } := by simp only [Cl.step, hm]
  have e : s.put i x = some { s with queue := s.queue ++ [(i, m)], conns := s.conns.set i { x with c := { x.c with main := .recvCb, log := x.c.log ++ [.delivered m x.c.id x.c.suite] } } } := by
    unfold State.put
    rw [hm]
    simp only [hn, hstep]
    rw [if_neg (by simp)]
    cases hph : s.phase with
    | idle => exact absurd hph hp'
    | closed => exact absurd hph hp
    | _ => simp [hr]
  have e2 : step s (.conn i .deliver) = s.put i x := by
    unfold step
    rw [if_neg (by rw [hc]; simp)]
    simp only [hx]
  exact ⟨_, e2.trans e, rfl, hc⟩

end Noise.WorkQ
