import Verif.Proofs.PoolLock
/-! # Property C37: progress of the pool when it is full -/
namespace Noise
open PoolLock

/-- A goroutine `t` has called `get(a)`, the mutex is free, `a` is not pooled and the pool is at its limit. -/
def PoolLock.FullFor (t a : Nat) (s : State) : Prop :=
  s.callers t = .want a ∧ s.lock = none ∧ s.pool.length = s.max ∧ ∀ p ∈ s.pool, p.1 ≠ a

/-- **C37 is false of the code.** In every reachable state in which a call of `get` meets a full pool and an address that is not pooled, running the call evicts the
last client and then waits for it with the pool's mutex held; from there, in *every* continuation, nothing on this pool ever returns again: no `get`, no listing, no
removal, no release — the log stays as it was, the caller never leaves the eviction and the mutex is never released. -/
theorem C37_eviction_deadlocks_refuted {max : Nat} (hmax : 0 < max) {s : State} (hr : Reach max s) {t a : Nat} (hf : FullFor t a s) :
    ∃ s1, step s (.get t) = some s1 ∧
      ∀ s2, ReachFrom step s1 s2 → s2.log = s.log ∧ s2.lock = some t ∧ (∃ v, s2.callers t = .evicting v a)
        ∧ (∀ u, step s2 (.get u) = none) ∧ step s2 .slice = none ∧ step s2 .release = none ∧ (∀ c, step s2 (.clientRemoves c) = none) := by
  obtain ⟨hw, hl, hlen, hn⟩ := hf
  have hm := max_reach hr
  have hfind : s.pool.find? (fun p => decide (p.1 = a)) = none := by
    rw [List.find?_eq_none]; intro x hx; simpa using hn x hx
  obtain ⟨v, hv⟩ : ∃ v, s.pool.getLast? = some v := by
    cases h : s.pool.getLast? with
    | some v => exact ⟨v, rfl⟩
    | none => rw [List.getLast?_eq_none_iff] at h; rw [h, hm] at hlen; simp at hlen; omega
  have e1 : step s (.get t) = some { s.setCaller t (.evicting v.2 a) with pool := s.pool.dropLast, lock := some t } := by
    simp only [step, hw, hl, hfind, hlen, if_true, hv]
  refine ⟨_, e1, ?_⟩
  intro s2 h2
  have i1 := (Inv.reach hr).step e1
  have hst : Stuck t s.log { s.setCaller t (.evicting v.2 a) with pool := s.pool.dropLast, lock := some t } := ⟨i1, rfl, rfl⟩
  have hst2 := ReachFrom.inv (P := fun x => Stuck t s.log x ∧ ∃ v, x.callers t = .evicting v a) (fun x b y hx hb => ⟨hx.1.step hb, by
    obtain ⟨⟨i, hlk, _⟩, v, hv⟩ := hx
    obtain ⟨v', a', b', hv', hc⟩ := i.locked t hlk
    rw [hv] at hv'
    simp only [Caller.evicting.injEq] at hv'
    obtain ⟨rfl, rfl⟩ := hv'
    refine ⟨v, ?_⟩
    clear i1 hst h2 e1
    pl_cases b hb <;> grind⟩) h2 ⟨hst, ⟨v.2, by simp [State.setCaller]⟩⟩
  obtain ⟨⟨_, hlk, hlog⟩, hev⟩ := hst2
  refine ⟨hlog, hlk, hev, ?_, ?_, ?_, ?_⟩
  · intro u
    cases hu : s2.callers u <;> simp [step, hlk, hu]
  · simp [step, hlk]
  · simp [step, hlk]
  · intro c
    simp only [step, hlk]
    split <;> simp_all

/-- Such a state is reachable for every limit, by dialling that many addresses and then one more: the deadlock is not a matter of a rare schedule. -/
theorem C37_full_pool_reachable (max : Nat) : ∃ s, Reach max s ∧ FullFor 0 max s := by
  have key : ∀ n, n ≤ max → ∃ s, Reach max s ∧ s.lock = none ∧ s.pool.length = n ∧ (∀ p ∈ s.pool, p.1 < n) ∧ s.callers 0 = .idle := by
    intro n
    induction n with
    | zero => intro _; exact ⟨State.new max, ReachFrom.refl _, rfl, rfl, by simp [State.new], rfl⟩
    | succ n ih =>
      intro hle
      obtain ⟨s, hr, hl, hn, hp, hc⟩ := ih (by omega)
      have hm := max_reach hr
      have e1 : step s (.call 0 n) = some (s.setCaller 0 (.want n)) := by simp only [step, hc]
      have hfind : s.pool.find? (fun p => decide (p.1 = n)) = none := by
        rw [List.find?_eq_none]; intro x hx; have := hp x hx; simp; omega
      have e2 : step (s.setCaller 0 (.want n)) (.get 0) = some (((s.setCaller 0 (.want n)).setCaller 0 .idle).push 0 n) := by
        have h1 : (s.setCaller 0 (.want n)).callers 0 = .want n := by simp [State.setCaller]
        have h2 : (s.setCaller 0 (.want n)).lock = none := hl
        have h3 : (s.setCaller 0 (.want n)).pool = s.pool := rfl
        have h4 : ¬ s.pool.length = (s.setCaller 0 (.want n)).max := by
          have : (s.setCaller 0 (.want n)).max = s.max := rfl
          omega
        simp only [step, h1, h2, h3, hfind, if_neg h4]
      refine ⟨_, (hr.snoc e1).snoc e2, hl, ?_, ?_, ?_⟩
      · simp [State.push, State.setCaller, hn]
      · intro p h
        simp only [State.push, State.setCaller, List.mem_cons] at h
        rcases h with rfl | h
        · simp
        · have := hp p h; omega
      · simp [State.push, State.setCaller]
  obtain ⟨s, hr, hl, hn, hp, hc⟩ := key max (Nat.le_refl _)
  have e1 : step s (.call 0 max) = some (s.setCaller 0 (.want max)) := by simp only [step, hc]
  refine ⟨_, hr.snoc e1, by simp [State.setCaller], hl, ?_, ?_⟩
  · simp [State.setCaller, hn, max_reach hr]
  · intro p h
    have := hp p h
    omega

/-- **C37, what holds** (missing: completion when an eviction is needed). While the mutex is free, a call of `get` whose address is pooled, or that meets a pool that is
not full, runs to completion in one step and returns a client for that address, the pooled one if there is one. -/
theorem C37_get_completes_partial {s : State} {t a : Nat} (hw : s.callers t = .want a) (hl : s.lock = none)
    (h : (∃ c, (a, c) ∈ s.pool) ∨ s.pool.length ≠ s.max) :
    ∃ s' c, step s (.get t) = some s' ∧ s'.log = s.log ++ [.got t a c] ∧ s'.callers t = .idle ∧ s'.lock = none ∧ s'.pool.head? = some (a, c)
      ∧ ((a, c) ∈ s.pool ∨ c = s.clients.length ∧ ∀ p ∈ s.pool, p.1 ≠ a) := by
  cases hp : s.pool.find? (fun p => decide (p.1 = a)) with
  | some p =>
    have e := List.find?_some hp
    simp only [decide_eq_true_eq] at e
    have m := List.mem_of_find?_eq_some hp
    obtain ⟨b, c⟩ := p
    simp only at e; subst e
    have e1 : step s (.get t) = some { s.setCaller t .idle with pool := (b, c) :: s.pool.filter (fun q => q.1 ≠ b), log := s.log ++ [.got t b c] } := by
      simp only [step, hw, hl, hp]
    exact ⟨_, c, e1, rfl, by simp [State.setCaller], hl, rfl, Or.inl m⟩
  | none =>
    have hn : ∀ p ∈ s.pool, p.1 ≠ a := by
      intro x hx; simpa using List.find?_eq_none.1 hp x hx
    rcases h with ⟨c, hc⟩ | hne
    · exact absurd rfl (hn _ hc)
    · have e1 : step s (.get t) = some ((s.setCaller t .idle).push t a) := by simp only [step, hw, hl, hp, if_neg hne]
      exact ⟨_, _, e1, rfl, by simp [State.setCaller, State.push], hl, rfl, Or.inr ⟨rfl, hn⟩⟩

/-- **C37, what holds.** If the addresses ever asked for are among at most `max` addresses, the mutex is free in every reachable state (between steps), so that the
previous theorem applies to every call in every schedule. -/
theorem C37_few_addresses_partial {max : Nat} {S : List Nat} (hS : S.length ≤ max) {as : List Action} (has : ∀ a ∈ as, a.within S) {s : State}
    (h : runs step (State.new max) as = some s) : s.lock = none := by
  have := runs_inv' (step := step) (P := fun s => Inv s ∧ s.max = max ∧ Within S s) (Q := fun a => a.within S) (fun s a s' hp ha hs => by
    obtain ⟨i, hm, hw⟩ := hp
    refine ⟨i.step hs, ?_, hw.step (by omega) i ha hs⟩
    clear hw
    pl_cases a hs <;> exact hm) has h ⟨Inv.new max, rfl, by simp [Within, State.new]⟩
  exact this.2.2.2.2

/-- **C71 would be false of the pool by itself** (of a node it holds: `C71_removes_own`): a removal takes an address, not a client. If the pool is released while a client is still ending, and the address is dialled
again, the end of the old client removes the entry of the new one, which is live. -/
theorem C71_pool_by_itself : ∃ (as : List Action) (s s' : State), runs step (State.new 8) as = some s ∧ (5, 1) ∈ s.pool ∧ s.clients[1]? = some (5, .live)
    ∧ step s (.clientRemoves 0) = some s' ∧ s'.pool = [] :=
  ⟨[.call 0 5, .get 0, .release, .call 0 5, .get 0, .clientEnds 0], _, _, rfl, by simp [State.new, State.push, State.setCaller], rfl, rfl, rfl⟩

/-- **C71 of the pool by itself**, for histories without releases (a node releases its inbound pool only when its listener has ended, and never its outbound pool). Without releases the end of a client removes its own entry and no other. -/
theorem C71_pool_removes_own {max : Nat} {as : List Action} (has : ∀ a ∈ as, a ≠ Action.release) {s s' : State} (h : runs step (State.new max) as = some s) {c : Nat}
    (hs : step s (.clientRemoves c) = some s') : ∀ a d, (a, d) ∈ s'.pool ↔ (a, d) ∈ s.pool ∧ d ≠ c := by
  obtain ⟨i, ho⟩ := runs_inv' (step := step) (P := fun s => Inv s ∧ Owned s) (Q := fun a => a ≠ .release)
    (fun s a s' hp ha hs => ⟨hp.1.step hs, hp.2.step hp.1 ha hs⟩) has h ⟨Inv.new max, by simp [Owned, State.new]⟩
  simp only [step] at hs
  split at hs
  · rename_i b hc hl
    simp only [Option.some.injEq] at hs
    subst hs
    intro a d
    simp only [List.mem_filter, decide_eq_true_eq]
    have hown : (b, c) ∈ s.pool := by
      rcases ho c b (Or.inr hc) with h | ⟨t, x, h⟩
      · exact h
      · have := i.evicting t c x h; simp [hl] at this
    constructor
    · rintro ⟨h1, h2⟩
      refine ⟨h1, ?_⟩
      rintro rfl
      have h3 := i.pooled a d h1
      rw [hc] at h3
      simp at h3
      exact h2 h3.symm
    · rintro ⟨h1, h2⟩
      refine ⟨h1, ?_⟩
      rintro rfl
      have := List.inj_on_of_nodup_map i.nodup h1 hown rfl
      simp only [Prod.mk.injEq, true_and] at this
      exact h2 this
  · exact absurd hs (by simp)

example : ∃ s s', runs step (State.new 2) [.call 0 7, .get 0, .call 1 8, .get 1, .clientEnds 0] = some s ∧ step s (.clientRemoves 0) = some s'
    ∧ s.pool = [(8, 1), (7, 0)] ∧ s'.pool = [(8, 1)] := ⟨_, _, rfl, rfl, rfl, rfl⟩

/-- Two addresses, limit two: both connect. -/
example : ∃ s, runs step (State.new 2) [.call 0 7, .get 0, .call 1 8, .get 1, .slice] = some s
    ∧ s.log = [.got 0 7 0, .got 1 8 1, .listed [1, 0]] := ⟨_, rfl, rfl⟩
/-- A third one hangs in the eviction of client 0. -/
example : ∃ s, runs step (State.new 2) [.call 0 7, .get 0, .call 1 8, .get 1, .call 0 9, .get 0, .clientEnds 0] = some s
    ∧ s.callers 0 = .evicting 0 9 ∧ s.lock = some 0 := ⟨_, rfl, rfl, rfl⟩

end Noise
