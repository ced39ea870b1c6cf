import Verif.Model.NodeLife
import Verif.Proofs.TS
/-! # Properties C41, C42: the life of a node -/
namespace Noise
open Life

macro "life_cases " a:ident hs:ident : tactic => `(tactic| (
  cases $a:ident <;> simp only [step] at $hs:ident <;>
  (repeat' (split at $hs:ident)) <;> (try (cases $hs:ident; done)) <;> (try (injection $hs:ident with $hs:ident; subst $hs:ident))))

/-! ## C41 -/

/-- **C41 is false of the code**: `Listen` sets `listening` in the goroutine it starts; between its return and that store, `Bind` and `Handle` take effect. -/
theorem C41_window_refuted (w : Nat) : ∃ s s1 s2 : State, runs step (State.new w) [.listen] = some s ∧ step s .bind = some s1 ∧ s1.protocols = s.protocols + 1
    ∧ step s1 .handle = some s2 ∧ s2.handlers = s.handlers + 1 := ⟨_, _, _, rfl, rfl, rfl, rfl, rfl⟩

/-- Is the accept goroutine past its first statement and before its last but one? -/
def Life.Accept.running : Accept → Bool
  | .loop | .get | .report | .release | .closeWork | .waitWorkers | .store => true
  | _ => false

theorem Life.listening_inv {w : Nat} {s : State} (h : Reach w s) : s.closers = [] → (s.listening = s.accept.running) := by
  refine ReachFrom.inv (P := fun s => s.closers = [] → s.listening = s.accept.running) ?_ h (fun _ => rfl)
  intro s a s' ih hs
  life_cases a hs <;> simp_all [Accept.running]

/-- **C41, what holds** (missing: the window before the accept goroutine runs, and the time after a call of `Close`): once the accept goroutine has executed its first
statement, and until `Close` is called or the listener fails for good, `Bind` and `Handle` change nothing. -/
theorem C41_ignored_partial {w : Nat} {s : State} (h : Reach w s) (hc : s.closers = []) (hr : s.accept.running = true) : step s .bind = some s ∧ step s .handle = some s := by
  have := listening_inv h hc
  rw [hr] at this
  simp [step, this]

example : ∃ s, runs step (State.new 4) [.bind, .listen, .acceptStart, .acceptConn] = some s ∧ s.closers = [] ∧ s.accept.running = true := ⟨_, rfl, rfl, rfl⟩

/-! ## C42 -/

/-- Some call of `Close` has returned. -/
def Life.Returned (s : State) : Prop := ∃ c : Nat, s.closers[c]? = some Closer.gotError ∨ s.closers[c]? = some Closer.gotClosed

/-- **C42 is false of the code, 1**: on a node that never listens, no call of `Close` ever returns, however the run continues. -/
theorem C42_never_listened_refuted {w : Nat} {as : List Action} (has : ∀ a ∈ as, a ≠ .listen) {s : State} (h : runs step (State.new w) as = some s) : ¬ Returned s := by
  have := runs_inv' (step := step) (P := fun s => s.accept = .none ∧ s.doneBuf = 0 ∧ s.doneClosed = false ∧ ¬ Returned s) (Q := fun a => a ≠ .listen) (fun s a s' hp ha hs => by
    obtain ⟨h1, h2, h3, h4⟩ := hp
    unfold Returned at *
    life_cases a hs <;> grind) has h (by simp [State.new, Returned])
  exact this.2.2.2

/-- **C42 is false of the code, 2**: a `Close` that runs between the return of `Listen` and the first statement of the accept goroutine does not close the listener; it
never returns, unless `Close` is called once more or `Accept` happens to fail. -/
theorem C42_early_close_refuted (w : Nat) : ∃ s, runs step (State.new w) [.listen, .close, .acceptStart] = some s ∧
    ∀ as s', (∀ a ∈ as, a ≠ .close ∧ a ≠ .acceptError) → runs step s as = some s' → ¬ Returned s' ∧ s'.listenerOpen = true := by
  refine ⟨_, rfl, ?_⟩
  intro as s' has h
  have := runs_inv' (step := step) (P := fun s => (s.accept = .loop ∨ s.accept = .get) ∧ s.listenerOpen = true ∧ s.doneBuf = 0 ∧ s.doneClosed = false ∧ s.closers = [.waiting])
    (Q := fun a => a ≠ .close ∧ a ≠ .acceptError) (fun s a s' hp ha hs => by
    obtain ⟨h1, h2, h3, h4, h5⟩ := hp
    have key : ∀ c : Nat, s.closers[c]? ≠ some Closer.closing := by
      intro c; rw [h5]; cases c <;> simp
    life_cases a hs <;> grind) has h ⟨.inl rfl, rfl, rfl, rfl, rfl⟩
  obtain ⟨_, h2, _, _, h5⟩ := this
  refine ⟨?_, h2⟩
  rintro ⟨c, hc⟩
  rw [h5] at hc
  cases c <;> simp at hc

/-- **C42 is false of the code, 3**: `Close` returns as soon as the accept loop has ended, while inbound connections are open and all workers run; outbound connections
are never closed at all. -/
theorem C42_returns_early_refuted (w : Nat) : ∃ s, Reach w s ∧ Returned s ∧ s.inbound = 1 ∧ s.outbound = 1 ∧ s.workers = w ∧ s.accept = .release :=
  ⟨_, ⟨[.listen, .acceptStart, .acceptConn, .acceptGet true, .outboundConn, .close, .closeListener 0, .acceptClosed, .acceptStep, .closeRecv 0], rfl⟩, ⟨0, Or.inl rfl⟩, rfl, rfl, rfl, rfl⟩

/-- How far the accept goroutine is. -/
def Life.Accept.rank : Accept → Nat
  | .none => 11 | .start => 10 | .get => 9 | .loop => 7 | .report => 6 | .release => 5 | .closeWork => 4 | .waitWorkers => 3 | .store => 2 | .closeDone => 1 | .ended => 0

structure Life.Inv (s : State) : Prop where
  done : s.doneClosed = true → s.accept = .ended
  buf : s.doneBuf ≤ 1 ∧ (6 ≤ s.accept.rank → s.doneBuf = 0)
  got : (∃ c : Nat, s.closers[c]? = some .gotClosed) → s.accept = .ended
  inb : s.accept.rank ≤ 4 → s.inbound = 0
  wrk : s.accept.rank ≤ 2 → s.workers = 0
  pre : 10 ≤ s.accept.rank → s.inbound = 0 ∧ s.listening = false
  nol : s.accept = .none → s.listenerOpen = false ∧ s.workers = 0
  cls : (∃ c : Nat, s.closers[c]? = some .closing) → s.accept.rank ≤ 9 ∧ s.listening = false
  opn : (s.accept = .start ∨ (s.accept = .loop ∨ s.accept = .get) ∧ s.listening = true) → s.listenerOpen = true
  cld : s.accept = .ended → s.doneClosed = true

theorem Life.inv {w : Nat} {s : State} (h : Reach w s) : Inv s := by
  refine ReachFrom.inv (P := Inv) ?_ h (by constructor <;> simp [State.new, Accept.rank])
  intro s a s' i hs
  obtain ⟨h1, h2, h3, h4, h5, h6, h7, h8, h9, h10⟩ := i
  life_cases a hs <;> constructor <;> simp only [Accept.rank.eq_def] at * <;> grind

/-- **C42, what holds** (missing: that every `Close` returns, and that the first one to return has waited for the connections and the workers, and that outbound
connections are closed). A `Close` that returns because the accept goroutine has ended — any but the one that received the error of the accept loop — returns with all
inbound connections ended and all workers stopped, forever. -/
theorem C42_close_released_partial {w : Nat} {s : State} (h : Reach w s) {c : Nat} (hc : s.closers[c]? = some .gotClosed) :
    s.inbound = 0 ∧ s.workers = 0 ∧ ∀ s', ReachFrom step s s' → s'.inbound = 0 ∧ s'.workers = 0 := by
  have key : ∀ s', Reach w s' → s'.accept = .ended → s'.inbound = 0 ∧ s'.workers = 0 := by
    intro s' h' e
    have i := inv h'
    exact ⟨i.inb (by rw [e]; simp [Accept.rank]), i.wrk (by rw [e]; simp [Accept.rank])⟩
  have he := (inv h).got ⟨c, hc⟩
  refine ⟨(key s h he).1, (key s h he).2, ?_⟩
  intro s' hs'
  apply key s' (h.trans hs')
  refine ReachFrom.inv (P := fun s => s.accept = .ended) ?_ hs' he
  intro s a s' e hs
  life_cases a hs <;> grind

/-- The numbers of connections and workers after these steps. -/
def Life.Counts (w : Nat) (as : List Action) (s : State) : Prop :=
  s.outbound + as.count .outboundEnds = as.count .outboundConn ∧ s.inbound + as.count .inboundEnds = as.count (.acceptGet true) ∧ s.workers + as.count .workerEnds = w * as.count .listen ∧
  s.numWorkers = w ∧ (s.accept = .none → s.workers = 0)

theorem Life.Counts.step {w : Nat} {as : List Action} {s s' : State} {a : Action} (i : Counts w as s) (h : step s a = some s') : Counts w (as ++ [a]) s' := by
  obtain ⟨h1, h2, h3, h4, h5⟩ := i
  life_cases a h <;> simp_all [Counts, Nat.mul_add] <;> grind

/-- **C42, what holds: nothing but its own end ends a connection or a worker.** At every moment, the outbound connections that live are those that were made and have not ended by themselves, and so are the inbound ones and the workers: neither
`Close`, nor the end of the accept goroutine, nor the end of a connection of the other kind changes these numbers. So `Close` cannot return because of connections that it forgot. -/
theorem C42_connections_partial {w : Nat} {as : List Action} {s : State} (h : runs step (State.new w) as = some s) :
    s.outbound + as.count .outboundEnds = as.count .outboundConn ∧ s.inbound + as.count .inboundEnds = as.count (.acceptGet true) ∧ s.workers + as.count .workerEnds = w * as.count .listen := by
  have key : Counts w as s := by
    induction as using List.reverseRecOn generalizing s with
    | nil => cases h; exact ⟨rfl, rfl, rfl, rfl, fun _ => rfl⟩
    | append_singleton as a ih =>
      rw [runs_append] at h
      obtain ⟨s1, h1, h2⟩ := Option.bind_eq_some_iff.1 h
      obtain ⟨s2, h3, h4⟩ := runs_cons h2
      cases h4
      exact (ih h1).step h3
  exact ⟨key.1, key.2.1, key.2.2.1⟩

/-- A node with two workers, from start to end, and an outbound connection that outlives it. -/
example : ∃ s, runs step (State.new 2) [.listen, .acceptStart, .acceptConn, .acceptGet true, .outboundConn, .outboundConn, .outboundEnds, .close, .closeListener 0, .acceptClosed, .acceptStep, .closeRecv 0, .inboundEnds, .acceptStep, .acceptStep,
    .workerEnds, .workerEnds, .acceptStep, .acceptStep, .acceptStep] = some s ∧ s.accept = .ended ∧ s.outbound = 1 ∧ s.inbound = 0 ∧ s.workers = 0 := ⟨_, rfl, rfl, rfl, rfl, rfl⟩

/-- The steps that the node itself takes while it shuts down: everything but calls of the API, new outbound connections, and failures of `Accept` on an open listener. -/
def Life.Action.internal : Action → Bool
  | .acceptStart | .acceptConn | .acceptGet _ | .acceptClosed | .acceptStep | .inboundEnds | .workerEnds | .closeListener _ | .closeRecv _ => true
  | _ => false

/-- Calls of `Close` that have not returned, those before the closing of the listener counted twice. -/
def Life.pending (l : List Closer) : Nat := (l.map fun | .closing => 2 | .waiting => 1 | _ => 0).sum

def Life.shutdownBound (s : State) : Nat := s.accept.rank + s.inbound + s.workers + pending s.closers

theorem Life.pending_set : ∀ (l : List Closer) (c : Nat) (x y : Closer), l[c]? = some x → pending (l.set c y) + pending [x] = pending l + pending [y] := by
  intro l
  induction l with
  | nil => intro c x y h; simp at h
  | cons a l ih =>
    intro c x y h
    cases c with
    | zero => simp at h; subst h; simp [pending]; omega
    | succ c =>
      simp at h
      have := ih c x y h
      simp [pending] at this ⊢; omega

/-- **C42, what holds.** From every reachable state in which the listener has been closed by a `Close`, every run of the node's own steps is finite, with an explicit
bound; and when no such step is possible any more, every call of `Close` has returned, and inbound connections and workers have ended. (The ends of the connections and
of the workers are assumed to be possible: C32, C33 and C43 are about that.) -/
theorem C42_close_terminates_partial {w : Nat} {s : State} (h : Reach w s) (hl : s.listenerOpen = false) (ha : s.accept ≠ .none) :
    (∀ as s', (∀ a ∈ as, a.internal = true) → runs step s as = some s' → as.length ≤ shutdownBound s) ∧
    ((∀ a, a.internal = true → step s a = none) → (∀ (c : Nat) x, s.closers[c]? = some x → x = .gotError ∨ x = .gotClosed) ∧ s.accept = .ended ∧ s.inbound = 0 ∧ s.workers = 0) := by
  constructor
  · intro as
    induction as generalizing s with
    | nil => intro _ _ _; simp
    | cons a as ih =>
      intro s' has hr
      obtain ⟨s1, h1, h2⟩ := runs_cons hr
      have i := inv h
      have hi := has a List.mem_cons_self
      have key : s1.listenerOpen = false ∧ s1.accept ≠ .none ∧ shutdownBound s1 + 1 ≤ shutdownBound s := by
        clear ih hr h2
        have i9 := i.opn
        life_cases a h1 <;> simp only [Action.internal, Bool.false_eq_true] at hi <;> simp only [shutdownBound, Accept.rank] at *
        all_goals (first | grind [Accept.rank] | skip)
        · rename_i hc
          have := pending_set s.closers _ _ .waiting hc
          simp [pending] at this ⊢
          exact ⟨ha, by omega⟩
        · rename_i hc _
          have := pending_set s.closers _ _ .gotError hc
          simp [pending] at this ⊢
          exact ⟨hl, ha, by omega⟩
        · rename_i hc _ _
          have := pending_set s.closers _ _ .gotClosed hc
          simp [pending] at this ⊢
          exact ⟨hl, ha, by omega⟩
      obtain ⟨k1, k2, k3⟩ := key
      have := ih (h.snoc h1) k1 k2 s' (fun b hb => has b (List.mem_cons_of_mem _ hb)) h2
      simp only [List.length_cons]; omega
  · intro hq
    have i := inv h
    have hend : s.accept = .ended := by
      have q1 := hq .acceptStart rfl
      have q2 := hq .acceptClosed rfl
      have q3 := hq .acceptStep rfl
      have q6 := hq (.acceptGet true) rfl
      have q4 := hq .inboundEnds rfl
      have q5 := hq .workerEnds rfl
      have i2 := i.buf
      simp only [step] at q1 q2 q3 q4 q5 q6
      cases hacc : s.accept <;> rw [hacc] at q1 q2 q3 q6 i2 <;> simp_all [Accept.rank]
    refine ⟨?_, hend, i.inb (by rw [hend]; simp [Accept.rank]), i.wrk (by rw [hend]; simp [Accept.rank])⟩
    intro c x hx
    have q1 := hq (.closeListener c) rfl
    have q2 := hq (.closeRecv c) rfl
    have hd := i.cld hend
    simp only [step, hx] at q1 q2
    cases x with
    | closing => simp at q1
    | waiting =>
      simp only at q2
      split at q2
      · cases q2
      · simp [hd] at q2
    | gotError => exact Or.inl rfl
    | gotClosed => exact Or.inr rfl

/-- Two calls of `Close`: the second one returns when everything inbound has ended. -/
example : ∃ s, Reach 1 s ∧ s.closers = [.gotError, .gotClosed] ∧ s.outbound = 1 :=
  ⟨_, ⟨[.listen, .acceptStart, .acceptConn, .acceptGet true, .outboundConn, .close, .close, .closeListener 0, .acceptClosed, .acceptStep, .closeRecv 0, .inboundEnds, .acceptStep,
    .acceptStep, .workerEnds, .acceptStep, .acceptStep, .acceptStep, .closeRecv 1], rfl⟩, rfl, rfl⟩
example : ∃ s, Reach 1 s ∧ s.listenerOpen = false ∧ s.accept ≠ .none :=
  ⟨_, ⟨[.listen, .acceptStart, .close, .closeListener 0], rfl⟩, rfl, by simp⟩

end Noise
