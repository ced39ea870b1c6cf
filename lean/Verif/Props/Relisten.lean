import Verif.Model.Relisten
import Verif.Proofs.TS
import Mathlib.Data.List.Duplicate
import Mathlib.Data.List.NodupEquivFin
/-! # Property C120: `Listen` of a node that listens -/
namespace Noise
open Relisten

/-- The second `Listen` comes after the first has returned, but before the accept goroutine has run: it returns an error, and the process crashes. -/
theorem C120_second_listen_crashes_refuted : ∃ as s, runs Relisten.step State.new (.listen :: .bindOK :: .restOK :: as) = some s ∧ s.results = [true, false] ∧ s.closers = [] ∧ s.crashed = true :=
  ⟨[.listen, .bindFail, .step 0, .step 0], _, rfl, rfl, rfl, rfl⟩

/-- The listener of a node is lost: an accept goroutine is waiting for connections of a listener to which the node has no reference. -/
def Lost (i l : Nat) (s : Relisten.State) : Prop :=
  s.listener = none ∧ s.listening = false ∧ s.accepts = [.blocked l] ∧ i = 0 ∧ s.doneBuf = 0 ∧ s.doneClosed = false ∧ s.crashed = false ∧ s.listeners[l]? = some true ∧ (∀ c ∈ s.closers, c = .waiting) ∧ s.call ≠ some .rest

theorem Lost.step {i l : Nat} {s s' : Relisten.State} {a : Relisten.Action} (hl : Lost i l s) (hq : a ≠ .fail i ∧ a ≠ .conn i) (h : Relisten.step s a = some s') : Lost i l s' := by
  obtain ⟨h1, h2, h3, rfl, h5, h6, h7, h8, h9, h10⟩ := hl
  have hm : true ∈ s.listeners := List.mem_of_getElem? h8
  unfold Lost
  cases a with
  | step j => cases j <;> simp [Relisten.step, h7, h3, State.acceptStep] at h
  | conn j => cases j <;> simp [Relisten.step, h7, h3] at h hq
  | fail j => cases j <;> simp [Relisten.step, h7, h3] at h hq
  | closeListener c =>
    simp only [Relisten.step, h7, Bool.false_eq_true, if_false] at h
    split at h
    · next hc => cases h9 _ (List.mem_of_getElem? hc)
    · cases h
  | closeRecv c => simp [Relisten.step, h7, h5, h6] at h; split at h <;> cases h
  | close =>
    simp [Relisten.step, h7, h2] at h
    subst h
    refine ⟨by simp_all, by simp_all, by simp_all, rfl, by simp_all, by simp_all, by simp_all, by simp_all, ?_, by simp_all⟩
    intro c hc
    exact (List.mem_append.1 hc).elim (h9 c) (by simp)
  | listen =>
    simp only [Relisten.step, h7, h2, Bool.false_eq_true, if_false] at h
    split at h
    · simp only [Option.some.injEq] at h; subst h; exact ⟨h1, by simp_all, h3, rfl, h5, h6, by simp_all, h8, h9, by simp⟩
    · simp at h
  | bindOK => simp [Relisten.step, h7, hm] at h
  | bindFail => simp [Relisten.step, h7] at h; obtain ⟨_, rfl⟩ := h; exact ⟨rfl, rfl, h3, rfl, h5, h6, by simp_all, h8, h9, by simp⟩
  | restFail o => simp only [Relisten.step, h7, h1] at h; split at h <;> simp_all
  | restOK => simp [Relisten.step, h7, h10] at h

theorem Lost.results {i l n : Nat} {s s' : Relisten.State} {a : Relisten.Action} {r : List Bool} (hl : Lost i l s) (hn : s.results = r ++ List.replicate n false) (h : Relisten.step s a = some s') :
    ∃ n, s'.results = r ++ List.replicate n false := by
  obtain ⟨h1, h2, h3, rfl, h5, h6, h7, h8, h9, h10⟩ := hl
  have hm : s.results ++ [false] = r ++ List.replicate (n + 1) false := by rw [hn, List.replicate_succ', List.append_assoc]
  cases a with
  | step j => cases j <;> simp [Relisten.step, h7, h3, State.acceptStep] at h
  | _ => grind [Relisten.step, State.setAccept]

/-- **C120 is false**: `Listen` returns an error for a node that is listening, but the node does not go on listening. If the second call begins before the accept goroutine has stored that the node is listening, then however
often `Close` and `Listen` are called afterwards, no `Close` returns and `Listen` never succeeds; and the next connection that arrives crashes the process. -/
theorem C120_lost_listener_refuted (i l : Nat) (s : Relisten.State) (hs : Lost i l s) (as : List Relisten.Action) (hf : ∀ a ∈ as, a ≠ .fail i ∧ a ≠ .conn i) (s' : Relisten.State) (h : runs Relisten.step s as = some s') :
    .returned ∉ s'.closers ∧ (∃ n, s'.results = s.results ++ List.replicate n false) ∧ s'.listeners[l]? = some true ∧
      ∃ s'' s''', Relisten.step s' (.conn i) = some s'' ∧ Relisten.step s'' (.step i) = some s''' ∧ s'''.crashed = true := by
  have key : Lost i l s' ∧ ∃ n, s'.results = s.results ++ List.replicate n false := by
    refine runs_inv' (P := fun s' => Lost i l s' ∧ ∃ n, s'.results = s.results ++ List.replicate n false) ?_ hf h ⟨hs, 0, by simp⟩
    intro s1 a s2 ⟨hl, n, hn⟩ hq hst
    exact ⟨hl.step hq hst, hl.results hn hst⟩
  have hl := key.1
  have hn := key.2
  obtain ⟨h1, h2, h3, rfl, h5, h6, h7, h8, h9, h10⟩ := hl
  refine ⟨fun hc => by (cases h9 _ hc), hn, h8, { s' with accepts := [.loop] }, { s' with accepts := [.loop], crashed := true }, ?_, ?_, rfl⟩
  · simp [Relisten.step, h7, h3, h8, State.setAccept]
  · simp [Relisten.step, h7, h1, State.acceptStep]

/-- It happens: the second call begins before the accept goroutine runs, and binds after it has. -/
theorem C120_lost_witness : ∃ s, Relisten.Reachable s ∧ Lost 0 0 s ∧ s.results = [true, false] ∧ s.closers = [.waiting] :=
  ⟨_, ⟨[.listen, .bindOK, .restOK, .listen, .step 0, .step 0, .bindFail, .close], rfl⟩, ⟨rfl, rfl, rfl, rfl, rfl, rfl, rfl, rfl, by decide, by decide⟩, rfl, rfl⟩

/-- It may also be `Close` that crashes: the second call of `Listen` has failed to bind between `Close`'s decision that the node listens and its use of the listener. -/
theorem C120_close_crashes_refuted : ∃ s s', Relisten.Reachable s ∧ s.results = [true, false] ∧ s.closers = [.closing] ∧ s.accepts = [.blocked 0] ∧ s.crashed = false ∧ Relisten.step s (.closeListener 0) = some s' ∧ s'.crashed = true :=
  ⟨_, _, ⟨[.listen, .bindOK, .restOK, .listen, .step 0, .step 0, .close, .bindFail], rfl⟩, rfl, rfl, rfl, rfl, rfl, rfl⟩

/-- What holds before and after the accept goroutine of the first `Listen` has run, when no other `Listen` was called. -/
structure OneListen (k : Nat) (s : Relisten.State) : Prop where
  alive : s.crashed = false
  noClose : s.closers = []
  open_ : s.accepts ≠ [] → s.listener = some 0 ∧ s.listeners = [true] ∧ s.call = none
  rest : s.call = some .rest → s.listener = some 0 ∧ s.listeners = [true]
  fresh : s.call = some .bind → s.listeners = []
  one : s.accepts ≠ [] → ∃ p, s.accepts = [p] ∧ (p = .start ∨ ((p = .loop ∨ p = .blocked 0) ∧ s.listening = true))
  zero : k = 0 → s.call = none ∧ s.accepts = [] ∧ s.listeners = []
  start : s.accepts = [] → s.listening = false

theorem OneListen.step {k : Nat} {s s' : Relisten.State} {a : Relisten.Action} (hl : OneListen k s) (hc : a ≠ .close) (hf : ∀ i, a ≠ .fail i) (hk : a = .listen → k = 0) (h : Relisten.step s a = some s') :
    OneListen (k + if a = .listen then 1 else 0) s' := by
  obtain ⟨h1, h2, h3, h4, h5, h6, h7, h8⟩ := hl
  cases a with
  | step j =>
    by_cases he : s.accepts = []
    · simp [Relisten.step, h1, he] at h
    obtain ⟨p, hp, hq⟩ := h6 he
    obtain ⟨ho1, ho2, ho3⟩ := h3 he
    cases j with
    | zero =>
      rcases hq with rfl | ⟨rfl | rfl, hq⟩ <;> simp [Relisten.step, h1, hp, State.acceptStep, ho1, State.setAccept] at h
      all_goals (subst h; constructor <;> grind)
    | succ j => simp [Relisten.step, h1, hp] at h
  | conn j =>
    by_cases he : s.accepts = []
    · simp [Relisten.step, h1, he] at h
    obtain ⟨p, hp, hq⟩ := h6 he
    obtain ⟨ho1, ho2, ho3⟩ := h3 he
    cases j with
    | zero =>
      rcases hq with rfl | ⟨rfl | rfl, hq⟩ <;> simp [Relisten.step, h1, hp, ho1, ho2, State.setAccept] at h
      all_goals (subst h; constructor <;> grind)
    | succ j => simp [Relisten.step, h1, hp] at h
  | close => exact absurd rfl hc
  | fail i => exact absurd rfl (hf i)
  | _ => constructor <;> grind [Relisten.step]

theorem OneListen.runs {as : List Relisten.Action} {k : Nat} {s s' : Relisten.State} (hl : OneListen k s) (hq : ∀ a ∈ as, a ≠ .close ∧ ∀ i, a ≠ .fail i) (hk : k + as.count .listen ≤ 1) (h : runs Relisten.step s as = some s') :
    OneListen (k + as.count .listen) s' := by
  induction as generalizing k s with
  | nil => simp only [Noise.runs, Option.some.injEq] at h; subst h; simpa using hl
  | cons a as ih =>
    obtain ⟨s1, h1, h2⟩ := runs_cons h
    have hc : (a :: as).count .listen = (if a = .listen then 1 else 0) + as.count .listen := by
      rw [List.count_cons]; by_cases ha : a = .listen <;> simp [ha, Nat.add_comm]
    rw [hc, ← Nat.add_assoc] at hk ⊢
    exact ih (hl.step (hq a List.mem_cons_self).1 (hq a List.mem_cons_self).2 (fun ha => by rw [if_pos ha] at hk; omega) h1) (fun b hb => hq b (List.mem_cons_of_mem _ hb)) hk h2

/-- The node listens, and keeps doing so. -/
structure Listens (s : Relisten.State) : Prop where
  alive : s.crashed = false
  noClose : s.closers = []
  on : s.listening = true
  call : s.call = none
  listener : s.listener = some 0
  listeners : s.listeners = [true]
  one : s.accepts = [.loop] ∨ s.accepts = [.blocked 0]

theorem Listens.step {s s' : Relisten.State} {a : Relisten.Action} (hl : Listens s) (hc : a ≠ .close) (hf : ∀ i, a ≠ .fail i) (h : Relisten.step s a = some s') :
    Listens s' ∧ s'.results = s.results ++ List.replicate (if a = .listen then 1 else 0) false := by
  obtain ⟨h1, h2, h3, h4, h5, h6, h7⟩ := hl
  cases a with
  | step j => cases j <;> rcases h7 with h7 | h7 <;> simp [Relisten.step, h1, h7, State.acceptStep, h5, State.setAccept] at h; (subst h; exact ⟨⟨by simp_all, by simp_all, by simp_all, by simp_all, by simp_all, by simp_all, by simp⟩, by simp⟩)
  | conn j => cases j <;> rcases h7 with h7 | h7 <;> simp [Relisten.step, h1, h7, h6, State.setAccept] at h; (subst h; exact ⟨⟨by simp_all, by simp_all, by simp_all, by simp_all, by simp_all, by simp_all, by simp⟩, by simp⟩)
  | close => exact absurd rfl hc
  | fail i => exact absurd rfl (hf i)
  | listen => simp [Relisten.step, h1, h4, h3] at h; subst h; exact ⟨⟨by simp_all, by simp_all, by simp_all, by simp_all, by simp_all, by simp_all, h7⟩, by simp⟩
  | closeListener c => simp [Relisten.step, h1, h2] at h
  | closeRecv c => simp [Relisten.step, h1, h2] at h
  | _ => simp [Relisten.step, h1, h4] at h

theorem Listens.runs {as : List Relisten.Action} {s s' : Relisten.State} (hl : Listens s) (hq : ∀ a ∈ as, a ≠ .close ∧ ∀ i, a ≠ .fail i) (h : runs Relisten.step s as = some s') :
    Listens s' ∧ s'.results = s.results ++ List.replicate (as.count .listen) false := by
  induction as generalizing s with
  | nil => simp only [Noise.runs, Option.some.injEq] at h; subst h; simpa using hl
  | cons a as ih =>
    obtain ⟨s1, h1, h2⟩ := runs_cons h
    have hc : (a :: as).count .listen = (if a = .listen then 1 else 0) + as.count .listen := by
      rw [List.count_cons]; by_cases ha : a = .listen <;> simp [ha, Nat.add_comm]
    obtain ⟨hl1, hr1⟩ := hl.step (hq a List.mem_cons_self).1 (hq a List.mem_cons_self).2 h1
    obtain ⟨hl2, hr2⟩ := ih hl1 (fun b hb => hq b (List.mem_cons_of_mem _ hb)) h2
    exact ⟨hl2, by rw [hr2, hr1, hc, List.append_assoc, List.replicate_append_replicate]⟩

/-- **C120, what holds** (missing: calls of `Listen` that begin before the accept goroutine of the first has run). Once `Listen` has been called and its accept goroutine has run, and while neither `Close` is called nor `Accept` fails,
every further `Listen` returns an error, and nothing else changes: the node keeps its listener, and keeps listening, with one accept goroutine. -/
theorem C120_later_listen_partial (as bs : List Relisten.Action) (s s' : Relisten.State) (h : runs Relisten.step State.new as = some s) (hone : as.count .listen = 1)
    (hq : ∀ a ∈ as ++ bs, a ≠ .close ∧ ∀ i, a ≠ .fail i) (hacc : s.accepts ≠ []) (hrun : .start ∉ s.accepts) (h' : runs Relisten.step s bs = some s') :
    s'.crashed = false ∧ s'.listening = true ∧ s'.listener = s.listener ∧ s'.listeners = s.listeners ∧ s.listener = some 0 ∧ s.listeners = [true] ∧ s'.accepts.length = 1 ∧
      s'.results = s.results ++ List.replicate (bs.count .listen) false := by
  have h0 : OneListen 0 State.new := by constructor <;> simp [State.new]
  have ho := h0.runs (fun a ha => hq a (List.mem_append_left _ ha)) (by omega) h
  obtain ⟨p, hp, hst⟩ := ho.one hacc
  obtain ⟨ho1, ho2, ho3⟩ := ho.open_ hacc
  have hl : Listens s := by
    rcases hst with rfl | ⟨hp', hon⟩
    · exact absurd (by rw [hp]; simp) hrun
    · exact ⟨ho.alive, ho.noClose, hon, ho3, ho1, ho2, by rcases hp' with rfl | rfl <;> simp [hp]⟩
  obtain ⟨hl', hr⟩ := hl.runs (fun a ha => hq a (List.mem_append_right _ ha)) h'
  refine ⟨hl'.alive, hl'.on, by rw [hl'.listener, ho1], by rw [hl'.listeners, ho2], ho1, ho2, ?_, hr⟩
  rcases hl'.one with h | h <;> simp [h]

/-- The hypotheses are met. -/
example : ∃ s s', runs Relisten.step State.new [.listen, .bindOK, .restOK, .step 0, .step 0] = some s ∧ runs Relisten.step s [.listen, .conn 0, .listen, .step 0] = some s' ∧ s'.results = [true, false, false] ∧
    s.accepts = [.blocked 0] ∧ s'.accepts = [.blocked 0] := ⟨_, _, rfl, rfl, rfl, rfl, rfl⟩

/-! ## C128: what `Listen` returns, and what it leaves behind -/

structure Tidy (s : Relisten.State) : Prop where
  res : s.results.count true = s.accepts.length
  one : ∀ i j : Nat, s.listeners[i]? = some true → s.listeners[j]? = some true → i = j
  none' : s.accepts = [] → s.call ≠ some .rest → true ∉ s.listeners
  rest : s.call = some .rest → ∃ l, s.listener = some l ∧ ∀ j : Nat, s.listeners[j]? = some true → j = l
  done : s.doneClosed = true ↔ Accept.ended ∈ s.accepts
  ended : s.accepts.count .ended ≤ 1

theorem getElem?_set_true {l : List Bool} {i j : Nat} (h : (l.set i false)[j]? = some true) : l[j]? = some true ∧ j ≠ i := by
  rw [List.getElem?_set] at h
  split at h
  · split at h <;> cases h
  · rename_i e; exact ⟨h, fun h' => e h'.symm⟩

/-- An accept goroutine goes from one place to another, neither of which is the end. -/
theorem Tidy.move {s s' : Relisten.State} {i : Nat} {p q : Accept} (h : Tidy s) (hi : s.accepts[i]? = some p) (hp : p ≠ .ended) (hq : q ≠ .ended) (h1 : s'.accepts = s.accepts.set i q)
    (h2 : s'.results = s.results) (h3 : s'.listeners = s.listeners) (h4 : s'.call = s.call) (h5 : s'.listener = s.listener) (h6 : s'.doneClosed = s.doneClosed) : Tidy s' := by
  have hlt : i < s.accepts.length := (List.getElem?_eq_some_iff.1 hi).1
  have hget : s.accepts[i] = p := (List.getElem?_eq_some_iff.1 hi).2
  have hcount : (s.accepts.set i q).count .ended = s.accepts.count .ended := by
    rw [List.count_set hlt, hget]
    have e1 : (p == Accept.ended) = false := by simpa using hp
    have e2 : (q == Accept.ended) = false := by simpa using hq
    simp [e1, e2]
  have hmem : Accept.ended ∈ s.accepts.set i q ↔ Accept.ended ∈ s.accepts := by rw [← List.count_pos_iff, ← List.count_pos_iff, hcount]
  refine ⟨by rw [h1, h2, List.length_set]; exact h.res, by rw [h3]; exact h.one, ?_, by rw [h3, h4, h5]; exact h.rest, by rw [h1, h6, hmem]; exact h.done, by rw [h1, hcount]; exact h.ended⟩
  intro he
  rw [h1, List.set_eq_nil_iff] at he
  rw [h3, h4]
  exact h.none' he

theorem Tidy.step {s s' : Relisten.State} {a : Relisten.Action} (h : Tidy s) (hs : Relisten.step s a = some s') : Tidy s' := by
  unfold Relisten.step at hs
  split at hs
  · cases hs
  cases a with
  | listen =>
    simp only at hs
    split at hs
    · rename_i hc
      split at hs
      · cases hs
        exact ⟨by simpa using h.res, h.one, h.none', h.rest, h.done, h.ended⟩
      · cases hs
        exact ⟨h.res, h.one, fun ha _ => h.none' ha (by rw [hc]; simp), fun hr => by simp at hr, h.done, h.ended⟩
    · cases hs
  | bindOK =>
    simp only at hs
    split at hs
    · rename_i hc
      cases hs
      have key : ∀ j : Nat, (s.listeners ++ [true])[j]? = some true → j = s.listeners.length := by
        intro j hj
        rcases Nat.lt_trichotomy j s.listeners.length with e | e | e
        · rw [List.getElem?_append_left e] at hj; exact absurd (List.mem_of_getElem? hj) hc.2
        · exact e
        · rw [List.getElem?_eq_none (by simp; omega)] at hj; cases hj
      exact ⟨h.res, fun i j hi hj => (key i hi).trans (key j hj).symm, fun _ hr => absurd rfl hr, fun _ => ⟨_, rfl, key⟩, h.done, h.ended⟩
    · cases hs
  | bindFail =>
    simp only at hs
    split at hs
    · rename_i hc
      cases hs
      exact ⟨by simpa using h.res, h.one, fun ha _ => h.none' ha (by rw [hc]; simp), fun hr => by simp at hr, h.done, h.ended⟩
    · cases hs
  | restFail o =>
    simp only at hs
    split at hs
    · rename_i l hc hl
      cases hs
      obtain ⟨l', h1, h2⟩ := h.rest hc
      rw [hl] at h1; cases h1
      refine ⟨by simpa using h.res, fun i j hi hj => h.one i j (getElem?_set_true hi).1 (getElem?_set_true hj).1, fun _ _ hm => ?_, fun hr => by simp at hr, h.done, h.ended⟩
      obtain ⟨j, hj⟩ := List.mem_iff_getElem?.1 hm
      obtain ⟨hj1, hj2⟩ := getElem?_set_true hj
      exact hj2 (h2 j hj1)
    · cases hs
  | restOK =>
    simp only at hs
    split at hs
    · cases hs
      exact ⟨by simp [h.res], h.one, by simp, by simp, by simp [h.done], by simpa [List.count_append] using h.ended⟩
    · cases hs
  | step i =>
    simp only at hs
    split at hs
    · rename_i p hp
      cases p <;> simp only [State.acceptStep] at hs
      · cases hs; exact h.move hp (by simp) (by simp) rfl rfl rfl rfl rfl rfl
      · split at hs <;> cases hs
        · exact h.move hp (by simp) (by simp) rfl rfl rfl rfl rfl rfl
        · exact ⟨h.res, h.one, h.none', h.rest, h.done, h.ended⟩
      · cases hs
      · split at hs
        · cases hs; exact ⟨h.res, h.one, h.none', h.rest, h.done, h.ended⟩
        · split at hs <;> cases hs
          exact h.move hp (by simp) (by simp) rfl rfl rfl rfl rfl rfl
      · cases hs; exact h.move hp (by simp) (by simp) rfl rfl rfl rfl rfl rfl
      · cases hs; exact h.move hp (by simp) (by simp) rfl rfl rfl rfl rfl rfl
      · split at hs <;> cases hs
        · exact ⟨h.res, h.one, h.none', h.rest, h.done, h.ended⟩
        · rename_i hopen
          have hlt : i < s.accepts.length := (List.getElem?_eq_some_iff.1 hp).1
          have hget : s.accepts[i] = .closeDone := (List.getElem?_eq_some_iff.1 hp).2
          have h0 : s.accepts.count .ended = 0 := by
            rw [List.count_eq_zero]; exact fun hm => hopen (h.done.2 hm)
          refine ⟨by simpa [State.setAccept] using h.res, h.one, ?_, h.rest, ?_, ?_⟩
          · intro he
            simp only [State.setAccept, List.set_eq_nil_iff] at he
            exact h.none' he
          · exact ⟨fun _ => List.mem_set hlt _, fun _ => rfl⟩
          · simp only [State.setAccept]
            rw [List.count_set hlt, h0]
            simp
      · cases hs
    · cases hs
  | conn i =>
    simp only at hs
    split at hs
    · rename_i l hp
      split at hs <;> cases hs
      exact h.move hp (by simp) (by simp) rfl rfl rfl rfl rfl rfl
    · cases hs
  | fail i =>
    simp only at hs
    split at hs
    · rename_i l hp
      cases hs
      exact h.move hp (by simp) (by simp) rfl rfl rfl rfl rfl rfl
    · cases hs
  | close =>
    simp only [Option.some.injEq] at hs
    subst hs
    split <;> exact ⟨h.res, h.one, h.none', h.rest, h.done, h.ended⟩
  | closeListener c =>
    simp only at hs
    split at hs
    · split at hs <;> cases hs
      · refine ⟨h.res, fun i j hi hj => h.one i j (getElem?_set_true hi).1 (getElem?_set_true hj).1, fun ha hr hm => ?_, fun hr => ?_, h.done, h.ended⟩
        · obtain ⟨j, hj⟩ := List.mem_iff_getElem?.1 hm
          exact h.none' ha hr (List.mem_of_getElem? (getElem?_set_true hj).1)
        · obtain ⟨l', h1, h2⟩ := h.rest hr
          exact ⟨l', h1, fun j hj => h2 j (getElem?_set_true hj).1⟩
      · exact ⟨h.res, h.one, h.none', h.rest, h.done, h.ended⟩
    · cases hs
  | closeRecv c =>
    simp only at hs
    split at hs
    · split at hs
      · cases hs; exact ⟨h.res, h.one, h.none', h.rest, h.done, h.ended⟩
      · split at hs <;> cases hs
        exact ⟨h.res, h.one, h.none', h.rest, h.done, h.ended⟩
    · cases hs

theorem tidy {s : Relisten.State} (h : Relisten.Reachable s) : Tidy s :=
  h.inv (fun _ _ _ hp hs => hp.step hs) ⟨rfl, by simp [State.new], by simp [State.new], by simp [State.new], by simp [State.new], by simp [State.new]⟩

/-- **C128**: however often `Listen` and `Close` are called, `Listen` has returned nil as often as a goroutine was started that accepts connections; a call that returned an error started none. -/
theorem C128_nil_means_accepting (s : Relisten.State) (h : Relisten.Reachable s) : s.results.count true = s.accepts.length := (tidy h).res

/-- **C128**: at most one socket is open at a time; and if no call of `Listen` is under way and none has succeeded so far, none is: calls that fail leave nothing behind. -/
theorem C128_nothing_left (s : Relisten.State) (h : Relisten.Reachable s) :
    s.listeners.count true ≤ 1 ∧ (s.call = none → true ∉ s.results → true ∉ s.listeners) := by
  have hk := tidy h
  constructor
  · by_contra hc
    have hd : List.Duplicate true s.listeners := List.duplicate_iff_two_le_count.2 (by omega)
    obtain ⟨i, j, hij, hi, hj⟩ := List.duplicate_iff_exists_distinct_get.1 hd
    exact absurd (hk.one i j (by rw [List.getElem?_eq_getElem i.2]; exact congrArg some hi.symm) (by rw [List.getElem?_eq_getElem j.2]; exact congrArg some hj.symm)) (by intro e; exact absurd (Fin.ext e) (by intro e'; subst e'; exact absurd hij (lt_irrefl _)))
  · intro hc hr
    refine hk.none' ?_ (by rw [hc]; simp)
    have := hk.res
    rw [List.count_eq_zero.2 hr] at this
    exact List.length_eq_zero_iff.1 this.symm

/-- C120 is false, also of a node that was closed and listens again: after one accept goroutine has ended, the end of any other one crashes the process, for it sends on a closed channel. -/
theorem C120_second_life_refuted (s : Relisten.State) (h : Relisten.Reachable s) (hc : s.crashed = false) (i j l : Nat) (hi : s.accepts[i]? = some .ended) (hj : s.accepts[j]? = some (.blocked l)) :
    ∃ s', runs Relisten.step s [.fail j, .step j] = some s' ∧ s'.crashed = true := by
  have hd : s.doneClosed = true := (tidy h).done.2 (List.mem_of_getElem? hi)
  have hlt : j < s.accepts.length := (List.getElem?_eq_some_iff.1 hj).1
  have h1 : Relisten.step s (.fail j) = some (s.setAccept j .report) := by
    unfold Relisten.step
    rw [if_neg (by simp [hc])]
    simp only [hj]
  have h2 : Relisten.step (s.setAccept j .report) (.step j) = some { s.setAccept j .report with crashed := true } := by
    have h3 : (s.setAccept j .report).accepts[j]? = some .report := by simp [State.setAccept, hlt]
    unfold Relisten.step
    rw [if_neg (by simp [State.setAccept, hc])]
    simp only [h3, State.acceptStep]
    rw [if_pos (by simpa [State.setAccept] using hd)]
  exact ⟨{ s.setAccept j .report with crashed := true }, by simp only [runs, h1, h2, Option.bind_some], rfl⟩

/-- The hypotheses are met: the node is closed, and listens again. -/
example : ∃ s, Relisten.Reachable s ∧ s.crashed = false ∧ s.accepts = [.ended, .blocked 2] ∧ s.results = [false, true, true] ∧ s.listeners = [false, false, true] ∧ s.closers = [.returned] :=
  ⟨_, ⟨[.listen, .bindOK, .restFail true, .listen, .bindOK, .restOK, .step 0, .step 0, .close, .closeListener 0, .fail 0, .step 0, .step 0, .closeRecv 0, .step 0, .step 0, .listen, .bindOK, .restOK, .step 1, .step 1], rfl⟩, rfl, rfl, rfl, rfl, rfl⟩

end Noise
