import Verif.Model.Dial
/-! # Property C38: dialing -/
namespace Noise
open Dial

/-- Round `i` failed with an error that does not come from the context, and the failed client ended. -/
def Dial.Attempt.retry (a : Attempt) : Prop := (∃ n, a.observed = some (.other n)) ∧ a.closes = true
/-- Round `i` failed with an error of the context, and the failed client ended. -/
def Dial.Attempt.cancelled (a : Attempt) : Prop := (∃ n, a.observed = some (.ctx n)) ∧ a.closes = true

/-- The rounds that were started. -/
def Dial.rounds (es : List Event) : List Nat := es.filterMap fun | .attempt i => some i | _ => none
/-- The protocols whose `OnPingFailed` was called. -/
def Dial.notified (es : List Event) : List Nat := es.filterMap fun | .pingFailed p => some p | _ => none

/-- What the loop does, in terms of the first round that is not a retry. -/
theorem Dial.loop_spec (o : Nat → Attempt) (k i : Nat) (e0 : Option DialErr) :
    (∃ j, j < k ∧ (∀ x, x < j → (o (i + x)).retry) ∧ ¬ (o (i + j)).retry ∧ (loop o k i e0).1 = (List.range (j + 1)).map (fun x => .attempt (i + x)) ∧
      (loop o k i e0).2 = match (o (i + j)).observed with
        | none => .client (o (i + j)).client
        | some e => if (o (i + j)).closes then .error (some e) else .blocked) ∨
    ((∀ x, x < k → (o (i + x)).retry) ∧ (loop o k i e0).1 = (List.range k).map (fun x => .attempt (i + x)) ∧
      ∃ e, (loop o k i e0).2 = .error e ∧ (0 < k → e = (o (i + (k - 1))).observed)) := by
  induction k generalizing i e0 with
  | zero => exact Or.inr ⟨by intro x h; omega, rfl, e0, rfl, by omega⟩
  | succ k ih =>
    by_cases hr : (o i).retry
    · obtain ⟨⟨n, hn⟩, hc⟩ := id hr
      have e1 : loop o (k + 1) i e0 = (.attempt i :: (loop o k (i + 1) (some (.other n))).1, (loop o k (i + 1) (some (.other n))).2) := by
        simp only [loop, hn, hc, if_true]
      have hrange : ∀ m, Event.attempt i :: (List.range m).map (fun x => Event.attempt (i + 1 + x)) = (List.range (m + 1)).map (fun x => Event.attempt (i + x)) := by
        intro m
        rw [List.range_succ_eq_map, List.map_cons, List.map_map]
        congr 1
        apply List.map_congr_left
        intro x _
        simp only [Function.comp]
        congr 1; omega
      have hall : ∀ m, (∀ x, x < m → (o (i + 1 + x)).retry) → ∀ x, x < m + 1 → (o (i + x)).retry := by
        intro m h x hx
        cases x with
        | zero => exact hr
        | succ x => have := h x (by omega); rwa [show i + 1 + x = i + (x + 1) by omega] at this
      rcases ih (i + 1) (some (.other n)) with ⟨j, h1, h2, h3, h4, h5⟩ | ⟨h2, h4, e, h5, h6⟩
      · left
        rw [show i + 1 + j = i + (j + 1) by omega] at h3 h5
        refine ⟨j + 1, by omega, hall j h2, h3, ?_, ?_⟩
        · rw [e1, h4]; exact hrange _
        · rw [e1]; exact h5
      · right
        refine ⟨hall k h2, ?_, e, ?_, ?_⟩
        · rw [e1, h4]; exact hrange _
        · rw [e1]; exact h5
        · intro _
          cases k with
          | zero => simp only [loop] at h5; injection h5 with h5; rw [← h5]; exact hn.symm
          | succ k =>
            have := h6 (by omega)
            rw [this, show i + 1 + (k + 1 - 1) = i + (k + 1 + 1 - 1) by omega]
    · left
      refine ⟨0, by omega, by intro x h; omega, hr, ?_, ?_⟩
      · simp only [loop]
        split
        · rfl
        · rename_i e he
          split
          · rename_i hc
            cases e with
            | ctx n => rfl
            | other n => exact absurd ⟨⟨n, he⟩, hc⟩ hr
          · rfl
      · simp only [loop, Nat.add_zero]
        split
        · rename_i he; simp [he]
        · rename_i e he
          split
          · rename_i hc
            cases e with
            | ctx n => simp [he, hc]
            | other n => exact absurd ⟨⟨n, he⟩, hc⟩ hr
          · rename_i hc; simp [he, hc]

theorem Dial.rounds_attempts (l : List Nat) (hooks : List Bool) : rounds (l.map .attempt ++ pingFailures hooks) = l := by
  have h1 : rounds (l.map .attempt) = l := by
    induction l with
    | nil => rfl
    | cons a l ih => simp only [List.map_cons, rounds, List.filterMap_cons] at ih ⊢; rw [ih]
  have h2 : rounds (pingFailures hooks) = [] := by
    unfold rounds pingFailures
    rw [List.filterMap_eq_nil_iff]
    intro e he
    obtain ⟨p, _, rfl⟩ := List.mem_map.1 he
    rfl
  unfold rounds at *
  rw [List.filterMap_append, h1, h2, List.append_nil]

theorem Dial.notified_attempts (l : List Nat) (hooks : List Bool) : notified (l.map .attempt ++ pingFailures hooks) = (List.range hooks.length).filter (fun p => hooks[p]? = some true) := by
  have h1 : notified (l.map .attempt) = [] := by
    unfold notified
    rw [List.filterMap_eq_nil_iff]
    intro e he
    obtain ⟨p, _, rfl⟩ := List.mem_map.1 he
    rfl
  have h2 : ∀ m : List Nat, notified (m.map .pingFailed) = m := by
    intro m
    induction m with
    | nil => rfl
    | cons a l ih => simp only [List.map_cons, notified, List.filterMap_cons] at ih ⊢; rw [ih]
  unfold notified at *
  rw [List.filterMap_append, h1, List.nil_append]
  exact h2 _

theorem Dial.notified_rounds (l : List Nat) : notified (l.map .attempt) = [] ∧ rounds (l.map .attempt) = l := by
  have a := notified_attempts l []
  have b := rounds_attempts l []
  have : pingFailures [] = [] := rfl
  rw [this, List.append_nil] at a b
  exact ⟨by rw [a]; rfl, b⟩

/-- **C38, what holds** (missing: "no further attempt once the context has ended", and that the call always returns; both are refuted below). For every limit of at
least one attempt, every set of callbacks and every sequence of things that the attempts meet:

* the rounds are 0, 1, …, at least one and at most `max` of them;
* a client is returned exactly if some round observes no error after only retries, and it is the client of that round;
* an error is returned exactly if every one of `max` rounds was a retry, or some round after only retries met the end of the context;
* `OnPingFailed` was called, once for each protocol that has it and in order, exactly if an error is returned, and after the last round. -/
theorem C38_dial_partial (max : Nat) (hmax : 1 ≤ max) (hooks : List Bool) (o : Nat → Attempt) :
    (∃ k, 1 ≤ k ∧ k ≤ max ∧ rounds (dial max hooks o).1 = List.range k ∧ ∀ i, i + 1 < k → (o i).retry) ∧
    (∀ c, (dial max hooks o).2 = .client c ↔ ∃ j, j < max ∧ (∀ i, i < j → (o i).retry) ∧ (o j).observed = none ∧ (o j).client = c) ∧
    ((∃ e, (dial max hooks o).2 = .error e) ↔
      (∀ i, i < max → (o i).retry) ∨ (∃ j, j < max ∧ (∀ i, i < j → (o i).retry) ∧ (o j).cancelled)) ∧
    notified (dial max hooks o).1 =
      (match (dial max hooks o).2 with
        | .error _ => (List.range hooks.length).filter (fun p => hooks[p]? = some true)
        | _ => []) := by
  have uniq : ∀ j j', (∀ i, i < j → (o i).retry) → ¬ (o j).retry → (∀ i, i < j' → (o i).retry) → ¬ (o j').retry → j = j' := by
    intro j j' h1 h2 h3 h4
    rcases Nat.lt_trichotomy j j' with h | h | h
    · exact absurd (h3 j h) h2
    · exact h
    · exact absurd (h1 j' h) h4
  have nr1 : ∀ j, (o j).observed = none → ¬ (o j).retry := by rintro j h ⟨⟨n, hn⟩, _⟩; rw [h] at hn; cases hn
  have nr2 : ∀ j, (o j).cancelled → ¬ (o j).retry := by
    rintro j ⟨⟨n, hn⟩, _⟩ ⟨⟨m, hm⟩, _⟩
    rw [hn] at hm; cases hm
  have mapAttempt : ∀ m, (List.range m).map (fun x => Event.attempt (0 + x)) = (List.range m).map Event.attempt := by
    intro m; apply List.map_congr_left; intro x _; rw [Nat.zero_add]
  rcases loop_spec o max 0 none with ⟨j, h1, h2, h3, h4, h5⟩ | ⟨h2, h4, e, h5, h6⟩
  · simp only [Nat.zero_add] at h2 h3 h4 h5
    cases hob : (o j).observed with
    | none =>
      rw [hob] at h5
      simp only at h5
      have hd : dial max hooks o = ((List.range (j + 1)).map Event.attempt, .client (o j).client) := by
        unfold dial
        rw [show loop o max 0 none = ((loop o max 0 none).1, (loop o max 0 none).2) from rfl, h4, h5]
      rw [hd]
      refine ⟨⟨j + 1, by omega, by omega, (notified_rounds _).2, fun i hi => h2 i (by omega)⟩, ?_, ?_, (notified_rounds _).1⟩
      · intro c
        constructor
        · intro h; injection h with h; exact ⟨j, h1, h2, hob, h⟩
        · rintro ⟨j', a, b, c', d⟩
          rw [uniq j j' h2 h3 b (nr1 j' c')]; simp [d]
      · constructor
        · rintro ⟨e, h⟩; cases h
        · rintro (h | ⟨j', a, b, c'⟩)
          · exact absurd (h j h1) h3
          · rw [← uniq j j' h2 h3 b (nr2 j' c')] at c'
            obtain ⟨⟨n, hn⟩, _⟩ := c'
            rw [hob] at hn; cases hn
    | some e =>
      rw [hob] at h5
      simp only at h5
      by_cases hc : (o j).closes
      · rw [if_pos hc] at h5
        have hd : dial max hooks o = ((List.range (j + 1)).map Event.attempt ++ pingFailures hooks, .error (some e)) := by
          unfold dial
          rw [show loop o max 0 none = ((loop o max 0 none).1, (loop o max 0 none).2) from rfl, h4, h5]
        rw [hd]
        refine ⟨⟨j + 1, by omega, by omega, rounds_attempts _ _, fun i hi => h2 i (by omega)⟩, ?_, ?_, notified_attempts _ _⟩
        · intro c
          constructor
          · intro h; cases h
          · rintro ⟨j', a, b, c', d⟩
            rw [← uniq j j' h2 h3 b (nr1 j' c')] at c'
            rw [hob] at c'; cases c'
        · constructor
          · intro _
            right
            refine ⟨j, h1, h2, ?_, hc⟩
            cases e with
            | ctx n => exact ⟨n, hob⟩
            | other n => exact absurd ⟨⟨n, hob⟩, hc⟩ h3
          · intro _; exact ⟨_, rfl⟩
      · rw [if_neg hc] at h5
        have hd : dial max hooks o = ((List.range (j + 1)).map Event.attempt, .blocked) := by
          unfold dial
          rw [show loop o max 0 none = ((loop o max 0 none).1, (loop o max 0 none).2) from rfl, h4, h5]
        rw [hd]
        refine ⟨⟨j + 1, by omega, by omega, (notified_rounds _).2, fun i hi => h2 i (by omega)⟩, ?_, ?_, (notified_rounds _).1⟩
        · intro c
          constructor
          · intro h; cases h
          · rintro ⟨j', a, b, c', d⟩
            rw [← uniq j j' h2 h3 b (nr1 j' c')] at c'
            rw [hob] at c'; cases c'
        · constructor
          · rintro ⟨e, h⟩; cases h
          · rintro (h | ⟨j', a, b, c'⟩)
            · exact absurd (h j h1) h3
            · rw [← uniq j j' h2 h3 b (nr2 j' c')] at c'
              exact absurd c'.2 hc
  · simp only [Nat.zero_add] at h2 h4 h6
    have hd : dial max hooks o = ((List.range max).map Event.attempt ++ pingFailures hooks, .error e) := by
      unfold dial
      rw [show loop o max 0 none = ((loop o max 0 none).1, (loop o max 0 none).2) from rfl, h4, h5]
    rw [hd]
    refine ⟨⟨max, hmax, Nat.le_refl _, rounds_attempts _ _, fun i hi => h2 i (by omega)⟩, ?_, ?_, notified_attempts _ _⟩
    · intro c
      constructor
      · intro h; cases h
      · rintro ⟨j', a, b, c', d⟩
        exact absurd (h2 j' a) (nr1 j' c')
    · constructor
      · intro _; exact Or.inl h2
      · intro _; exact ⟨_, rfl⟩

/-- What a run meets is possible: the context does not come back to life, and the branch of the context is taken only when it has ended. -/
def Dial.Possible (o : Nat → Attempt) : Prop :=
  (∀ i j, i ≤ j → (o i).ctxEnded = true → (o j).ctxEnded = true) ∧ ∀ i n, (o i).observed = some (.ctx n) → (o i).ctxEnded = true

/-- **C38 is false of the code in one point**: after the context has ended, further attempts are made, up to the limit, whenever the `select` takes the branch of the
failed client (whose dial error does not wrap the error of the context). -/
theorem C38_attempts_after_cancel_refuted (max : Nat) (hooks : List Bool) :
    ∃ o, Possible o ∧ (∀ i, (o i).ctxEnded = true) ∧ rounds (dial max hooks o).1 = List.range max := by
  refine ⟨fun i => ⟨i, true, some (.other 0), true⟩, ⟨by simp, by simp⟩, by simp, ?_⟩
  rcases loop_spec (fun i => (⟨i, true, some (.other 0), true⟩ : Attempt)) max 0 none with ⟨j, h1, h2, h3, h4, h5⟩ | ⟨h2, h4, e, h5, h6⟩
  · exact absurd ⟨⟨0, rfl⟩, rfl⟩ h3
  · unfold dial
    rw [show loop (fun i => (⟨i, true, some (.other 0), true⟩ : Attempt)) max 0 none = ((loop _ max 0 none).1, (loop _ max 0 none).2) from rfl, h4, h5]
    have : (List.range max).map (fun x => Event.attempt (0 + x)) = (List.range max).map Event.attempt := by
      apply List.map_congr_left; intro x _; rw [Nat.zero_add]
    rw [this]
    exact rounds_attempts _ _

/-- **C38**: and the call does not return if a failed client does not end (C32). -/
theorem C38_may_block_refuted (max : Nat) (hmax : 1 ≤ max) (hooks : List Bool) (o : Nat → Attempt) (e : DialErr) (he : (o 0).observed = some e)
    (hc : (o 0).closes = false) : (dial max hooks o).2 = .blocked := by
  obtain ⟨k, rfl⟩ : ∃ k, max = k + 1 := ⟨max - 1, by omega⟩
  simp [dial, loop, he, hc]

/-- Two failures, then success, with three attempts; the same with two attempts. -/
example : dial 3 [true, false] (fun i => if i < 2 then ⟨i, false, some (.other 5), true⟩ else ⟨9, false, none, true⟩)
    = ([.attempt 0, .attempt 1, .attempt 2], .client 9) := by decide
example : dial 2 [true, false, true] (fun i => if i < 2 then ⟨i, false, some (.other 5), true⟩ else ⟨9, false, none, true⟩)
    = ([.attempt 0, .attempt 1, .pingFailed 0, .pingFailed 2], .error (some (.other 5))) := by decide

end Noise
