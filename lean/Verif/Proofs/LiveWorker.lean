import Verif.Proofs.Fair
import Verif.Proofs.Worker
/-! # The workers in an execution in which no handler fails and the queue is not closed -/
namespace Noise.Wk
open Spec
variable {ε : Type}

/-- A worker that has not been lost. -/
def Pc.fine : Pc ε → Bool
  | .idle | .next _ _ | .inside _ _ => true
  | _ => false

/-- Not a failure and not part of closing. -/
def Action.calm : Action ε → Bool
  | .closeQueue => false
  | .handlerReturn _ (some _) => false
  | _ => true

structure Run (N H : Nat) (w : Nat → State ε) (γ : Nat → Option (Action ε)) : Prop where
  init : w 0 = State.new N H
  step : ∀ t, (γ t = none ∧ w (t + 1) = w t) ∨ ∃ a, γ t = some a ∧ a.calm = true ∧ Wk.step (w t) a = some (w (t + 1))
  fair : ∀ i t, ∃ t', t ≤ t' ∧ ((γ t' = some (.work i) ∨ γ t' = some (.handlerReturn i none)) ∨
    ¬ ((Wk.step (w t') (.work i)).isSome = true ∨ (Wk.step (w t') (.handlerReturn i none)).isSome = true))

variable {N H : Nat} {w : Nat → State ε} {γ : Nat → Option (Action ε)}

structure Fine (N : Nat) (s : State ε) : Prop where
  opened : s.queueClosed = false
  fine : ∀ (i : Nat) p, s.workers[i]? = some p → p.fine = true
  room : s.items.length ≤ s.head + N

theorem Fine.step {s s' : State ε} {a : Action ε} (g : Inv N H s) (f : Fine N s) (ha : a.calm = true) (hs : Wk.step s a = some s') : Fine N s' := by
  obtain ⟨f1, f2, f3⟩ := f
  have hset : ∀ {i : Nat} {q : Pc ε}, q.fine = true → ∀ (j : Nat) p, (s.workers.set i q)[j]? = some p → p.fine = true := by
    intro i q hq j p hp
    rw [List.getElem?_set] at hp
    split at hp
    · split at hp
      · injection hp with hp; subst hp; exact hq
      · cases hp
    · exact f2 j p hp
  have hnw := g.nw
  wk_cases a hs
  all_goals first
    | (simp [Action.calm] at ha; done)
    | (rename_i hp _ _; have := f2 _ _ hp; simp [Pc.fine] at this; done)
    | (rename_i hp _ _ _; have := f2 _ _ hp; simp [Pc.fine] at this; done)
    | (rename_i hp _ ; have := f2 _ _ hp; simp [Pc.fine] at this; done)
    | exact ⟨f1, f2, by simp only [List.length_append, List.length_singleton]; omega⟩
    | exact ⟨f1, f2, f3⟩
    | exact ⟨f1, hset rfl, f3⟩
    | exact ⟨f1, hset rfl, by simp only [State.setWorker]; omega⟩
    | simp_all

theorem Run.good (r : Run N H w γ) (t : Nat) : Inv N H (w t) ∧ Fine N (w t) ∧ Reachable N H (w t) := by
  induction t with
  | zero =>
    rw [r.init]
    refine ⟨.new N H, ⟨rfl, ?_, by simp [State.new]⟩, .refl _⟩
    intro i p hp
    simp only [State.new] at hp
    obtain ⟨hlt, e⟩ := List.getElem?_eq_some_iff.1 hp
    rw [List.getElem_replicate] at e
    rw [← e]; rfl
  | succ t ih =>
    rcases r.step t with ⟨_, h⟩ | ⟨a, _, h1, h2⟩
    · rw [h]; exact ih
    · exact ⟨ih.1.step h2, ih.2.1.step ih.1 h1 h2, ih.2.2.snoc h2⟩

/-- What one step does to the queue. -/
theorem queue_step {s s' : State ε} {a : Action ε} (hs : Wk.step s a = some s') :
    s.items <+: s'.items ∧ (s'.head = s.head ∨ (s'.head = s.head + 1 ∧ s'.items = s.items ∧ s.head < s.items.length ∧
      ∃ i, a = .work i ∧ s.workers[i]? = some .idle ∧ s'.workers[i]? = some (.next s.head 0))) := by
  wk_cases a hs
  all_goals first
    | exact ⟨List.prefix_append _ _, Or.inl rfl⟩
    | exact ⟨List.prefix_refl _, Or.inl rfl⟩
    | (rename_i i _ hp hlt
       refine ⟨List.prefix_refl _, Or.inr ⟨rfl, rfl, hlt, i, rfl, hp, ?_⟩⟩
       simp only [State.setWorker]
       rw [List.getElem?_set_self (List.getElem?_eq_some_iff.1 hp).1])

/-- A worker is moved only by its own actions. -/
theorem worker_step {s s' : State ε} {a : Action ε} (hs : Wk.step s a = some s') (i : Nat) (h1 : a ≠ .work i) (h2 : ∀ r, a ≠ .handlerReturn i r) : s'.workers[i]? = s.workers[i]? := by
  wk_cases a hs
  all_goals first
    | rfl
    | (rename_i j _ _ _; simp only [State.setWorker]; rw [List.getElem?_set_ne]; intro e; subst e; first | exact h1 rfl | exact h2 _ rfl)

/-- How far a worker is from its next receive. -/
def Pc.rank (H : Nat) : Pc ε → Nat
  | .next _ h => 2 * (H - h) + 1
  | .inside _ h => 2 * (H - h)
  | _ => 0

/-- The steps of one worker, when nothing fails. -/
theorem own_step {s s' : State ε} {a : Action ε} {i : Nat} {p : Pc ε} (g : Inv N H s) (f : Fine N s) (ha : a.calm = true) (hs : Wk.step s a = some s') (hw : s.workers[i]? = some p)
    (ho : a = .work i ∨ a = .handlerReturn i none) :
    (p = .idle ∧ s.head < s.items.length ∧ s'.workers[i]? = some (.next s.head 0)) ∨
    (∃ k h, p = .next k h ∧ h < H ∧ s'.workers[i]? = some (.inside k h)) ∨ (∃ k h, p = .next k h ∧ h = H ∧ s'.workers[i]? = some .idle) ∨
    (∃ k h, p = .inside k h ∧ h < H ∧ s'.workers[i]? = some (.next k (h + 1)) ∧ a = .handlerReturn i none) := by
  have hlt : i < s.workers.length := (List.getElem?_eq_some_iff.1 hw).1
  have hset : ∀ q : Pc ε, (s.workers.set i q)[i]? = some q := fun q => List.getElem?_set_self hlt
  have hf := f.fine i p hw
  have hpc := g.pc i p hw
  rcases ho with rfl | rfl
  · simp only [Wk.step, hw] at hs
    cases p with
    | idle =>
      simp only [f.opened] at hs
      split at hs
      · injection hs with hs; subst hs; exact Or.inl ⟨rfl, by assumption, hset _⟩
      · cases hs
    | next k h =>
      simp only [g.nh] at hs
      split at hs
      · injection hs with hs; subst hs; exact Or.inr (Or.inl ⟨k, h, rfl, by assumption, hset _⟩)
      · injection hs with hs; subst hs; exact Or.inr (Or.inr (Or.inl ⟨k, h, rfl, by have := hpc.2.1; omega, hset _⟩))
    | inside k h => cases hs
    | failing k e => cases hf
    | closing k => cases hf
    | ended b => cases hf
  · simp only [Wk.step, hw] at hs
    cases p with
    | inside k h => injection hs with hs; subst hs; exact Or.inr (Or.inr (Or.inr ⟨k, h, rfl, hpc.2.1, hset _, rfl⟩))
    | _ => cases hs

/-- A busy worker can go on. -/
theorem busy_able {s : State ε} {i : Nat} {p : Pc ε} (f : Fine N s) (hw : s.workers[i]? = some p) (hb : p ≠ .idle ∨ s.head < s.items.length) :
    (Wk.step s (.work i)).isSome = true ∨ (Wk.step s (.handlerReturn i none)).isSome = true := by
  have hf := f.fine i p hw
  cases p with
  | idle =>
    left
    rcases hb with hb | hb
    · exact absurd rfl hb
    · simp [Wk.step, hw, hb]
  | next k h => left; simp only [Wk.step, hw]; split <;> rfl
  | inside k h => right; simp [Wk.step, hw]
  | failing k e => cases hf
  | closing k => cases hf
  | ended b => cases hf

/-- Every step of a run leaves a worker alone or is its own. -/
theorem Run.worker (r : Run N H w γ) (i t : Nat) :
    ((w (t + 1)).workers[i]? = (w t).workers[i]? ∧ ¬ (γ t = some (.work i) ∨ γ t = some (.handlerReturn i none))) ∨
    ∃ a, γ t = some a ∧ a.calm = true ∧ Wk.step (w t) a = some (w (t + 1)) ∧ (a = .work i ∨ a = .handlerReturn i none) := by
  rcases r.step t with ⟨h1, h2⟩ | ⟨a, h1, h2, h3⟩
  · left; rw [h1, h2]; simp
  · by_cases ho : a = .work i ∨ a = .handlerReturn i none
    · exact Or.inr ⟨a, h1, h2, h3, ho⟩
    · left
      refine ⟨worker_step h3 i (fun e => ho (Or.inl e)) ?_, by rw [h1]; simpa using ho⟩
      intro x e
      subst e
      cases x with
      | none => exact ho (Or.inr rfl)
      | some x => simp [Action.calm] at h2

theorem Run.has (r : Run N H w γ) {i : Nat} (hi : i < N) (t : Nat) : ∃ p, (w t).workers[i]? = some p :=
  ⟨_, List.getElem?_eq_getElem (by rw [(r.good t).1.len]; exact hi)⟩

/-- Every worker is idle again and again. -/
theorem Run.idles (r : Run N H w γ) {i : Nat} (hi : i < N) (t : Nat) : ∃ t', t ≤ t' ∧ (w t').workers[i]? = some .idle := by
  refine Fair.well1 (r.fair i) (P := fun _ => True) (fun t => match (w t).workers[i]? with | some p => p.rank H | none => 0) ?_ t trivial
  intro t _
  obtain ⟨p, hp⟩ := r.has hi t
  obtain ⟨g, f, _⟩ := r.good t
  by_cases hidle : p = .idle
  · left; rw [hp, hidle]
  · refine Or.inr ⟨busy_able f hp (Or.inl hidle), ?_⟩
    rcases r.worker i t with ⟨h1, h2⟩ | ⟨a, h1, h2, h3, h4⟩
    · refine Or.inr ⟨trivial, Or.inr ⟨by rw [h1], h2⟩⟩
    · rcases own_step g f h2 h3 hp h4 with ⟨e, _⟩ | ⟨k, h, e, hh, e'⟩ | ⟨k, h, e, hh, e'⟩ | ⟨k, h, e, hh, e', _⟩
      · exact absurd e hidle
      · refine Or.inr ⟨trivial, Or.inl ?_⟩
        simp only [hp, e, e', Pc.rank]; omega
      · exact Or.inl e'
      · refine Or.inr ⟨trivial, Or.inl ?_⟩
        simp only [hp, e, e', Pc.rank]; omega

theorem Run.mono (r : Run N H w γ) {t t' : Nat} (h : t ≤ t') : (w t).items <+: (w t').items ∧ (w t).head ≤ (w t').head := by
  refine Fair.stays (P := fun x => (w t).items <+: (w x).items ∧ (w t).head ≤ (w x).head) ?_ h ⟨List.prefix_refl _, Nat.le_refl _⟩
  rintro x ⟨h1, h2⟩
  rcases r.step x with ⟨_, e⟩ | ⟨a, _, _, e⟩
  · rw [e]; exact ⟨h1, h2⟩
  · obtain ⟨q1, q2⟩ := queue_step e
    refine ⟨h1.trans q1, ?_⟩
    rcases q2 with q | ⟨q, _⟩ <;> omega

/-- As long as the queue is not empty, items are taken off. -/
theorem Run.takes (r : Run N H w γ) (hN : 0 < N) {t0 : Nat} (hne : ∀ t, t0 ≤ t → (w t).head = (w t0).head → (w t).head < (w t).items.length) : ∃ t, t0 ≤ t ∧ (w t0).head < (w t).head := by
  obtain ⟨t1, h1, h2⟩ := r.idles hN t0
  have : ∃ t, t1 ≤ t ∧ (w t0).head < (w t).head := by
    refine Fair.well1 (r.fair 0) (P := fun t => t1 ≤ t ∧ (w t).workers[0]? = some .idle) (fun _ => 0) ?_ t1 ⟨Nat.le_refl _, h2⟩
    rintro t ⟨ht, hw⟩
    by_cases hg : (w t0).head < (w t).head
    · exact Or.inl hg
    · have hle := (r.mono (t := t0) (t' := t) (by omega)).2
      obtain ⟨g, f, _⟩ := r.good t
      have hq := hne t (by omega) (by omega)
      refine Or.inr ⟨busy_able f hw (Or.inr hq), ?_⟩
      rcases r.worker 0 t with ⟨q1, q2⟩ | ⟨a, q1, q2, q3, q4⟩
      · exact Or.inr ⟨⟨by omega, by rw [q1]; exact hw⟩, Or.inr ⟨rfl, q2⟩⟩
      · left
        rcases q4 with rfl | rfl
        · simp only [Wk.step, hw, if_pos hq] at q3
          injection q3 with q3
          rw [← q3]
          show (w t0).head < (w t).head + 1
          omega
        · simp [Wk.step, hw] at q3
  obtain ⟨t, ht, hg⟩ := this
  exact ⟨t, by omega, hg⟩

/-- Every item is taken. -/
theorem Run.taken (r : Run N H w γ) (hN : 0 < N) {t0 k : Nat} (hk : k < (w t0).items.length) : ∃ t, t0 ≤ t ∧ k < (w t).head := by
  refine Fair.climb (P := fun t => t0 ≤ t) (fun t => (w t).head) (fun _ _ h h' => Nat.le_trans h' h) ?_ t0 (Nat.le_refl _)
  intro t ht hle
  refine r.takes hN ?_
  intro t' ht' he
  have := (r.mono (t := t0) (t' := t') (by omega)).1.length_le
  have hle : (w t).head ≤ k := hle
  omega

/-- Some worker has taken it. -/
theorem Run.taker (r : Run N H w γ) {t k : Nat} (hk : k < (w t).head) : ∃ (t1 i : Nat), t1 < t ∧ (w (t1 + 1)).workers[i]? = some (.next k 0) := by
  induction t with
  | zero => rw [r.init] at hk; cases hk
  | succ t ih =>
    by_cases h : k < (w t).head
    · obtain ⟨t1, i, h1, h2⟩ := ih h
      exact ⟨t1, i, by omega, h2⟩
    · rcases r.step t with ⟨_, e⟩ | ⟨a, _, _, e⟩
      · rw [e] at hk; exact absurd hk h
      · rcases (queue_step e).2 with q | ⟨q, _, _, i, _, _, q'⟩
        · omega
        · have : (w t).head = k := by omega
          rw [this] at q'
          exact ⟨t, i, by omega, q'⟩

/-- Every item is handled completely: some worker reaches the point after its last handler; and what holds when handler `h` returns has held (and holds) by then. -/
theorem Run.handled (r : Run N H w γ) (hN : 0 < N) {t0 k : Nat} (hk : k < (w t0).items.length) (Q : Nat → Nat → Prop) (hQ : ∀ h t, Q h t → Q h (t + 1))
    (hret : ∀ t i h, (w t).workers[i]? = some (.inside k h) → γ t = some (.handlerReturn i none) → Q h (t + 1)) :
    ∃ (t i : Nat), (w t).workers[i]? = some (.next k H) ∧ ∀ h, h < H → Q h t := by
  obtain ⟨t2, h2, hk2⟩ := r.taken hN hk
  obtain ⟨t1, i, h1, hw⟩ := r.taker hk2
  have : ∃ t, t1 + 1 ≤ t ∧ ((w t).workers[i]? = some (.next k H) ∧ ∀ h, h < H → Q h t) := by
    refine Fair.well1 (r.fair i) (P := fun t => ∃ h, ((w t).workers[i]? = some (.next k h) ∨ (w t).workers[i]? = some (.inside k h)) ∧ ∀ h', h' < h → Q h' t)
      (fun t => match (w t).workers[i]? with | some p => p.rank H | none => 0) ?_ (t1 + 1) ⟨0, Or.inl hw, by intro _ h; cases h⟩
    rintro t ⟨h, hp, hq⟩
    obtain ⟨g, f, _⟩ := r.good t
    have hnext : ∀ h', h' < h → Q h' (t + 1) := fun h' hl => hQ _ _ (hq h' hl)
    rcases hp with hp | hp
    · by_cases hH : h = H
      · subst hH; exact Or.inl ⟨hp, hq⟩
      · refine Or.inr ⟨busy_able f hp (Or.inl (by simp)), ?_⟩
        rcases r.worker i t with ⟨q1, q2⟩ | ⟨a, q1, q2, q3, q4⟩
        · exact Or.inr ⟨⟨h, Or.inl (by rw [q1]; exact hp), hnext⟩, Or.inr ⟨by rw [q1], q2⟩⟩
        · rcases own_step g f q2 q3 hp q4 with ⟨e, _⟩ | ⟨k', h', e, hh, e'⟩ | ⟨k', h', e, hh, e'⟩ | ⟨k', h', e, hh, e', _⟩
          · cases e
          · simp only [Pc.next.injEq] at e; obtain ⟨rfl, rfl⟩ := e
            refine Or.inr ⟨⟨h, Or.inr e', hnext⟩, Or.inl ?_⟩
            simp only [hp, e', Pc.rank]; omega
          · simp only [Pc.next.injEq] at e; obtain ⟨rfl, rfl⟩ := e
            exact absurd hh hH
          · cases e
    · refine Or.inr ⟨busy_able f hp (Or.inl (by simp)), ?_⟩
      rcases r.worker i t with ⟨q1, q2⟩ | ⟨a, q1, q2, q3, q4⟩
      · exact Or.inr ⟨⟨h, Or.inr (by rw [q1]; exact hp), hnext⟩, Or.inr ⟨by rw [q1], q2⟩⟩
      · rcases own_step g f q2 q3 hp q4 with ⟨e, _⟩ | ⟨k', h', e, hh, e'⟩ | ⟨k', h', e, hh, e'⟩ | ⟨k', h', e, hh, e', ea⟩
        · cases e
        · cases e
        · cases e
        · simp only [Pc.inside.injEq] at e; obtain ⟨rfl, rfl⟩ := e
          subst ea
          refine Or.inr ⟨⟨h + 1, Or.inl e', ?_⟩, Or.inl ?_⟩
          · intro h' hl
            by_cases he : h' = h
            · subst he; exact hret t i h' hp q1
            · exact hnext h' (by omega)
          · simp only [hp, e', Pc.rank]; omega
  obtain ⟨t, _, h3, h4⟩ := this
  exact ⟨t, i, h3, h4⟩

end Noise.Wk
