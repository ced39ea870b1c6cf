import Verif.Spec.Fair
import Verif.Proofs.TS
/-! # Rules for proving that something happens eventually -/
namespace Noise.Fair
open Spec

/-- The rule of well-founded progress. While the goal is not reached, some class of actions (`help`) is able to act; every step keeps `P`, and reaches the goal, decreases `μ`, or keeps
`μ` and `help` and is not an action of `help`. -/
theorem well {K : Type} {T able : K → Nat → Prop} (fair : ∀ k t, ∃ t', t ≤ t' ∧ (T k t' ∨ ¬ able k t')) {P G : Nat → Prop} (μ : Nat → Nat) (help : Nat → K)
    (h : ∀ t, P t → G t ∨ (able (help t) t ∧ (G (t + 1) ∨ (P (t + 1) ∧ (μ (t + 1) < μ t ∨ (μ (t + 1) = μ t ∧ help (t + 1) = help t ∧ ¬ T (help t) t)))))) :
    ∀ t, P t → ∃ t', t ≤ t' ∧ G t' := by
  have main : ∀ n t, μ t = n → P t → ∃ t', t ≤ t' ∧ G t' := by
    intro n
    induction n using Nat.strongRecOn with
    | _ n ih =>
      intro t hn hP
      obtain ⟨t1, h1, h2⟩ := fair (help t) t
      have key : ∀ d, (∃ t', t ≤ t' ∧ G t') ∨ (P (t + d) ∧ μ (t + d) = n ∧ help (t + d) = help t) := by
        intro d
        induction d with
        | zero => exact Or.inr ⟨hP, hn, rfl⟩
        | succ d ihd =>
          rcases ihd with g | ⟨p1, p2, p3⟩
          · exact Or.inl g
          · rcases h (t + d) p1 with g | ⟨_, g | ⟨q1, q2 | ⟨q2, q3, _⟩⟩⟩
            · exact Or.inl ⟨_, by omega, g⟩
            · exact Or.inl ⟨_, by omega, g⟩
            · obtain ⟨t', l, g⟩ := ih _ (p2 ▸ q2) (t + d + 1) rfl q1
              exact Or.inl ⟨t', by omega, g⟩
            · exact Or.inr ⟨q1, q2.trans p2, q3.trans p3⟩
      have e : t + (t1 - t) = t1 := by omega
      rcases key (t1 - t) with g | ⟨p1, p2, p3⟩
      · exact g
      · rw [e] at p1 p2 p3
        rcases h t1 p1 with g | ⟨ha, hg⟩
        · exact ⟨t1, h1, g⟩
        · rw [p3] at ha hg
          rcases h2 with h2 | h2
          · rcases hg with g | ⟨q1, q2 | ⟨_, _, q4⟩⟩
            · exact ⟨t1 + 1, by omega, g⟩
            · obtain ⟨t', l, g⟩ := ih _ (p2 ▸ q2) (t1 + 1) rfl q1
              exact ⟨t', by omega, g⟩
            · exact absurd h2 q4
          · exact absurd ha h2
  exact fun t hP => main _ t rfl hP

/-- The same with one class of actions. -/
theorem well1 {T able : Nat → Prop} (fair : ∀ t, ∃ t', t ≤ t' ∧ (T t' ∨ ¬ able t')) {P G : Nat → Prop} (μ : Nat → Nat)
    (h : ∀ t, P t → G t ∨ (able t ∧ (G (t + 1) ∨ (P (t + 1) ∧ (μ (t + 1) < μ t ∨ (μ (t + 1) = μ t ∧ ¬ T t)))))) :
    ∀ t, P t → ∃ t', t ≤ t' ∧ G t' := by
  refine well (K := Unit) (T := fun _ => T) (able := fun _ => able) (fun _ => fair) μ (fun _ => ()) ?_
  intro t hP
  rcases h t hP with g | ⟨h1, g | ⟨h2, h3 | ⟨h3, h4⟩⟩⟩
  · exact Or.inl g
  · exact Or.inr ⟨h1, Or.inl g⟩
  · exact Or.inr ⟨h1, Or.inr ⟨h2, Or.inl h3⟩⟩
  · exact Or.inr ⟨h1, Or.inr ⟨h2, Or.inr ⟨h3, rfl, h4⟩⟩⟩

/-- Repeated progress of a number up to a bound. -/
theorem climb {P : Nat → Prop} (ν : Nat → Nat) {p : Nat} (hP : ∀ t t', t ≤ t' → P t → P t') (h : ∀ t, P t → ν t ≤ p → ∃ t', t ≤ t' ∧ ν t < ν t') :
    ∀ t, P t → ∃ t', t ≤ t' ∧ p < ν t' := by
  have main : ∀ n t, p + 1 - ν t = n → P t → ∃ t', t ≤ t' ∧ p < ν t' := by
    intro n
    induction n using Nat.strongRecOn with
    | _ n ih =>
      intro t hn p1
      by_cases hlt : p < ν t
      · exact ⟨t, Nat.le_refl _, hlt⟩
      · obtain ⟨t', l, g⟩ := h t p1 (by omega)
        obtain ⟨t'', l', g'⟩ := ih (p + 1 - ν t') (by omega) t' rfl (hP t t' l p1)
        exact ⟨t'', by omega, g'⟩
  exact fun t p1 => main _ t rfl p1

variable {S A : Type} {step : S → A → Option S} {σ : Nat → S} {α : Nat → Option A}

/-- States of an execution are reachable. -/
theorem reach (h : Execution step σ α) (t : Nat) : ReachFrom step (σ 0) (σ t) := by
  induction t with
  | zero => exact .refl _
  | succ t ih =>
    rcases h t with ⟨_, e⟩ | ⟨a, _, e⟩
    · rw [e]; exact ih
    · exact ih.snoc e

/-- What steps preserve holds from then on. -/
theorem stays {P : Nat → Prop} (h : ∀ t, P t → P (t + 1)) {t t' : Nat} (hle : t ≤ t') (hP : P t) : P t' := by
  induction hle with
  | refl => exact hP
  | step _ ih => exact h _ ih

/-- The execution that does this list of actions and then nothing. -/
def play (step : S → A → Option S) (s : S) (as : List A) (t : Nat) : S := (runs step s (as.take t)).getD s

theorem play_exec {s s' : S} {as : List A} (h : runs step s as = some s') : Execution step (play step s as) (fun t => as[t]?) ∧ ∀ t, as.length ≤ t → play step s as t = s' := by
  refine ⟨?_, ?_⟩
  · intro t
    by_cases ht : t < as.length
    · right
      refine ⟨as[t], List.getElem?_eq_getElem ht, ?_⟩
      have e : as = as.take t ++ as[t] :: as.drop (t + 1) := by rw [List.getElem_cons_drop, List.take_append_drop]
      rw [e, runs_append] at h
      cases h1 : runs step s (as.take t) with
      | none => rw [h1] at h; cases h
      | some x =>
        rw [h1, Option.bind_some] at h
        have h2 : ∃ y, step x as[t] = some y := by
          cases h3 : step x as[t] with
          | none => simp [runs, h3] at h
          | some y => exact ⟨y, rfl⟩
        obtain ⟨y, h2⟩ := h2
        unfold play
        have h3 : runs step s (as.take (t + 1)) = some y := by
          rw [List.take_succ_eq_append_getElem ht, runs_append, h1, Option.bind_some]
          simp [runs, h2]
        rw [h1, h3]
        exact h2
    · left
      refine ⟨List.getElem?_eq_none (by omega), ?_⟩
      unfold play
      rw [List.take_of_length_le (by omega), List.take_of_length_le (by omega)]
  · intro t ht
    unfold play
    rw [List.take_of_length_le ht, h]; rfl

end Noise.Fair
