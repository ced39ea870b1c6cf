/-! # Specification vocabulary: infinite executions and fairness -/
namespace Noise.Spec
variable {S A : Type}

/-- An infinite execution of a transition system: `σ t` is the state at time `t`, `α t` is what happens at time `t`; `none`: nothing (so that finite executions are included). -/
def Execution (step : S → A → Option S) (σ : Nat → S) (α : Nat → Option A) : Prop :=
  ∀ t, (α t = none ∧ σ (t + 1) = σ t) ∨ ∃ a, α t = some a ∧ step (σ t) a = some (σ (t + 1))

/-- One of these actions is possible. -/
def Able (step : S → A → Option S) (C : A → Prop) (s : S) : Prop := ∃ a, C a ∧ (step s a).isSome = true

/-- At time `t` one of these actions is taken. -/
def Takes (α : Nat → Option A) (C : A → Prop) (t : Nat) : Prop := ∃ a, α t = some a ∧ C a

/-- Weak fairness: it is not the case that, from some time on, `able` always holds and yet none of the actions is ever taken. A goroutine that stays able to run runs. -/
def WeaklyFair (σ : Nat → S) (α : Nat → Option A) (able : S → Prop) (C : A → Prop) : Prop :=
  ∀ t, ∃ t', t ≤ t' ∧ (Takes α C t' ∨ ¬ able (σ t'))

/-- Strong fairness: if `able` holds again and again, one of the actions is taken again and again. Go serves the goroutines that wait for a channel in the order of their arrival. -/
def StronglyFair (σ : Nat → S) (α : Nat → Option A) (able : S → Prop) (C : A → Prop) : Prop :=
  (∀ t, ∃ t', t ≤ t' ∧ able (σ t')) → ∀ t, ∃ t', t ≤ t' ∧ Takes α C t'

end Noise.Spec
