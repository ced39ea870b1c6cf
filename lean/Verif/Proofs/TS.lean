import Verif.Model.TS
import Mathlib.Data.List.Induction
/-! # Generic lemmas about runs -/
namespace Noise
variable {S A : Type} {step : S → A → Option S}

theorem runs_append (s : S) (as bs : List A) : runs step s (as ++ bs) = (runs step s as).bind (fun s' => runs step s' bs) := by
  induction as generalizing s with
  | nil => rfl
  | cons a as ih =>
    simp only [List.cons_append, runs]
    cases step s a with
    | none => rfl
    | some s' => exact ih s'

theorem runs_one {s s' : S} {a : A} (h : step s a = some s') : runs step s [a] = some s' := by simp [runs, h]

theorem runs_cons {s s' : S} {a : A} {as : List A} (h : runs step s (a :: as) = some s') : ∃ s1, step s a = some s1 ∧ runs step s1 as = some s' := by
  simp only [runs] at h
  cases hst : step s a with
  | none => rw [hst] at h; cases h
  | some s1 => rw [hst] at h; exact ⟨s1, rfl, h⟩

theorem runs_nil (s : S) : runs step s [] = some s := rfl

theorem runs_step {s s1 s2 : S} {a : A} {as : List A} (h : step s a = some s1) (h2 : runs step s1 as = some s2) : runs step s (a :: as) = some s2 := by
  simp only [runs, h]; exact h2

theorem runs_trans {s s1 s2 : S} {as bs : List A} (h1 : runs step s as = some s1) (h2 : runs step s1 bs = some s2) : runs step s (as ++ bs) = some s2 := by
  rw [runs_append, h1]; exact h2

/-- Invariants hold along runs. -/
theorem runs_inv {P : S → Prop} (hs : ∀ s a s', P s → step s a = some s' → P s') {s s' : S} {as : List A} (h : runs step s as = some s') (h0 : P s) : P s' := by
  induction as generalizing s with
  | nil => simp only [runs, Option.some.injEq] at h; exact h ▸ h0
  | cons a as ih =>
    obtain ⟨s1, h1, h2⟩ := runs_cons h
    exact ih h2 (hs _ _ _ h0 h1)

/-- Invariants hold along runs that use only some actions. -/
theorem runs_inv' {P : S → Prop} {Q : A → Prop} (hs : ∀ s a s', P s → Q a → step s a = some s' → P s') {s s' : S} {as : List A}
    (hq : ∀ a ∈ as, Q a) (h : runs step s as = some s') (h0 : P s) : P s' := by
  induction as generalizing s with
  | nil => simp only [runs, Option.some.injEq] at h; exact h ▸ h0
  | cons a as ih =>
    obtain ⟨s1, h1, h2⟩ := runs_cons h
    exact ih (fun b hb => hq b (List.mem_cons_of_mem _ hb)) h2 (hs _ _ _ h0 (hq a List.mem_cons_self) h1)

theorem ReachFrom.refl (s : S) : ReachFrom step s s := ⟨[], rfl⟩

theorem ReachFrom.trans {s s1 s2 : S} (h1 : ReachFrom step s s1) (h2 : ReachFrom step s1 s2) : ReachFrom step s s2 := by
  obtain ⟨as, h1⟩ := h1
  obtain ⟨bs, h2⟩ := h2
  exact ⟨as ++ bs, runs_trans h1 h2⟩

theorem ReachFrom.run {s s1 s2 : S} {as : List A} (h1 : ReachFrom step s s1) (h2 : runs step s1 as = some s2) : ReachFrom step s s2 := h1.trans ⟨as, h2⟩

theorem ReachFrom.snoc {s s1 s2 : S} {a : A} (h1 : ReachFrom step s s1) (h2 : step s1 a = some s2) : ReachFrom step s s2 := h1.trans ⟨[a], runs_one h2⟩

theorem ReachFrom.inv {P : S → Prop} (hs : ∀ s a s', P s → step s a = some s' → P s') {s s' : S} (h : ReachFrom step s s') (h0 : P s) : P s' := by
  obtain ⟨as, h⟩ := h
  exact runs_inv hs h h0

/-- Induction along a run from the end. -/
theorem ReachFrom.ind {P : S → Prop} {s0 : S} (h0 : P s0) (hs : ∀ s a s', ReachFrom step s0 s → P s → step s a = some s' → P s') {s : S} (h : ReachFrom step s0 s) : P s := by
  obtain ⟨as, h⟩ := h
  have : P s ∧ ReachFrom step s0 s :=
    runs_inv (P := fun x => P x ∧ ReachFrom step s0 x) (fun x a x' hx hst => ⟨hs x a x' hx.2 hx.1 hst, hx.2.snoc hst⟩) h ⟨h0, .refl _⟩
  exact this.1

end Noise
