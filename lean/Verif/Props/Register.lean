import Verif.Model.Register
import Verif.Proofs.TS
/-! # C93: registrations from several goroutines -/
namespace Noise
namespace Register
variable {α : Type}

/-- The values stored by a run, in the order of the stores: `arg` of every call whose `store` is in it. -/
def stored (s : State α) : List (Action α) → List α
  | [] => []
  | a :: as => match step s a with
    | none => []
    | some s' => (match a with
      | .store i => ((s.calls[i]?).map Call.arg).getD []
      | _ => []) ++ stored s' as

/-- No call reads the slice while another one is between reading and storing it. -/
def Separate (s : State α) : List (Action α) → Prop
  | [] => True
  | a :: as => match step s a with
    | none => True
    | some s' => (match a with
      | .read _ => ∀ c ∈ s.calls, ∀ old, c.pc ≠ .read old
      | _ => True) ∧ Separate s' as

/-- Whoever is between reading and storing has read the current slice. -/
def Fresh (s : State α) : Prop := ∀ (i j : Nat) (c d : Call α) (x y : List α), s.calls[i]? = some c → s.calls[j]? = some d → c.pc = .read x → d.pc = .read y → i = j ∧ x = s.list

theorem fresh_set {s : State α} (h : Fresh s) {i : Nat} {c : Call α} (_hc : s.calls[i]? = some c) {pc : Pc α} (hpc : ∀ x, pc ≠ .read x) : Fresh (s.setPc i c pc) := by
  intro j k d e x y hj hk hx hy
  have key : ∀ {j : Nat} {d : Call α} {x : List α}, (s.calls.set i { c with pc := pc })[j]? = some d → d.pc = .read x → s.calls[j]? = some d := by
    intro j d x hj hx
    by_cases e : i = j
    · subst e
      rw [List.getElem?_set] at hj
      simp only [if_true] at hj
      split at hj
      · injection hj with hj; subst hj; exact absurd hx (hpc x)
      · cases hj
    · rwa [List.getElem?_set_ne e] at hj
  exact h j k d e x y (key hj hx) (key hk hy) hx hy

end Register
open Register

/-- **C93, partial.** If no two calls of `Bind` (or `Handle`) overlap between reading and storing, what is registered is exactly what the calls stored, in order. Missing: overlapping calls, see `C93_concurrent_registration_refuted`. -/
theorem C93_registration_partial {α : Type} (as : List (Action α)) (s : State α) (hr : runs step (State.new α) as = some s) (hsep : Separate (State.new α) as) : s.list = stored (State.new α) as := by
  have key : ∀ (as : List (Action α)) (s0 s : State α), Fresh s0 → runs step s0 as = some s → Separate s0 as → s.list = s0.list ++ stored s0 as := by
    intro as
    induction as with
    | nil => intro s0 s _ hr _; cases hr; simp [stored]
    | cons a as ih =>
      intro s0 s hf hr hsep
      obtain ⟨s1, h1, h2⟩ := runs_cons hr
      simp only [Separate, h1] at hsep
      simp only [stored, h1]
      have fin : Fresh s1 → s1.list = s0.list ++ (match a with
          | .store i => ((s0.calls[i]?).map Call.arg).getD []
          | _ => []) → s.list = s0.list ++ ((match a with
          | .store i => ((s0.calls[i]?).map Call.arg).getD []
          | _ => []) ++ stored s1 as) := by
        intro h3 h4
        rw [ih s1 s h3 h2 hsep.2, h4, List.append_assoc]
      cases a with
      | call arg =>
        cases h1
        refine fin ?_ (by simp)
        intro i j c d x y hi hj hx hy
        have key : ∀ {j : Nat} {d : Call α} {x : List α}, (s0.calls ++ [⟨arg, Pc.start⟩])[j]? = some d → d.pc = .read x → s0.calls[j]? = some d := by
          intro j d x hj hx
          by_cases e : j < s0.calls.length
          · rwa [List.getElem?_append_left e] at hj
          · rw [List.getElem?_append_right (by omega)] at hj
            have := List.mem_of_getElem? hj
            simp only [List.mem_singleton] at this
            subst this; cases hx
        exact hf i j c d x y (key hi hx) (key hj hy) hx hy
      | check i =>
        simp only [step] at h1
        split at h1
        · rename_i c hc
          split at h1
          · cases h1
            refine fin (fresh_set hf hc ?_) (by simp [State.setPc])
            intro x; split <;> simp
          · cases h1
        · cases h1
      | read i =>
        simp only [step] at h1
        split at h1
        · rename_i c hc
          split at h1
          · cases h1
            refine fin ?_ (by simp [State.setPc])
            have hnone := hsep.1
            have key : ∀ {j : Nat} {d : Call α} {x : List α}, (s0.calls.set i { c with pc := .read s0.list })[j]? = some d → d.pc = .read x → i = j ∧ x = s0.list := by
              intro j d x hj hx
              by_cases e : i = j
              · subst e
                rw [List.getElem?_set_self (List.getElem?_eq_some_iff.1 hc).1] at hj
                injection hj with hj; subst hj
                injection hx with hx; exact ⟨rfl, hx.symm⟩
              · rw [List.getElem?_set_ne e] at hj
                exact absurd hx (hnone d (List.mem_of_getElem? hj) x)
            intro j k d e x y hj hk hx hy
            have h1 := key hj hx
            have h2 := key hk hy
            exact ⟨h1.1.symm.trans h2.1, h1.2⟩
          · cases h1
        · cases h1
      | store i =>
        simp only [step] at h1
        split at h1
        · rename_i c hc
          split at h1
          · rename_i old hold
            cases h1
            have hold' := (hf i i c c old old hc hc hold hold).2
            refine fin ?_ (by simp [hc, hold'])
            intro j k d e x y hj hk hx hy
            have key : ∀ {j : Nat} {d : Call α} {x : List α}, (s0.calls.set i { c with pc := .done })[j]? = some d → d.pc = .read x → False := by
              intro j d x hj hx
              by_cases e : i = j
              · subst e
                rw [List.getElem?_set_self (List.getElem?_eq_some_iff.1 hc).1] at hj
                injection hj with hj; subst hj; cases hx
              · rw [List.getElem?_set_ne e] at hj
                exact e (hf i j c d old x hc hj hold hx).1
            exact (key hj hx).elim
          · cases h1
        · cases h1
      | listen => cases h1; exact fin hf (by simp)
  have := key as (State.new α) s (by intro i j c d x y hi; simp [State.new] at hi) hr hsep
  simpa [State.new] using this

/-- **C93, refuted**, for any values: of two overlapping calls of `Bind` (or `Handle`) on a node that is not listening, only one has an effect although both have returned. -/
theorem C93_concurrent_registration_refuted {α : Type} (a b : α) : ∃ s, ReachFrom step (State.new α) s ∧ s.listening = false ∧ s.calls = [⟨[a], .done⟩, ⟨[b], .done⟩] ∧ s.list = [b] :=
  ⟨_, ⟨[.call [a], .call [b], .check 0, .check 1, .read 0, .read 1, .store 0, .store 1], rfl⟩, rfl, rfl, rfl⟩

/-- **C93, what holds: once the node listens, nothing more is registered** (missing: calls that overlap). If the node begins to listen while no call of `Bind` or `Handle` is under way past its check, the values registered stay what they are,
whatever is called afterwards and in whatever order. -/
theorem C93_closed_partial {α : Type} (s s' : State α) (as : List (Action α)) (hq : ∀ c ∈ s.calls, c.pc = .start ∨ c.pc = .done) (hr : runs step s (.listen :: as) = some s') : s'.list = s.list := by
  obtain ⟨s1, h1, h2⟩ := runs_cons hr
  have key := runs_inv (P := fun t : State α => t.listening = true ∧ t.list = s.list ∧ ∀ c ∈ t.calls, c.pc = .start ∨ c.pc = .done) ?_ h2 ?_
  · exact key.2.1
  · rintro t a t' ⟨i1, i2, i3⟩ hs
    have set : ∀ (i : Nat) (c : Call α), c ∈ t.calls → ∀ c' ∈ t.calls.set i { c with pc := .done }, c'.pc = .start ∨ c'.pc = .done := by
      intro i c hc c' hm
      rcases List.mem_or_eq_of_mem_set hm with h | rfl
      · exact i3 c' h
      · exact .inr rfl
    cases a with
    | call arg =>
      cases hs
      refine ⟨i1, i2, fun c hc => ?_⟩
      simp only [List.mem_append, List.mem_singleton] at hc
      rcases hc with hc | rfl
      · exact i3 c hc
      · exact .inl rfl
    | check i =>
      simp only [step] at hs
      split at hs
      · next c hc =>
        split at hs
        · rw [if_pos i1] at hs; cases hs; exact ⟨i1, i2, set i c (List.mem_of_getElem? hc)⟩
        · cases hs
      · cases hs
    | read i =>
      simp only [step] at hs
      split at hs
      · next c hc =>
        rcases i3 c (List.mem_of_getElem? hc) with e | e <;> rw [e] at hs <;> cases hs
      · cases hs
    | store i =>
      simp only [step] at hs
      split at hs
      · next c hc =>
        rcases i3 c (List.mem_of_getElem? hc) with e | e <;> rw [e] at hs <;> cases hs
      · cases hs
    | listen => cases hs; exact ⟨rfl, i2, i3⟩
  · cases h1; exact ⟨rfl, rfl, hq⟩

/-- A handler that is registered, and one that comes too late. -/
example : ∃ s s' : State Nat, runs step (State.new Nat) [.call [1], .check 0, .read 0, .store 0] = some s ∧ (∀ c ∈ s.calls, c.pc = .start ∨ c.pc = .done) ∧
    runs step s [.listen, .call [2], .check 1] = some s' ∧ s'.list = [1] ∧ s'.calls = [⟨[1], .done⟩, ⟨[2], .done⟩] := ⟨_, _, rfl, by simp [State.new, State.setPc], rfl, rfl, rfl⟩

/-- Two calls that do not overlap meet the hypotheses of `C93_registration_partial`. -/
example : let as : List (Action Nat) := [.call [1, 2], .call [3], .check 1, .check 0, .read 1, .store 1, .read 0, .store 0]
    (runs step (State.new Nat) as).map State.list = some [3, 1, 2] ∧ Separate (State.new Nat) as := by
  refine ⟨rfl, ?_⟩
  simp [Separate, step, State.new, State.setPc]

end Noise
