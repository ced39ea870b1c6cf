import Verif.Proofs.NodeKeep
import Verif.Proofs.TS
/-! # The whole node: the listener stays closed -/
namespace Noise.Node
variable {ε : Type}

/-- What the accept goroutine leaves alone. -/
structure Stays (s s' : State ε) : Prop where
  accept : s'.accept ≠ .none
  open_ : s'.listenerOpen = s.listenerOpen
  closers : s'.closers = s.closers

theorem acceptStep_stays {cfg : Cfg ε} {s s' : State ε} (h : s.acceptStep cfg = some s') : s.accept ≠ .none ∧ Stays s s' := by
  have h0 : s.accept ≠ .none := fun hn => by simp [State.acceptStep, hn] at h
  refine ⟨h0, ?_⟩
  unfold State.acceptStep at h
  split at h
  · cases h; exact ⟨by simp, rfl, rfl⟩
  · exact get_pres (Q := fun s' => Stays s s') h ⟨h0, rfl, rfl⟩ (fun _ _ _ => ⟨⟨by simp, rfl, rfl⟩, ⟨by simp, rfl, rfl⟩, ⟨by simp, rfl, rfl⟩⟩)
  · rcases closeClient_some h with rfl | h
    · exact ⟨by simp, rfl, rfl⟩
    · exact ⟨by rw [(stepConn_same h).accept]; exact h0, (stepConn_same h).listenerOpen, (stepConn_same h).closers⟩
  · split at h
    · cases h; exact ⟨by simp, rfl, rfl⟩
    · cases h
  · split at h
    · cases h; exact ⟨by simp, rfl, rfl⟩
    · cases h
  · cases h; exact ⟨by simp, rfl, rfl⟩
  · rcases closeClient_some h with rfl | h
    · exact ⟨by simp, rfl, rfl⟩
    · exact ⟨by rw [(stepConn_same h).accept]; exact h0, (stepConn_same h).listenerOpen, (stepConn_same h).closers⟩
  · split at h
    · cases h; exact ⟨by simp, rfl, rfl⟩
    · cases h
  · split at h
    · next w hw =>
      cases hq : Wk.step w .closeQueue with
      | none => rw [hq] at h; cases h
      | some w' => rw [hq] at h; cases h; exact ⟨by simp, rfl, rfl⟩
    · cases h
  · split at h
    · split at h
      · cases h; exact ⟨by simp, rfl, rfl⟩
      · cases h
    · cases h
  · cases h; exact ⟨by simp, rfl, rfl⟩
  · cases h; exact ⟨by simp, rfl, rfl⟩
  · cases h

/-- Only a node whose accept goroutine has been started listens. -/
theorem listening_started {cfg : Cfg ε} {s : State ε} (h : Reachable cfg s) : s.accept = .none → s.listening = false := by
  refine h.inv (P := fun s => s.accept = .none → s.listening = false) (fun s a s' hi h => ?_) (fun _ => rfl)
  by_cases hot : a.other = true
  · rw [(step_keeps hot h).accept, (step_keeps hot h).listening]; exact hi
  unfold Node.step at h
  split at h
  · cases h
  cases a with
  | listen => simp only at h; split at h <;> cases h; simp
  | acceptConn a => simp only at h; split at h <;> cases h; simp
  | acceptFail => simp only at h; split at h <;> cases h; simp
  | acceptStep => exact fun hn => absurd hn (acceptStep_stays h).2.accept
  | acceptRelease l => simp only at h; split at h <;> [split at h; cases h] <;> cases h; simp
  | close => simp only at h; split at h <;> cases h <;> [simp; exact hi]
  | closeListener c => simp only at h; split at h <;> cases h; exact hi
  | closeRecv c =>
    simp only at h
    split at h
    · split at h
      · cases h; exact hi
      · split at h <;> cases h; exact hi
    · cases h
  | _ => simp [Action.other] at hot

/-- The listener has been started, and call `c` of `Close` has yet to close it, or it is closed. -/
def Stops (c : Nat) (s : State ε) : Prop := s.accept ≠ .none ∧ c < s.closers.length ∧ (s.closers[c]? = some .closing ∨ s.listenerOpen = false)

theorem Stops.step {cfg : Cfg ε} {c : Nat} {s s' : State ε} {a : Action ε} (hi : Stops c s) (h : step cfg s a = some s') : Stops c s' := by
  by_cases hot : a.other = true
  · unfold Stops; rw [(step_keeps hot h).accept, (step_keeps hot h).closers, (step_keeps hot h).listenerOpen]; exact hi
  unfold Node.step at h
  split at h
  · cases h
  obtain ⟨h1, h2, h3⟩ := hi
  cases a with
  | listen => simp only at h; cases h
  | acceptConn a => simp only at h; split at h <;> cases h; exact ⟨by simp, h2, h3⟩
  | acceptFail => simp only at h; split at h <;> cases h; exact ⟨by simp, h2, h3⟩
  | acceptStep =>
    obtain ⟨-, k1, k2, k3⟩ := acceptStep_stays h
    exact ⟨k1, by rw [k3]; exact h2, by rw [k2, k3]; exact h3⟩
  | acceptRelease l =>
    simp only at h
    split at h
    · split at h
      · cases h
        have := drops_same l s
        exact ⟨by simp, by simpa [State.setPool, this.closers] using h2, by simpa [State.setPool, this.closers, this.listenerOpen] using h3⟩
      · cases h
    · cases h
  | close =>
    simp only at h
    split at h <;> cases h <;> exact ⟨h1, by simp; omega, by simpa [List.getElem?_append_left h2] using h3⟩
  | closeListener d =>
    simp only at h; split at h <;> cases h; exact ⟨h1, by simpa using h2, .inr rfl⟩
  | closeRecv d =>
    simp only at h
    split at h
    · next hd =>
      have h3' : ∀ x, (s.closers.set d x)[c]? = some .closing ∨ s.listenerOpen = false := fun x => by
        rcases h3 with h3 | h3
        · by_cases hdc : d = c
          · subst hdc; rw [hd] at h3; cases h3
          · left; rw [List.getElem?_set_ne hdc]; exact h3
        · exact .inr h3
      split at h
      · cases h; exact ⟨h1, by simpa using h2, h3' _⟩
      · split at h <;> cases h; exact ⟨h1, by simpa using h2, h3' _⟩
    · cases h
  | _ => simp [Action.other] at hot

/-- A closed listener stays closed. -/
theorem closed_step {cfg : Cfg ε} {s s' : State ε} {a : Action ε} (h1 : s.accept ≠ .none) (h2 : s.listenerOpen = false) (h : step cfg s a = some s') : s'.accept ≠ .none ∧ s'.listenerOpen = false := by
  by_cases hot : a.other = true
  · rw [(step_keeps hot h).accept, (step_keeps hot h).listenerOpen]; exact ⟨h1, h2⟩
  unfold Node.step at h
  split at h
  · cases h
  cases a with
  | listen => simp only at h; cases h
  | acceptConn a => simp only at h; split at h <;> cases h; exact ⟨by simp, h2⟩
  | acceptFail => simp only at h; split at h <;> cases h; exact ⟨by simp, h2⟩
  | acceptStep =>
    obtain ⟨-, k1, k2, k3⟩ := acceptStep_stays h
    exact ⟨k1, by rw [k2]; exact h2⟩
  | acceptRelease l =>
    simp only at h
    split at h
    · split at h
      · cases h
        exact ⟨by simp, by simpa [State.setPool, (drops_same l s).listenerOpen] using h2⟩
      · cases h
    · cases h
  | close => simp only at h; split at h <;> cases h <;> exact ⟨h1, h2⟩
  | closeListener d => simp only at h; split at h <;> cases h; exact ⟨h1, rfl⟩
  | closeRecv d =>
    simp only at h
    split at h
    · split at h
      · cases h; exact ⟨h1, h2⟩
      · split at h <;> cases h; exact ⟨h1, h2⟩
    · cases h
  | _ => simp [Action.other] at hot

end Noise.Node
