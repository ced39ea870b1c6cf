import Verif.Proofs.Worker
/-! # Workers: a message that its worker is done with went through every handler -/
namespace Noise.Wk
open Spec
variable {ε : Type}

theorem handledUpTo_length (w k n : Nat) : (handledUpTo (ε := ε) w k n).length = 1 + 2 * n := by
  induction n with
  | zero => rfl
  | succ n ih => rw [handledUpTo_succ, List.length_append, ih]; simp; omega

/-- Every message a worker took has been through all handlers, except its last one while it is busy with it or if a handler failed. -/
def DoneInv (H : Nat) (s : State ε) : Prop :=
  ∀ w k, .taken w k ∈ s.log → handlingOf k s.log = handledUpTo w k H ∨
    ((∀ k', .taken w k' ∈ s.log → k' ≤ k) ∧ ∃ p, s.workers[w]? = some p ∧ (p.item = some k ∨ p = .ended true))

/-- Events that take nothing, by a worker that stays with its item. -/
theorem DoneInv.move {H : Nat} {s : State ε} (d : DoneInv H s) {w : Nat} {p p' : Pc ε} {es : List (Event ε)}
    (hw : s.workers[w]? = some p) (htk : ∀ w k, .taken w k ∉ es)
    (hes : ∀ k w1, .taken w1 k ∈ s.log → handlingOf k s.log = handledUpTo w1 k H → handlingOf k es = [])
    (hp : (∀ k, p.item = some k → p'.item = some k ∨ p' = .ended true ∨ (∀ w1, .taken w1 k ∈ s.log → handlingOf k (s.log ++ es) = handledUpTo w1 k H)) ∧ (p = .ended true → p' = .ended true)) :
    DoneInv H (s.setWorker w p' es) := by
  have hmem : ∀ w1 k, (.taken w1 k : Event ε) ∈ s.log ++ es ↔ .taken w1 k ∈ s.log := by
    intro w1 k; simp [htk]
  intro w1 k hm
  simp only [State.setWorker, hmem] at hm ⊢
  rcases d w1 k hm with e | ⟨hmax, q, hq, hqk⟩
  · left; rw [handlingOf_append, hes k w1 hm e, List.append_nil]; exact e
  · by_cases hww : w = w1
    · subst hww
      have : q = p := by rw [hw] at hq; injection hq with hq; exact hq.symm
      subst this
      have hlt : w < s.workers.length := (List.getElem?_eq_some_iff.1 hw).1
      have hget : (s.workers.set w p')[w]? = some p' := List.getElem?_set_self hlt
      rcases hqk with hqk | hqk
      · rcases hp.1 k hqk with h | h | h
        · exact Or.inr ⟨hmax, p', hget, Or.inl h⟩
        · exact Or.inr ⟨hmax, p', hget, Or.inr h⟩
        · exact Or.inl (h w hm)
      · exact Or.inr ⟨hmax, p', hget, Or.inr (hp.2 hqk)⟩
    · right
      exact ⟨hmax, q, by rw [List.getElem?_set_ne hww]; exact hq, hqk⟩

theorem mem_taken_lt {N H : Nat} {s : State ε} (i : Inv N H s) {w k : Nat} (h : .taken w k ∈ s.log) : k < s.head := by
  have : k ∈ takenOf s.log := List.mem_filterMap.2 ⟨_, h, rfl⟩
  rw [i.taken] at this
  exact List.mem_range.1 this

theorem DoneInv.step {N H : Nat} {s s' : State ε} {a : Action ε} (i : Inv N H s) (d : DoneInv H s) (hs : step s a = some s') : DoneInv H s' := by
  have busy : ∀ w1 k w h tl, handlingOf k s.log = handledUpTo w k h ++ tl → (h < H ∧ tl.length < 2) → handlingOf k s.log ≠ handledUpTo w1 k H := by
    intro w1 k w h tl e hlt e'
    rw [e] at e'
    have := congrArg List.length e'
    rw [List.length_append, handledUpTo_length, handledUpTo_length] at this
    omega
  wk_cases a hs
  case enqueue it _ _ => exact d
  case closeQueue _ => exact d
  · rename_i w x hw hlt
    intro w1 k hm
    rcases List.mem_append.1 hm with hm | hm
    · have hk := mem_taken_lt i hm
      have hh : handlingOf k (s.log ++ [.taken w s.head]) = handlingOf k s.log := by
        rw [handlingOf_append]; simp [handlingOf, about]; omega
      rcases d w1 k hm with e | ⟨hmax, q, hq, hqk⟩
      · left; exact hh.trans e
      · have hne : w ≠ w1 := by
          rintro rfl
          rw [hw] at hq; injection hq with hq; subst hq
          rcases hqk with h | h <;> cases h
        right
        refine ⟨?_, q, by rw [show ({ s.setWorker w (.next s.head 0) [.taken w s.head] with head := s.head + 1 } : State ε).workers = s.workers.set w (.next s.head 0) from rfl, List.getElem?_set_ne hne]; exact hq, hqk⟩
        intro k' hm'
        rcases List.mem_append.1 hm' with hm' | hm'
        · exact hmax k' hm'
        · simp only [List.mem_singleton, Event.taken.injEq] at hm'
          exact absurd hm'.1.symm hne
    · simp only [List.mem_singleton, Event.taken.injEq] at hm
      obtain ⟨rfl, rfl⟩ := hm
      right
      refine ⟨?_, .next s.head 0, List.getElem?_set_self (List.getElem?_eq_some_iff.1 hw).1, Or.inl rfl⟩
      intro k' hm'
      rcases List.mem_append.1 hm' with hm' | hm'
      · exact Nat.le_of_lt (mem_taken_lt i hm')
      · simp only [List.mem_singleton, Event.taken.injEq] at hm'
        omega
  · rename_i w x hw _ _
    exact d.move hw (by simp) (by simp) ⟨by simp [Pc.item], by simp⟩
  · rename_i w x k h hw hlt
    obtain ⟨p1, p2, p3⟩ := i.pc w _ hw
    rw [i.nh] at hlt
    refine d.move hw (by simp) ?_ ⟨fun k' hk' => Or.inl hk', by simp⟩
    intro k' w1 _ e
    by_cases hk : k = k'
    · subst hk; exact absurd e (busy w1 k w h [] (by simpa using p3) ⟨hlt, by simp⟩)
    · simp [handlingOf, about, hk]
  · rename_i w x k h hw hge
    obtain ⟨p1, p2, p3⟩ := i.pc w _ hw
    rw [i.nh] at hge
    refine d.move hw (by simp) (by simp) ⟨?_, by simp⟩
    intro k' hk'
    simp only [Pc.item, Option.some.injEq] at hk'
    subst hk'
    refine Or.inr (Or.inr ?_)
    intro w1 hm1
    have : h = H := by omega
    subst this
    rw [List.append_nil, p3]
    have : (.taken w1 k : Event ε) ∈ handlingOf k s.log := List.mem_filter.2 ⟨hm1, by simp [about]⟩
    rw [p3] at this
    have : w1 = w := by simpa [handledUpTo] using this
    rw [this]
  · rename_i w x k e hw _ it hit
    exact d.move hw (by simp) (fun _ _ _ _ => rfl) ⟨fun k' hk' => Or.inl hk', by simp⟩
  · rename_i w x k hw _ it hit
    exact d.move hw (by simp) (fun _ _ _ _ => rfl) ⟨fun k' hk' => Or.inr (Or.inl rfl), by simp⟩
  · rename_i w x k h hw r
    obtain ⟨p1, p2, p3⟩ := i.pc w _ hw
    refine d.move hw (by simp) ?_ ⟨fun k' hk' => Or.inl hk', by simp⟩
    intro k' w1 _ e
    by_cases hk : k = k'
    · subst hk; exact absurd e (busy w1 k w h _ p3 ⟨p2, by simp⟩)
    · simp [handlingOf, about, hk]
  · rename_i w x k h hw r e
    obtain ⟨p1, p2, p3⟩ := i.pc w _ hw
    refine d.move hw (by simp) ?_ ⟨fun k' hk' => Or.inl hk', by simp⟩
    intro k' w1 _ e
    by_cases hk : k = k'
    · subst hk; exact absurd e (busy w1 k w h _ p3 ⟨p2, by simp⟩)
    · simp [handlingOf, about, hk]
  all_goals
    intro w1 k' hm
    simp only [List.mem_append, List.mem_singleton, reduceCtorEq, or_false] at hm
    rcases d w1 k' hm with e | ⟨hmax, q, hq, hqk⟩
    · left; simpa [handlingOf, about] using e
    · right; exact ⟨by simpa using hmax, q, hq, hqk⟩

theorem DoneInv.reach {N H : Nat} {s : State ε} (h : Reachable N H s) : DoneInv H s :=
  ReachFrom.ind (P := DoneInv H) (fun _ _ hm => by cases hm) (fun _ _ _ hr d hs => d.step (Inv.reach hr) hs) h

end Noise.Wk
