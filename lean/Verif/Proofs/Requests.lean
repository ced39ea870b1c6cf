import Verif.Spec.Requests
import Mathlib.Tactic.SplitIfs
/-! # Lemmas about the request table -/
namespace Noise
open Spec

theorem outstanding_nil (n : UInt64) : ¬ Outstanding [] n := by
  rintro ⟨pre, post, h, _⟩
  simp at h

/-- Appending one observation. -/
theorem outstanding_snoc (h : List ReqObs) (o : ReqObs) (n : UInt64) :
    Outstanding (h ++ [o]) n ↔ o = .issued n ∨ (Outstanding h n ∧ o ≠ .resolved n ∧ o ≠ .closedAll) := by
  constructor
  · rintro ⟨pre, post, e, h1, h2⟩
    rcases List.eq_nil_or_concat post with rfl | ⟨post', x, rfl⟩
    · left
      have := congrArg List.getLast? e
      simp at this
      exact this
    · right
      have e' : h ++ [o] = (pre ++ .issued n :: post') ++ [x] := by rw [e]; simp
      obtain ⟨e1, e2⟩ := List.append_inj' e' rfl
      injection e2 with e2
      subst e2
      simp at h1 h2
      exact ⟨⟨pre, post', e1, h1.1, h2.1⟩, fun e => h1.2 e.symm, fun e => h2.2 e.symm⟩
  · rintro (rfl | ⟨⟨pre, post, e, h1, h2⟩, h3, h4⟩)
    · exact ⟨h, [], rfl, by simp, by simp⟩
    · exact ⟨pre, post ++ [o], by rw [e]; simp, by simp [h1, Ne.symm h3], by simp [h2, Ne.symm h4]⟩

/-- The table agrees with the observed history. -/
def ReqInv (r : RequestMap) (h : List ReqObs) : Prop :=
  ∀ n, (r.entries n).isSome ↔ Outstanding h n

theorem ReqInv.exec {r : RequestMap} {h : List ReqObs} (H : ReqInv r h) (k : Nat) (op : ReqOp) :
    ReqInv (r.exec k op).1 (h ++ [(r.exec k op).2]) := by
  intro n
  rw [outstanding_snoc, ← H n]
  cases op with
  | register =>
    unfold RequestMap.exec RequestMap.nextNonce
    cases hc : r.entries r.candidate with
    | some x => simp [hc]
    | none =>
      simp only [hc]
      by_cases hn : n = r.candidate
      · subst hn; simp
      · simp [hn, Ne.symm hn]
  | find m =>
    cases hc : r.entries m with
    | some x =>
      simp only [RequestMap.exec, RequestMap.findRequest, hc]
      by_cases hn : n = m
      · subst hn; simp
      · simp [hn, Ne.symm hn]
    | none => simp [RequestMap.exec, RequestMap.findRequest, hc]
  | fail m =>
    cases hc : r.entries m with
    | some x =>
      simp only [RequestMap.exec, RequestMap.markRequestFailed, hc]
      by_cases hn : n = m
      · subst hn; simp
      · simp [hn, Ne.symm hn]
    | none => simp [RequestMap.exec, RequestMap.markRequestFailed, hc]
  | closeAll => simp [RequestMap.exec, RequestMap.close]

theorem ReqInv.run {r : RequestMap} {h : List ReqObs} (H : ReqInv r h) (k : Nat) (ops : List ReqOp) :
    ReqInv (r.run k ops).1 (h ++ (r.run k ops).2) := by
  induction ops generalizing r h k with
  | nil => simpa [RequestMap.run] using H
  | cons op ops ih =>
    have := ih (H.exec k op) (k + 1)
    simpa [RequestMap.run] using this

theorem ReqInv.new : ReqInv .new [] := by
  intro n
  simp [RequestMap.new, outstanding_nil]

theorem candidate_ne_zero (r : RequestMap) : r.candidate ≠ 0 := by
  unfold RequestMap.candidate
  intro h
  simp only at h
  have := congrArg UInt64.toNat h
  split_ifs at this with hx
  · simp at this
  · rw [UInt64.toNat_add] at this
    have h1 : r.nonce.toNat ≠ 18446744073709551615 := fun e => hx (UInt64.toNat_inj.1 (by simpa using e))
    have h2 := r.nonce.toNat_lt
    simp at this h2
    omega

/-- Before the counter has wrapped. -/
structure ReqEarly (r : RequestMap) (j : Nat) : Prop where
  nonce : r.nonce.toNat = j
  free : ∀ n : UInt64, j < n.toNat → r.entries n = none

theorem candidate_early {r : RequestMap} {j : Nat} (H : ReqEarly r j) (hj : j < 2 ^ 64 - 1) : r.candidate.toNat = j + 1 := by
  unfold RequestMap.candidate
  have : r.nonce ≠ 18446744073709551615 := by
    intro e
    have := H.nonce
    rw [e] at this
    simp at this
    omega
  simp only [this, if_false]
  rw [UInt64.toNat_add, H.nonce]
  simp
  omega

theorem ReqEarly.exec {r : RequestMap} {j : Nat} (H : ReqEarly r j) (k : Nat) (op : ReqOp) (hj : j < 2 ^ 64 - 1) :
    match op with
    | .register => (r.exec k op).2 = .issued (UInt64.ofNat (j + 1)) ∧ ReqEarly (r.exec k op).1 (j + 1)
    | _ => ReqEarly (r.exec k op).1 j ∧ attempts [(r.exec k op).2] = 0 := by
  cases op with
  | register =>
    have hc := candidate_early H hj
    have hf : r.entries r.candidate = none := H.free _ (by omega)
    have he : r.candidate = UInt64.ofNat (j + 1) := by
      rw [← UInt64.toNat_inj, hc]; simp; omega
    simp only [RequestMap.exec, RequestMap.nextNonce, hf]
    refine ⟨by rw [he], hc, ?_⟩
    intro n hn
    have : n ≠ r.candidate := by rintro rfl; omega
    simp only [this, if_false]
    exact H.free n (by omega)
  | find m =>
    cases hc : r.entries m with
    | some x =>
      simp only [RequestMap.exec, RequestMap.findRequest, hc]
      refine ⟨⟨H.nonce, ?_⟩, by simp [attempts]⟩
      intro n hn
      simp only
      split_ifs
      · rfl
      · exact H.free n hn
    | none => simp only [RequestMap.exec, RequestMap.findRequest, hc]; exact ⟨H, by simp [attempts]⟩
  | fail m =>
    cases hc : r.entries m with
    | some x =>
      simp only [RequestMap.exec, RequestMap.markRequestFailed, hc]
      refine ⟨⟨H.nonce, ?_⟩, by simp [attempts]⟩
      intro n hn
      simp only
      split_ifs
      · rfl
      · exact H.free n hn
    | none => simp only [RequestMap.exec, RequestMap.markRequestFailed, hc]; exact ⟨H, by simp [attempts]⟩
  | closeAll => exact ⟨⟨H.nonce, fun _ _ => rfl⟩, by simp [attempts, RequestMap.exec]⟩

theorem attempts_cons (o : ReqObs) (os : List ReqObs) : attempts (o :: os) = attempts [o] + attempts os := by
  unfold attempts
  simp only [List.countP_cons, List.countP_nil]
  omega

theorem attempts_append (a b : List ReqObs) : attempts (a ++ b) = attempts a + attempts b := by
  unfold attempts; simp

theorem ReqEarly.run {r : RequestMap} {j : Nat} (H : ReqEarly r j) (k : Nat) (ops : List ReqOp)
    (hj : j + attempts (r.run k ops).2 ≤ 2 ^ 64 - 1) : ReqEarly (r.run k ops).1 (j + attempts (r.run k ops).2) := by
  induction ops generalizing r j k with
  | nil => simpa [RequestMap.run, attempts] using H
  | cons op ops ih =>
    have hrun : r.run k (op :: ops) = (((r.exec k op).1.run (k + 1) ops).1, (r.exec k op).2 :: ((r.exec k op).1.run (k + 1) ops).2) := rfl
    rw [hrun] at hj ⊢
    simp only at hj ⊢
    rw [attempts_cons] at hj ⊢
    by_cases hop : op = .register
    · subst hop
      have hatt : attempts [(r.exec k .register).2] = 1 := by
        cases hc : r.entries r.candidate <;> simp [attempts, RequestMap.exec, RequestMap.nextNonce, hc]
      rw [hatt] at hj ⊢
      have := (H.exec k .register (by omega)).2
      have := ih this (k + 1) (by omega)
      rw [Nat.add_assoc] at this
      exact this
    · by_cases hlt : j < 2 ^ 64 - 1
      · have hx := H.exec k op hlt
        cases op with
        | register => exact absurd rfl hop
        | _ =>
          simp only at hx
          rw [hx.2, Nat.zero_add] at hj ⊢
          exact ih hx.1 (k + 1) hj
      · have hj0 : j = 2 ^ 64 - 1 := by omega
        have hx : ReqEarly (r.exec k op).1 j ∧ attempts [(r.exec k op).2] = 0 := by
          refine ⟨?_, by omega⟩
          refine ⟨?_, ?_⟩
          · cases op with
            | register => exact absurd rfl hop
            | find m => cases hc : r.entries m <;> simp only [RequestMap.exec, RequestMap.findRequest, hc] <;> exact H.nonce
            | fail m => cases hc : r.entries m <;> simp only [RequestMap.exec, RequestMap.markRequestFailed, hc] <;> exact H.nonce
            | closeAll => exact H.nonce
          · intro n hn
            have := n.toNat_lt
            omega
        rw [hx.2, Nat.zero_add] at hj ⊢
        exact ih hx.1 (k + 1) hj

end Noise
