import Verif.Model.Idle
import Verif.Proofs.TS
/-! # Property C83: the idle timeout -/
namespace Noise
open Idle

/-! ## Invariant -/

/-- Every time in the log has come, and deadlines lie `timeout` after the last event of their loop. -/
structure IdleInv (T : Nat) (s : Idle.State) : Prop where
  tmo : s.timeout = T
  past : ∀ t e, (t, e) ∈ s.log → t ≤ s.now
  rd : ∀ d, s.reader = .reading d → (∀ t m, (t, .received m) ∈ s.log → t + T ≤ d) ∧ d ≤ s.now + T
  wa : ∀ d, s.writer = .waiting d → (∀ t b, (t, .flushed b) ∈ s.log → t + T ≤ d) ∧ d ≤ s.now + T
  wr : ∀ d b, s.writer = .writing d b → (∀ t b, (t, .flushed b) ∈ s.log → t + T ≤ d) ∧ d ≤ s.now + T
  rto : ∀ t, (t, .readTimeout) ∈ s.log → T ≠ 0 ∧ s.reader = .ended ∧ ∀ t' m, (t', .received m) ∈ s.log → t' + T ≤ t
  wto : ∀ t b, (t, .writeTimeout b) ∈ s.log → T ≠ 0 ∧ s.writer = .ended ∧ ∀ t' b', (t', .flushed b') ∈ s.log → t' + T ≤ t

theorem IdleInv.reach {T : Nat} {s : Idle.State} (h : Idle.Reachable T s) : IdleInv T s := by
  refine ReachFrom.inv (P := IdleInv T) ?_ h ?_
  · rintro s a s' ⟨h1, h2, h3, h4, h5, h6, h7⟩ hs
    cases a <;> simp only [Idle.step, State.expired, decide_eq_true_eq] at hs <;> (repeat' split at hs) <;> (try (cases hs; done)) <;> injection hs with hs <;> subst hs <;>
      constructor <;> grind
  · constructor <;> simp [Idle.State.new]

/-! ## C83 -/

/-- The writer sends one message per time unit, for `n` units. -/
def chatter (m : Message) : Nat → List Idle.Action
  | 0 => []
  | n + 1 => chatter m n ++ [.tick, .send m, .take, .flush, .setWrite]

/-- One message arrives per time unit, for `n` units. -/
def listen (m : Message) : Nat → List Idle.Action
  | 0 => []
  | n + 1 => listen m n ++ [.tick, .recv m, .handled, .setRead]

theorem chatter_run (T : Nat) (hT : 2 ≤ T) (m : Message) (n : Nat) : ∃ s, runs Idle.step (.new T) ([.setWrite, .setRead] ++ chatter m n) = some s ∧ s.timeout = T ∧ s.now = n ∧
    s.writer = .waiting (n + T) ∧ s.reader = .reading T ∧ s.buf = [] ∧ ∀ t, 1 ≤ t → t ≤ n → (t, .flushed [m]) ∈ s.log := by
  induction n with
  | zero => exact ⟨_, rfl, rfl, rfl, by simp [Idle.State.new], by simp [Idle.State.new], rfl, by intro t _ _; omega⟩
  | succ n ih =>
    obtain ⟨s, h1, h2, h3, h4, h5, h6, h7⟩ := ih
    have hne : ¬ (n + T ≤ n + 1) := by omega
    have hT0 : T ≠ 0 := by omega
    refine ⟨⟨T, n + 1, .reading T, .waiting (n + 1 + T), [], s.log ++ [(n + 1, .flushed [m])]⟩, ?_, rfl, rfl, rfl, rfl, rfl, ?_⟩
    · rw [chatter, ← List.append_assoc, runs_append, h1]
      obtain ⟨tmo, now, rd, wr, buf, log⟩ := s
      simp only at h2 h3 h4 h5 h6
      subst h2 h3 h4 h5 h6
      simp [runs, Idle.step, State.expired, hne]
    · intro t ht1 ht2
      rcases Nat.lt_or_ge n t with h | h
      · have : t = n + 1 := by omega
        subst this; simp
      · exact List.mem_append_left _ (h7 t ht1 h)

theorem listen_run (T : Nat) (hT : 2 ≤ T) (m : Message) (n : Nat) : ∃ s, runs Idle.step (.new T) ([.setWrite, .setRead] ++ listen m n) = some s ∧ s.timeout = T ∧ s.now = n ∧
    s.writer = .waiting T ∧ s.reader = .reading (n + T) ∧ s.buf = [] ∧ ∀ t, 1 ≤ t → t ≤ n → (t, .received m) ∈ s.log := by
  induction n with
  | zero => exact ⟨_, rfl, rfl, rfl, by simp [Idle.State.new], by simp [Idle.State.new], rfl, by intro t _ _; omega⟩
  | succ n ih =>
    obtain ⟨s, h1, h2, h3, h4, h5, h6, h7⟩ := ih
    refine ⟨⟨T, n + 1, .reading (n + 1 + T), .waiting T, [], s.log ++ [(n + 1, .received m)]⟩, ?_, rfl, rfl, rfl, rfl, rfl, ?_⟩
    · rw [listen, ← List.append_assoc, runs_append, h1]
      obtain ⟨tmo, now, rd, wr, buf, log⟩ := s
      simp only at h2 h3 h4 h5 h6
      subst h2 h3 h4 h5 h6
      simp [runs, Idle.step]
    · intro t ht1 ht2
      rcases Nat.lt_or_ge n t with h | h
      · have : t = n + 1 := by omega
        subst this; simp
      · exact List.mem_append_left _ (h7 t ht1 h)

/-- C83 is false: whatever the timeout, a connection over which a message is sent in every time unit is timed out, because nothing was received. -/
theorem C83_one_way_refuted (T : Nat) (hT : 2 ≤ T) (m : Message) : ∃ s, Idle.Reachable T s ∧ (T, .readTimeout) ∈ s.log ∧ ∀ t, 1 ≤ t → t ≤ T → (t, .flushed [m]) ∈ s.log := by
  obtain ⟨s, h1, h2, h3, h4, h5, h6, h7⟩ := chatter_run T hT m T
  refine ⟨{ s with reader := .ended, log := s.log ++ [(s.now, .readTimeout)] }, ⟨[.setWrite, .setRead] ++ chatter m T ++ [.expire], ?_⟩, ?_, ?_⟩
  · rw [runs_append, h1]
    simp only [Option.bind_some, runs, Idle.step, h5, State.expired, h2, h3]
    rw [if_pos (by simp; omega)]
  · simp [h3]
  · intro t ht1 ht2
    exact List.mem_append_left _ (h7 t ht1 ht2)

/-- C83 is false: whatever the timeout, on a connection that receives a message in every time unit, a message sent after the timeout is lost, because nothing was sent in between: the write deadline is
set before the writer starts to wait. -/
theorem C83_quiet_sender_refuted (T : Nat) (hT : 2 ≤ T) (m m' : Message) : ∃ s, Idle.Reachable T s ∧ (T, .writeTimeout [m']) ∈ s.log ∧ ∀ t, 1 ≤ t → t ≤ T → (t, .received m) ∈ s.log := by
  obtain ⟨s, h1, h2, h3, h4, h5, h6, h7⟩ := listen_run T hT m T
  refine ⟨{ s with writer := .ended, log := s.log ++ [(s.now, .writeTimeout [m'])] }, ⟨[.setWrite, .setRead] ++ listen m T ++ [.send m', .take, .flush], ?_⟩, ?_, ?_⟩
  · rw [runs_append, h1]
    obtain ⟨tmo, now, rd, wr, buf, log⟩ := s
    simp only at h2 h3 h4 h5 h6
    subst h2 h3 h4 h5 h6
    have hne : now ≠ 0 := by omega
    simp [runs, Idle.step, State.expired, hne]
  · simp [h3]
  · intro t ht1 ht2
    exact List.mem_append_left _ (h7 t ht1 ht2)

/-- C83, what does hold. With timeout 0 there are no timeouts. A read times out only if no message has been received for the whole timeout, and a write only if none has been flushed for the
whole timeout; each ends its loop. And a connection is eventually given up: a read that has waited for the timeout can fail, whatever the writer does. -/
theorem C83_timeouts_partial (T : Nat) (s : Idle.State) (h : Idle.Reachable T s) :
    (∀ t, (t, .readTimeout) ∈ s.log → T ≠ 0 ∧ s.reader = .ended ∧ ∀ t' m, (t', .received m) ∈ s.log → t' + T ≤ t) ∧
    (∀ t b, (t, .writeTimeout b) ∈ s.log → T ≠ 0 ∧ s.writer = .ended ∧ ∀ t' b', (t', .flushed b') ∈ s.log → t' + T ≤ t) ∧
    (∀ d as s', T ≠ 0 → s.reader = .reading d → runs Idle.step s as = some s' → s.now + T ≤ s'.now → (∀ m, .recv m ∉ as) → .expire ∉ as → (Idle.step s' .expire).isSome) := by
  have i := IdleInv.reach h
  refine ⟨i.rto, i.wto, ?_⟩
  intro d as s' hT hd hr hlong hnr hne
  have key : s'.reader = .reading d ∧ s'.timeout = T := by
    refine runs_inv' (P := fun s => s.reader = .reading d ∧ s.timeout = T) (Q := fun a => (∀ m, a ≠ .recv m) ∧ a ≠ .expire) ?_ ?_ hr ⟨hd, i.tmo⟩
    · rintro x a x' ⟨hx, ht⟩ ⟨q1, q2⟩ hs
      cases a <;> simp only [Idle.step, hx] at hs <;> (repeat' split at hs) <;> (try (cases hs; done)) <;> (try injection hs with hs) <;> (try subst hs) <;> simp_all
    · intro a ha
      exact ⟨fun m e => hnr m (e ▸ ha), fun e => hne (e ▸ ha)⟩
  have hle := (i.rd d hd).2
  simp only [Idle.step, key.1, State.expired, key.2]
  rw [if_pos (by simp; omega)]
  rfl

/-- Both timeouts occur, and the last part applies to a reader that has waited. -/
example (m : Message) : ∃ s, Idle.Reachable 5 s ∧ (5, .readTimeout) ∈ s.log ∧ (5, .flushed [m]) ∈ s.log := by
  obtain ⟨s, h1, h2, h3⟩ := C83_one_way_refuted 5 (by decide) m
  exact ⟨s, h1, h2, h3 5 (by decide) (by decide)⟩

end Noise
