import Verif.Spec.Callbacks
import Verif.Spec.Connection
import Verif.Proofs.Client
/-! # The message callbacks of a connection -/
namespace Noise.Cl
open Spec
variable {ε : Type}

theorem outOf_append (l l' : List (Event ε)) : outOf (l ++ l') = l'.foldl (fun p e => p.bind fun p => p.next e) (outOf l) := List.foldl_append
theorem recvOf_append (l l' : List (Event ε)) : recvOf (l ++ l') = l'.foldl (fun p e => p.bind fun p => recvNext p e) (recvOf l) := List.foldl_append

/-- The writer's place in the code and in the sequence of callbacks. -/
def WriterPc.out : WriterPc → Out → Prop
  | .notStarted, p | .check, p | .wait, p => p = .idle
  | .batch l, p => (p = .idle ∧ l ≠ []) ∨ p = .writing
  | .cb, p => p = .flushed
  | .ending, p | .ended, p => p ≠ .flushed

/-- Events that do not matter for outgoing messages. -/
theorem next_other (p : Out) (e : Event ε) (h : match e with | .wrote _ | .flushed | .sentCb => False | _ => True) : p.next e = some p := by
  cases p <;> cases e <;> first | rfl | exact h.elim

/-- Before the loops. -/
def MainPc.early : MainPc → Bool
  | .init | .dialing | .hs | .hsVerified => true
  | _ => false

def MainPc.beforeLoop : MainPc → Bool
  | .hsEnd | .afterHs => true
  | p => p.early

structure CallOK (w : WriterPc) (m : MainPc) (log : List (Event ε)) : Prop where
  out : ∃ p, outOf log = some p ∧ w.out p
  recv : recvOf log = some (decide (m = .recvCb))
  start : m.beforeLoop = true → w = .notStarted

/-- Events that do not matter. -/
def neutralCb : Event ε → Bool
  | .wrote _ | .flushed | .sentCb | .delivered _ _ _ | .recvCb => false
  | _ => true

theorem CallOK.quiet {w : WriterPc} {m : MainPc} {log : List (Event ε)} (h : CallOK w m log) (e : Event ε) (he : neutralCb e = true) : CallOK w m (log ++ [e]) := by
  obtain ⟨⟨p, h1, h2⟩, h3, h4⟩ := h
  refine ⟨⟨p, ?_, h2⟩, ?_, h4⟩
  · rw [outOf_append, h1]
    cases e <;> first | (cases he; done) | (cases p <;> rfl)
  · rw [recvOf_append, h3]
    cases e <;> first | (cases he; done) | rfl

/-- The main goroutine goes on. -/
theorem CallOK.main {w : WriterPc} {m m' : MainPc} {log : List (Event ε)} (h : CallOK w m log) (h1 : m ≠ .recvCb) (h2 : m' ≠ .recvCb) (h3 : m'.beforeLoop = true → m.beforeLoop = true) :
    CallOK w m' log := by
  refine ⟨h.out, ?_, fun h' => h.start (h3 h')⟩
  rw [h.recv]; simp [h1, h2]

theorem CallOK.writer {w w' : WriterPc} {m : MainPc} {log : List (Event ε)} (h : CallOK w m log) (h1 : ∀ p, w.out p → w'.out p) (h2 : m.beforeLoop = true → w ≠ .notStarted ∨ w' = .notStarted) : CallOK w' m log := by
  obtain ⟨⟨p, g1, g2⟩, g3, g4⟩ := h
  refine ⟨⟨p, g1, h1 p g2⟩, g3, fun hb => ?_⟩
  rcases h2 hb with h | h
  · exact absurd (g4 hb) h
  · exact h

def CallInv (s : State ε) : Prop := CallOK s.writer s.main s.log

theorem CallInv.new (side : Side) : CallInv (State.new (ε := ε) side) := ⟨⟨.idle, rfl, rfl⟩, rfl, fun _ => rfl⟩

theorem CallInv.step {s s' : State ε} {a : Action ε} (h : CallInv s) (hs : Cl.step s a = some s') : CallInv s' := by
  unfold CallInv at h ⊢
  cl_cases a hs
  all_goals first
    | exact h
    | exact h.quiet _ rfl
    | exact h.main (by simp [*]) (by simp) (by simp [*, MainPc.beforeLoop, MainPc.early])
    | exact (h.main (by simp [*]) (by simp) (by simp [*, MainPc.beforeLoop, MainPc.early])).quiet _ rfl
    | exact h.writer (by simp [*, WriterPc.out]) (by simp [*])
    | exact (h.writer (by grind [WriterPc.out]) (by simp [*])).quiet _ rfl
    | skip
  all_goals obtain ⟨⟨p, h1, h2⟩, h3, h4⟩ := h
  · rename_i hm _
    have hw := h4 (by rw [hm]; rfl)
    refine ⟨⟨p, h1, ?_⟩, by rw [hm] at h3; exact h3, fun h => by cases h⟩
    rw [hw] at h2; exact h2
  · rename_i hm
    refine ⟨⟨p, by rw [outOf_append, h1]; cases p <;> rfl, h2⟩, ?_, fun h => by cases h⟩
    rw [recvOf_append, h3, hm]; rfl
  · rename_i m l hm
    rw [hm] at h2 h4
    refine ⟨⟨.writing, ?_, Or.inr rfl⟩, by rw [recvOf_append, h3]; rfl, fun h => by cases h4 h⟩
    rw [outOf_append, h1]
    rcases h2 with ⟨rfl, _⟩ | rfl <;> rfl
  · rename_i hm _
    rw [hm] at h2 h4
    refine ⟨⟨.flushed, ?_, rfl⟩, by rw [recvOf_append, h3]; rfl, fun h => by cases h4 h⟩
    rw [outOf_append, h1]
    rcases h2 with ⟨_, h⟩ | rfl
    · exact absurd rfl h
    · rfl
  · rename_i hm
    rw [hm] at h2 h4
    refine ⟨⟨.idle, ?_, rfl⟩, by rw [recvOf_append, h3]; rfl, fun h => by cases h4 h⟩
    rw [outOf_append, h1, show p = .flushed from h2]; rfl
  · rename_i m hm
    refine ⟨⟨p, by rw [outOf_append, h1]; cases p <;> rfl, h2⟩, ?_, fun h => by cases h⟩
    rw [recvOf_append, h3, hm]; rfl

theorem CallInv.reach {side : Side} {s : State ε} (h : Reachable side s) : CallInv s := reach_inv (CallInv.new side) (fun _ _ _ => CallInv.step) h

/-! ### Before, between and after -/

/-- The main goroutine has called `OnPeerDisconnected`, or never will. -/
def MainPc.late : MainPc → Bool
  | .remove | .done | .finished => true
  | _ => false

structure SpanInv (s : State ε) : Prop where
  /-- nothing happens before the handshake ends -/
  early : s.main.early = true → s.writer = .notStarted ∧ ∀ e ∈ s.log, messageCb e = false
  /-- after `OnPeerDisconnected` the main goroutine ends -/
  late : .disconnected ∈ s.log → s.main.late = true
  before : ∀ l id l', s.log = l ++ .connected id :: l' → ∀ e ∈ l, messageCb e = false
  after : ∀ l l', s.log = l ++ .disconnected :: l' → .recvCb ∉ l'

theorem SpanInv.new (side : Side) : SpanInv (State.new (ε := ε) side) := by
  constructor
  · intro _; exact ⟨rfl, by simp [State.new]⟩
  · simp [State.new]
  · intro l id l' h; cases l <;> cases h
  · intro l l' h; cases l <;> cases h

/-- The last event is the split point or comes after it. -/
theorem split_snoc {β : Type} {l l1 l2 : List β} {x e : β} (h : l ++ [e] = l1 ++ x :: l2) : (l1 = l ∧ x = e ∧ l2 = []) ∨ ∃ l2', l = l1 ++ x :: l2' ∧ l2 = l2' ++ [e] := by
  rcases List.eq_nil_or_concat l2 with rfl | ⟨l2', y, rfl⟩
  · left
    have := List.append_inj' h rfl
    exact ⟨this.1.symm, by have := this.2; injection this with h; exact h.symm, rfl⟩
  · right
    rw [List.concat_eq_append] at h ⊢
    have h' : l ++ [e] = (l1 ++ x :: l2') ++ [y] := by rw [h]; simp
    have := List.append_inj' h' rfl
    refine ⟨l2', this.1, ?_⟩
    have := this.2; injection this with h; rw [h]

theorem SpanInv.same {s s' : State ε} (h : SpanInv s) (hl : s'.log = s.log) (he : s'.main.early = true → s.main.early = true ∧ s'.writer = s.writer) (hd : s.main.late = true → s'.main.late = true) : SpanInv s' := by
  constructor
  · intro h1
    obtain ⟨h2, h3⟩ := he h1
    rw [h3, hl]; exact h.early h2
  · rw [hl]; exact fun h1 => hd (h.late h1)
  · rw [hl]; exact h.before
  · rw [hl]; exact h.after

theorem SpanInv.snoc {s s' : State ε} (h : SpanInv s) (e : Event ε) (hl : s'.log = s.log ++ [e]) (he : s'.main.early = true → s.main.early = true ∧ s'.writer = s.writer ∧ messageCb e = false)
    (hd : s.main.late = true ∨ e = .disconnected → s'.main.late = true) (hc : ∀ id, e = .connected id → s.main.early = true) (hr : e = .recvCb → s.main.late = false) : SpanInv s' := by
  constructor
  · intro h1
    obtain ⟨h2, h3, h4⟩ := he h1
    rw [h3, hl]
    refine ⟨(h.early h2).1, ?_⟩
    intro x hx
    rcases List.mem_append.1 hx with hx | hx
    · exact (h.early h2).2 x hx
    · rw [List.mem_singleton.1 hx]; exact h4
  · rw [hl]
    intro h1
    rcases List.mem_append.1 h1 with hx | hx
    · exact hd (Or.inl (h.late hx))
    · exact hd (Or.inr (List.mem_singleton.1 hx).symm)
  · rw [hl]
    intro l id l' hs
    rcases split_snoc hs with ⟨rfl, h1, _⟩ | ⟨l2, h1, _⟩
    · exact (h.early (hc id h1.symm)).2
    · exact h.before l id l2 h1
  · rw [hl]
    intro l l' hs
    rcases split_snoc hs with ⟨_, _, rfl⟩ | ⟨l2, h1, rfl⟩
    · simp
    · intro hm
      rcases List.mem_append.1 hm with hm | hm
      · exact h.after l l2 h1 hm
      · have h2 := hr (List.mem_singleton.1 hm).symm
        have h3 := h.late (by rw [h1]; simp)
        rw [h2] at h3; cases h3

theorem SpanInv.step {s s' : State ε} {a : Action ε} (h : SpanInv s) (hs : Cl.step s a = some s') : SpanInv s' := by
  have he := h.early
  cl_cases a hs
  all_goals first
    | exact h
    | exact h.same rfl (by simp_all [MainPc.early, State.closeReady, State.closeReaderDone, State.closeWriterDone, State.closeClientDone, State.setCall]) (by simp_all [MainPc.late, State.closeReady, State.closeReaderDone, State.closeWriterDone, State.closeClientDone, State.setCall])
    | exact h.snoc _ rfl (by simp_all [MainPc.early, messageCb, State.report, State.send, State.setCall]) (by simp_all [MainPc.late, State.report, State.send, State.setCall]) (by simp_all [MainPc.early]) (by simp_all [MainPc.late])

theorem SpanInv.reach {side : Side} {s : State ε} (h : Reachable side s) : SpanInv s := reach_inv (SpanInv.new side) (fun _ _ _ => SpanInv.step) h

end Noise.Cl
