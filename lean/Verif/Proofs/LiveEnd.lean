import Verif.Proofs.Fair
import Verif.Spec.Live
import Verif.Proofs.ClientFifo
import Verif.Proofs.ClientCalls
/-! # One end of a connection in an execution in which nothing fails and nothing is closed -/
namespace Noise.Cl
open Spec
variable {ε : Type}

/-- Where the main goroutine is when nothing has failed. -/
def MainPc.well : MainPc → Bool
  | .init | .dialing | .hs | .hsVerified | .hsEnd | .afterHs | .recv | .routing _ | .delivering _ | .recvCb => true
  | _ => false

/-- In `recvLoop`. -/
def MainPc.looping : MainPc → Bool
  | .recv | .routing _ | .delivering _ | .recvCb => true
  | _ => false

/-- Nothing has failed. -/
structure Healthy (s : State ε) : Prop where
  main : s.main.well = true
  once : s.once = .fresh
  wc : s.writerClosed = false
  err : s.err = none
  rd : s.readerDone = false
  cd : s.clientDone = false
  conn : s.conn ≠ .closed
  isOpen : s.main ≠ .init → s.main ≠ .dialing → s.conn = .open
  writer : s.writer ≠ .ending ∧ s.writer ≠ .ended
  started : s.writer ≠ .notStarted ↔ s.main.looping = true

theorem Healthy.new (side : Side) : Healthy (State.new (ε := ε) side) := by
  constructor <;> simp [State.new, MainPc.well, MainPc.looping]

theorem Healthy.step {s s' : State ε} {a : Action ε} (h : Healthy s) (ha : a.calm = true) (hs : step s a = some s') : Healthy s' := by
  obtain ⟨h1, h2, h3, h4, h5, h6, h7, h8, h9, h10⟩ := h
  cl_cases a hs
  all_goals first
    | (simp [Action.calm] at ha; done)
    | (constructor <;> grind [State.closeReady, State.closeReaderDone, State.closeWriterDone, State.closeClientDone, MainPc.well, MainPc.looping, State.report, State.send, State.setCall])

/-- A frame is missing for the main goroutine to go on. -/
def needsFrame (s : State ε) : Bool :=
  match s.main with
  | .hs | .recv => s.rbuf = 0
  | _ => false

/-- The rank of the main goroutine: how far it is from having processed one more message. -/
def rank (s : State ε) : Nat :=
  match s.main with
  | .init => 30
  | .dialing => 29
  | .hs => (if s.suite then 22 else 24) + (if s.rbuf = 0 then 1 else 0)
  | .hsVerified => 20
  | .hsEnd => 19
  | .afterHs => 18
  | .delivering _ => 5
  | .recvCb => 4
  | .recv => 2 + (if s.rbuf = 0 then 1 else 0)
  | .routing _ => 1
  | _ => 0

/-- What a step does to the rank and to the number of processed messages. -/
theorem rank_step {s s' : State ε} {a : Action ε} (h : Healthy s) (ha : a.calm = true) (hs : step s a = some s') :
    ((processedOf s'.log).length = (processedOf s.log).length + 1) ∨
    ((processedOf s'.log).length = (processedOf s.log).length ∧ (rank s' < rank s ∨
      (s'.main = s.main ∧ rank s' = rank s ∧ needsFrame s' = needsFrame s ∧ a.ofMain = false ∧ a ≠ .deliver ∧ (needsFrame s = true → a ≠ .arrive)))) := by
  obtain ⟨h1, h2, h3, h4, h5, h6, h7, h8, h9, h10⟩ := h
  cl_cases a hs
  all_goals first
    | (simp [Action.calm] at ha; done)
    | (left; simp [processedOf]; done)
    | (right
       constructor
       · simp [processedOf, State.closeReady, State.closeReaderDone, State.closeWriterDone, State.closeClientDone, State.report, State.send, State.setCall]
       · grind [rank, needsFrame, MainPc.well, Action.ofMain, State.closeReady, State.closeReaderDone, State.closeWriterDone, State.closeClientDone, State.report, State.send, State.setCall])

/-- One end of a connection in a calm execution, with what the other end has put on the connection (`inp`) and how much of it has been read (`rd`). -/
structure End (side : Side) (c : Nat → State ε) (β : Nat → Option (Action ε)) (rd : Nat → Nat) (inp : Nat → List Message) : Prop where
  init : c 0 = State.new side
  step : ∀ t, (β t = none ∧ c (t + 1) = c t) ∨ ∃ a, β t = some a ∧ a.calm = true ∧ Cl.step (c t) a = some (c (t + 1))
  read : ∀ t, (processedOf (c t).log).length + (c t).main.unrouted.length = rd t
  mono : ∀ t, inp t <+: inp (t + 1)
  main : ∀ t, ∃ t', t ≤ t' ∧ ((∃ a, β t' = some a ∧ a.ofMain = true) ∨
    ¬ ((∃ m, (c t').main = .routing m) ∨ ((c t').main.well = true ∧ (c t').main.looping = false ∧ needsFrame (c t') = false) ∨ (c t').main = .recvCb ∨
      ((c t').main = .recv ∧ needsFrame (c t') = false ∧ rd t' < (inp t').length)))
  net : ∀ t, ∃ t', t ≤ t' ∧ (β t' = some .arrive ∨ ¬ ((c t').conn = .open ∧ needsFrame (c t') = true ∧ ((c t').main = .hs ∨ rd t' < (inp t').length)))
  writer : ∀ t, ∃ t', t ≤ t' ∧ (β t' = some .writer ∨ ¬ (Cl.step (c t') .writer).isSome = true)
  deliver : ∀ t m, (c t).main = .delivering m → ∃ t', t ≤ t' ∧ β t' = some .deliver

variable {side : Side} {c : Nat → State ε} {β : Nat → Option (Action ε)} {rd : Nat → Nat} {inp : Nat → List Message}

theorem End.healthy (e : End side c β rd inp) (t : Nat) : Healthy (c t) := by
  induction t with
  | zero => rw [e.init]; exact .new side
  | succ t ih =>
    rcases e.step t with ⟨_, h⟩ | ⟨a, _, h1, h2⟩
    · rw [h]; exact ih
    · exact ih.step h1 h2

theorem End.reach (e : End side c β rd inp) (t : Nat) : Reachable side (c t) := by
  induction t with
  | zero => rw [e.init]; exact ⟨[], rfl⟩
  | succ t ih =>
    rcases e.step t with ⟨_, h⟩ | ⟨a, _, h1, h2⟩
    · rw [h]; exact ih
    · exact Reachable.step ih h2

theorem End.inp_mono (e : End side c β rd inp) {t t' : Nat} (h : t ≤ t') : inp t <+: inp t' :=
  Fair.stays (P := fun x => inp t <+: inp x) (fun _ hp => hp.trans (e.mono _)) h (List.prefix_refl _)

/-- The log only grows. -/
theorem End.log_mono (e : End side c β rd inp) {t t' : Nat} (h : t ≤ t') : (c t).log <+: (c t').log := by
  refine Fair.stays (P := fun x => (c t).log <+: (c x).log) (fun x hp => hp.trans ?_) h (List.prefix_refl _)
  rcases e.step x with ⟨_, h⟩ | ⟨a, _, _, h2⟩
  · rw [h]; exact List.prefix_refl _
  · obtain ⟨l, hl⟩ := log_step h2
    exact ⟨l, hl.symm⟩

inductive Who where
  | main
  | net
  | deliver

/-- Who has to act next for the main goroutine to go on. -/
def who (s : State ε) : Who :=
  match s.main with
  | .delivering _ => .deliver
  | _ => if needsFrame s then .net else .main

/-- The main goroutine keeps processing: what is on the connection gets processed, and it gets past the handshake. -/
theorem End.progress (e : End side c β rd inp) (G : Nat → Prop) (p : Nat) (t0 : Nat)
    (hG : ∀ t, t0 ≤ t → p < (processedOf (c t).log).length → G t)
    (hin : ∀ t, t0 ≤ t → ¬ G t → (c t).main = .recv → rd t < (inp t).length) : ∃ t, t0 ≤ t ∧ G t := by
  refine Fair.well (K := Who)
    (T := fun k t => match k with
      | .main => ∃ a, β t = some a ∧ a.ofMain = true
      | .net => β t = some .arrive
      | .deliver => β t = some .deliver)
    (able := fun k t => match k with
      | .main => (∃ m, (c t).main = .routing m) ∨ ((c t).main.well = true ∧ (c t).main.looping = false ∧ needsFrame (c t) = false) ∨ (c t).main = .recvCb ∨
          ((c t).main = .recv ∧ needsFrame (c t) = false ∧ rd t < (inp t).length)
      | .net => (c t).conn = .open ∧ needsFrame (c t) = true ∧ ((c t).main = .hs ∨ rd t < (inp t).length)
      | .deliver => ∃ m, (c t).main = .delivering m)
    ?_ (P := fun t => t0 ≤ t) (fun t => 40 * (p + 1 - (processedOf (c t).log).length) + rank (c t)) (fun t => who (c t)) ?_ t0 (Nat.le_refl _)
  · intro k t
    cases k with
    | main => exact e.main t
    | net => exact e.net t
    | deliver =>
      by_cases h : ∃ m, (c t).main = .delivering m
      · obtain ⟨m, hm⟩ := h
        obtain ⟨t', h1, h2⟩ := e.deliver t m hm
        exact ⟨t', h1, Or.inl h2⟩
      · exact ⟨t, Nat.le_refl _, Or.inr h⟩
  · intro t ht
    by_cases g : G t
    · exact Or.inl g
    · have hp : ¬ p < (processedOf (c t).log).length := fun h => g (hG t ht h)
      have hh := e.healthy t
      have hin' := hin t ht g
      refine Or.inr ⟨?_, ?_⟩
      · have hw := hh.main
        have ho := hh.isOpen
        cases hm : (c t).main <;> rw [hm] at hw ho hin' <;> (try (cases hw; done))
        all_goals unfold who
        all_goals simp only [hm]
        case delivering m => exact ⟨m, rfl⟩
        case hs =>
          by_cases hb : needsFrame (c t) = true
          · rw [if_pos hb]; exact ⟨ho nofun nofun, hb, Or.inl trivial⟩
          · rw [if_neg hb]; exact Or.inr (Or.inl ⟨rfl, rfl, by simpa using hb⟩)
        case recv =>
          by_cases hb : needsFrame (c t) = true
          · rw [if_pos hb]; exact ⟨ho nofun nofun, hb, Or.inr (hin' rfl)⟩
          · rw [if_neg hb]; exact Or.inr (Or.inr (Or.inr ⟨trivial, by simpa using hb, hin' rfl⟩))
        all_goals
          have hb : needsFrame (c t) = false := by simp [needsFrame, hm]
          rw [hb, if_neg (by simp)]
          simp [MainPc.well, MainPc.looping]
      · rcases e.step t with ⟨h1, h2⟩ | ⟨a, h1, h2, h3⟩
        · refine Or.inr ⟨by omega, Or.inr ⟨by rw [h2], by rw [h2], ?_⟩⟩
          cases who (c t) <;> simp [h1]
        · rcases rank_step hh h2 h3 with h4 | ⟨h4, h5 | ⟨h5, h6, h7, h8, h9, h10⟩⟩
          · by_cases hl : p < (processedOf (c (t + 1)).log).length
            · exact Or.inl (hG _ (by omega) hl)
            · refine Or.inr ⟨by omega, Or.inl ?_⟩
              have hr : rank (c (t + 1)) ≤ 30 := by unfold rank; repeat' split
                                                    all_goals omega
              omega
          · exact Or.inr ⟨by omega, Or.inl (by omega)⟩
          · refine Or.inr ⟨by omega, Or.inr ⟨by omega, ?_, ?_⟩⟩
            · unfold who; rw [h5, h7]
            · cases hw : who (c t) with
              | main => rintro ⟨a', ha', hof⟩; rw [h1] at ha'; injection ha' with ha'; subst ha'; rw [h8] at hof; cases hof
              | net =>
                show ¬ β t = some .arrive
                rw [h1]
                intro ha; injection ha with ha
                refine h10 ?_ ha
                unfold who at hw
                split at hw
                · cases hw
                · split at hw
                  · assumption
                  · cases hw
              | deliver => show ¬ β t = some .deliver; rw [h1]; intro ha; injection ha with ha; exact h9 ha

/-- What the other end has put on the connection gets processed. -/
theorem End.processes (e : End side c β rd inp) {t0 p : Nat} (hp : p < (inp t0).length) : ∃ t, t0 ≤ t ∧ p < (processedOf (c t).log).length := by
  refine e.progress _ p t0 (fun t _ h => h) ?_
  intro t ht hn hm
  have h1 := e.read t
  rw [hm] at h1
  have h2 := (e.inp_mono ht).length_le
  simp only [MainPc.unrouted, List.length_nil] at h1
  omega

/-- The handshake completes. -/
theorem End.loops (e : End side c β rd inp) (t0 : Nat) : ∃ t, t0 ≤ t ∧ (c t).main.looping = true := by
  by_cases h : ∃ t, t0 ≤ t ∧ (c t).main.looping = true
  · exact h
  · exfalso
    have hn : ∀ t, t0 ≤ t → (c t).main.looping = false := by
      intro t ht
      cases hx : (c t).main.looping with
      | false => rfl
      | true => exact absurd ⟨t, ht, hx⟩ h
    obtain ⟨t, ht, hg⟩ := e.progress (fun t => (processedOf (c t0).log).length < (processedOf (c t).log).length) (processedOf (c t0).log).length t0 (fun t _ h => h)
      (by intro t ht _ hm; have := hn t ht; rw [hm] at this; cases this)
    have : (processedOf (c t).log).length = (processedOf (c t0).log).length := by
      refine Fair.stays (P := fun x => t0 ≤ x ∧ (processedOf (c x).log).length = (processedOf (c t0).log).length) ?_ ht ⟨Nat.le_refl _, rfl⟩ |>.2
      rintro x ⟨hx, hp⟩
      refine ⟨by omega, ?_⟩
      rcases e.step x with ⟨_, h⟩ | ⟨a, _, h1, h2⟩
      · rw [h]; exact hp
      · rw [← hp]
        have hl := hn x hx
        have hl' := hn (x + 1) (by omega)
        generalize c (x + 1) = s' at *
        generalize c x = s at *
        cl_cases a h2
        all_goals first
          | (simp_all [MainPc.looping]; done)
          | (simp [processedOf, State.closeReady, State.closeReaderDone, State.closeWriterDone, State.closeClientDone, State.report, State.send, State.setCall]; done)
    omega

theorem looping_step {s s' : State ε} {a : Action ε} (h : Healthy s) (ha : a.calm = true) (hs : Cl.step s a = some s') (hl : s.main.looping = true) : s'.main.looping = true := by
  obtain ⟨h1, h2, h3, h4, h5, h6, h7, h8, h9, h10⟩ := h
  cl_cases a hs
  all_goals first
    | (simp [Action.calm] at ha; done)
    | grind [State.closeReady, State.closeReaderDone, State.closeWriterDone, State.closeClientDone, MainPc.well, MainPc.looping, State.report, State.send, State.setCall]

/-- How far the writer is from a new batch. -/
def WriterPc.stage : WriterPc → Nat
  | .batch _ => 4
  | .cb => 3
  | .check => 2
  | .wait => 1
  | _ => 0

def late (p n k : Nat) : Nat := if p < n then 0 else k
theorem late_le (p n k : Nat) : late p n k ≤ k := by unfold late; split <;> omega
theorem late_lt {p n : Nat} (h : p < n) (k : Nat) : late p n k = 0 := if_pos h
theorem late_ge {p n : Nat} (h : n ≤ p) (k : Nat) : late p n k = k := if_neg (by omega)

/-- How far the writer is from having written message number `p`. -/
def writerRank (p : Nat) (s : State ε) : Nat :=
  (p - (wroteOf s.log).length) + late p ((wroteOf s.log).length + s.writer.pending.length) s.writer.stage

theorem writerRank_step {p : Nat} {s s' : State ε} {a : Action ε} (h : Healthy s) (f : Fifo s) (ha : a.calm = true) (hl : s.main.looping = true) (hp : p < (submittedOf s.log).length)
    (hw : ¬ p < (wroteOf s.log).length) (hs : Cl.step s a = some s') :
    p < (wroteOf s'.log).length ∨ writerRank p s' < writerRank p s ∨ (writerRank p s' = writerRank p s ∧ a ≠ .writer) := by
  by_cases hww : a = .writer
  · subst hww
    have hf := f.exact
    obtain ⟨h1, h2, h3, h4, h5, h6, h7, h8, h9, h10⟩ := h
    simp only [Cl.step, State.writerStep] at hs
    cases hwr : s.writer with
    | check => simp [hwr, h5, h6] at hs; subst hs; right; left; simp only [writerRank, hwr, WriterPc.stage, WriterPc.pending, List.length_nil]; rw [late_ge (by omega), late_ge (by omega)]; omega
    | wait =>
      have hf := congrArg List.length (hf (by rw [hwr]; rfl))
      simp [hwr, h3] at hs
      obtain ⟨hne, hs⟩ := hs
      subst hs; right; left
      simp [hwr, WriterPc.pending] at hf
      simp only [writerRank, hwr, WriterPc.stage, WriterPc.pending, List.length_nil]
      rw [late_lt (by omega), late_ge (by omega)]
      omega
    | batch l =>
      cases l with
      | nil => simp [hwr, h7] at hs; subst hs; right; left; simp only [writerRank, hwr, WriterPc.stage, WriterPc.pending, List.length_nil, wroteOf_append, List.length_append] at hw ⊢; rw [late_ge (by simp [wroteOf] at hw ⊢; omega), late_ge (by omega)]; simp [wroteOf]
      | cons m l =>
        simp [hwr] at hs; subst hs
        simp only [writerRank, hwr, WriterPc.stage, WriterPc.pending, wroteOf_append, List.length_append, List.length_cons]
        have : (wroteOf [Event.wrote (ε := ε) m]).length = 1 := rfl
        rw [this]
        by_cases hlt : p < (wroteOf s.log).length + 1
        · exact Or.inl hlt
        · right; left
          by_cases hlt' : p < (wroteOf s.log).length + (l.length + 1)
          · rw [late_lt (by omega), late_lt (by omega)]; omega
          · rw [late_ge (by omega), late_ge (by omega)]; omega
    | cb => simp [hwr] at hs; subst hs; right; left; simp only [writerRank, hwr, WriterPc.stage, WriterPc.pending, List.length_nil, wroteOf_append, List.length_append] at hw ⊢; rw [late_ge (by simp [wroteOf] at hw ⊢; omega), late_ge (by omega)]; simp [wroteOf]
    | notStarted => simp [hwr] at hs
    | ending => exact absurd hwr h9.1
    | ended => exact absurd hwr h9.2
  · right; right
    refine ⟨?_, hww⟩
    obtain ⟨h1, h2, h3, h4, h5, h6, h7, h8, h9, h10⟩ := h
    have : wroteOf s'.log = wroteOf s.log ∧ s'.writer = s.writer := by
      cl_cases a hs
      all_goals first
        | exact absurd rfl hww
        | (simp [Action.calm] at ha; done)
        | (simp_all [MainPc.looping, MainPc.well]; done)
        | (simp [wroteOf, State.closeReady, State.closeReaderDone, State.closeWriterDone, State.closeClientDone, State.report, State.send, State.setCall]; done)
    unfold writerRank
    rw [this.1, this.2]

/-- What has been submitted gets written. -/
theorem End.writes (e : End side c β rd inp) {t0 p : Nat} (hp : p < (submittedOf (c t0).log).length) : ∃ t, t0 ≤ t ∧ p < (wroteOf (c t).log).length := by
  obtain ⟨t1, h1, hl⟩ := e.loops t0
  have hsub : ∀ t, t0 ≤ t → p < (submittedOf (c t).log).length := by
    intro t ht
    obtain ⟨l, hl⟩ := e.log_mono ht
    rw [← hl, submittedOf_append, List.length_append]; omega
  obtain ⟨t, ht, g⟩ : ∃ t, t1 ≤ t ∧ p < (wroteOf (c t).log).length := by
    refine Fair.well1 e.writer (P := fun t => t1 ≤ t ∧ (c t).main.looping = true) (fun t => writerRank p (c t)) ?_ t1 ⟨Nat.le_refl _, hl⟩
    rintro t ⟨ht, hlp⟩
    by_cases hw : p < (wroteOf (c t).log).length
    · exact Or.inl hw
    · have hh := e.healthy t
      have ff := Fifo.reach (e.reach t)
      have hs := hsub t (by omega)
      refine Or.inr ⟨?_, ?_⟩
      · have hf := ff.exact
        have hst := hh.started.2 hlp
        simp only [Cl.step, State.writerStep]
        have h1 := hh.writer
        have h3 := hh.wc
        have h7 := hh.conn
        cases hwr : (c t).writer with
        | check => simp
        | wait =>
          have hf := congrArg List.length (hf (by rw [hwr]; rfl))
          simp [hwr, WriterPc.pending] at hf
          simp only [h3]
          rw [if_neg (by simp), if_neg ?_]
          · simp
          · intro he; rw [he] at hf; simp at hf; omega
        | batch l => cases l <;> simp [h7]
        | cb => simp
        | notStarted => exact absurd hwr hst
        | ending => exact absurd hwr h1.1
        | ended => exact absurd hwr h1.2
      · rcases e.step t with ⟨h2, h3⟩ | ⟨a, h2, h3, h4⟩
        · refine Or.inr ⟨⟨by omega, by rw [h3]; exact hlp⟩, Or.inr ⟨by rw [h3], by rw [h2]; simp⟩⟩
        · rcases writerRank_step hh ff h3 hlp hs hw h4 with h5 | h5 | ⟨h5, h6⟩
          · exact Or.inl h5
          · exact Or.inr ⟨⟨by omega, looping_step hh h3 h4 hlp⟩, Or.inl h5⟩
          · exact Or.inr ⟨⟨by omega, looping_step hh h3 h4 hlp⟩, Or.inr ⟨h5, by rw [h2]; simpa using h6⟩⟩
  exact ⟨t, by omega, g⟩

/-! ## Flushing -/

theorem flushSplit_append (l l' : List (Event ε)) :
    flushSplit (l ++ l') = l'.foldl (fun p e => match e with | .wrote m => (p.1, p.2 ++ [m]) | .flushed => (p.1 ++ p.2, []) | _ => p) (flushSplit l) := List.foldl_append

theorem flushSplit_all (l : List (Event ε)) : (flushSplit l).1 ++ (flushSplit l).2 = wroteOf l := by
  induction l using List.reverseRecOn with
  | nil => rfl
  | append_singleton l e ih =>
    rw [flushSplit_append, wroteOf_append, ← ih]
    cases e <;> simp [wroteOf]

theorem flushed_prefix (l : List (Event ε)) : flushedOf l <+: wroteOf l := ⟨_, flushSplit_all l⟩

theorem flushed_mono_append (l l' : List (Event ε)) : flushedOf l <+: flushedOf (l ++ l') := by
  induction l' using List.reverseRecOn with
  | nil => rw [List.append_nil]; exact List.prefix_refl _
  | append_singleton l' e ih =>
    refine ih.trans ?_
    unfold flushedOf
    rw [← List.append_assoc, flushSplit_append (l ++ l')]
    cases e <;> simp

theorem flushed_mono {s s' : State ε} {a : Action ε} (hs : step s a = some s') : flushedOf s.log <+: flushedOf s'.log := by
  obtain ⟨l, hl⟩ := log_step hs
  rw [hl]; exact flushed_mono_append _ _

/-- Outside a batch everything written has been flushed. -/
def FlushInv (s : State ε) : Prop := (∀ l, s.writer ≠ .batch l) → (flushSplit s.log).2 = []

theorem FlushInv.step {s s' : State ε} {a : Action ε} (hh : Healthy s) (h : FlushInv s) (ha : a.calm = true) (hs : Cl.step s a = some s') : FlushInv s' := by
  obtain ⟨h1, h2, h3, h4, h5, h6, h7, h8, h9, h10⟩ := hh
  unfold FlushInv at h ⊢
  have hn : s.main = .afterHs → s.writer = .notStarted := by grind [MainPc.looping]
  cl_cases a hs
  all_goals first
    | (simp [Action.calm] at ha; done)
    | exact h
    | (intro hb; simp_all [flushSplit_append, State.closeReady, State.closeReaderDone, State.closeWriterDone, State.closeClientDone, State.report, State.send, State.setCall]; done)

theorem End.flushInv (e : End side c β rd inp) (t : Nat) : FlushInv (c t) := by
  induction t with
  | zero => rw [e.init]; intro _; rfl
  | succ t ih =>
    rcases e.step t with ⟨_, h⟩ | ⟨a, _, h1, h2⟩
    · rw [h]; exact ih
    · exact ih.step (e.healthy t) h1 h2

/-- How many messages are left in the batch. -/
def WriterPc.left : WriterPc → Nat
  | .batch l => l.length + 1
  | _ => 0

theorem left_step {s s' : State ε} {a : Action ε} {l : List Message} (hh : Healthy s) (ha : a.calm = true) (hb : s.writer = .batch l) (hs : Cl.step s a = some s') :
    (a = .writer ∧ l = [] ∧ flushedOf s'.log = wroteOf s.log) ∨ (a = .writer ∧ s'.writer.left < s.writer.left ∧ ∃ l', s'.writer = .batch l') ∨ (a ≠ .writer ∧ s'.writer = s.writer) := by
  have hl := hh.started.1 (by rw [hb]; simp)
  obtain ⟨h1, h2, h3, h4, h5, h6, h7, h8, h9, h10⟩ := hh
  cl_cases a hs
  all_goals first
    | (simp [Action.calm] at ha; done)
    | (simp_all [MainPc.looping, MainPc.well]; done)
    | (right; right; refine ⟨by simp, ?_⟩; simp_all [State.closeReady, State.closeReaderDone, State.closeWriterDone, State.closeClientDone, State.report, State.send, State.setCall]; done)
    | (right; left; rename_i hw; rw [hw]; exact ⟨rfl, Nat.lt_succ_self _, _, rfl⟩)
    | (left; rename_i hw _; rw [hw] at hb; injection hb with hb
       refine ⟨rfl, hb.symm, ?_⟩
       show flushedOf (s.log ++ [.flushed]) = _
       rw [← flushSplit_all s.log]; unfold flushedOf; rw [flushSplit_append]; rfl)

/-- What has been written gets flushed. -/
theorem End.flushes' (e : End side c β rd inp) {t0 p : Nat} (hp : p < (wroteOf (c t0).log).length) : ∃ t, t0 ≤ t ∧ p < (flushedOf (c t).log).length := by
  refine Fair.well1 e.writer (P := fun t => p < (wroteOf (c t).log).length) (G := fun t => p < (flushedOf (c t).log).length) (fun t => (c t).writer.left) ?_ t0 hp
  intro t hw
  by_cases hg : p < (flushedOf (c t).log).length
  · exact Or.inl hg
  · have hh := e.healthy t
    obtain ⟨l, hb⟩ : ∃ l, (c t).writer = .batch l := by
      by_cases hx : ∃ l, (c t).writer = .batch l
      · exact hx
      · exfalso
        have h1 := e.flushInv t (fun l hl => hx ⟨l, hl⟩)
        have h2 := flushSplit_all (c t).log
        rw [h1, List.append_nil] at h2
        rw [← h2] at hw
        exact hg hw
    refine Or.inr ⟨?_, ?_⟩
    · simp only [Cl.step, State.writerStep, hb]
      have h7 := hh.conn
      cases l <;> simp [h7]
    · rcases e.step t with ⟨h2, h3⟩ | ⟨a, h2, h3, h4⟩
      · exact Or.inr ⟨by rw [h3]; exact hw, Or.inr ⟨by rw [h3], by rw [h2]; simp⟩⟩
      · have hw' : p < (wroteOf (c (t + 1)).log).length := by
          obtain ⟨l', hl'⟩ := log_step h4
          rw [hl', wroteOf_append, List.length_append]; omega
        rcases left_step hh h3 hb h4 with ⟨_, _, h5⟩ | ⟨_, h5, _⟩ | ⟨h5, h6⟩
        · exact Or.inl (by rw [h5]; exact hw)
        · exact Or.inr ⟨hw', Or.inl h5⟩
        · exact Or.inr ⟨hw', Or.inr ⟨by rw [h6], by rw [h2]; simpa using h5⟩⟩

/-- What has been submitted gets flushed. -/
theorem End.flushes (e : End side c β rd inp) {t0 p : Nat} (hp : p < (submittedOf (c t0).log).length) : ∃ t, t0 ≤ t ∧ p < (flushedOf (c t).log).length := by
  obtain ⟨t1, h1, h2⟩ := e.writes hp
  obtain ⟨t2, h3, h4⟩ := e.flushes' h2
  exact ⟨t2, by omega, h4⟩

end Noise.Cl
