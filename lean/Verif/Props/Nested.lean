import Verif.Model.Nested
import Verif.Proofs.TS
import Verif.Proofs.Requests
import Verif.Spec.Connection
/-! # C88: handlers may make requests -/
namespace Noise
open Nested
variable {ε : Type}

/-- Every worker is inside a handler that waits for the response to a request, and the receive loop waits for room on the queue, which is full. -/
structure Stuck (s : Nested.State ε) : Prop where
  len : s.w.workers.length = s.w.numWorkers
  work : ∀ w, w < s.w.numWorkers → ∃ k h, s.w.workers[w]? = some (.inside k h)
  wait : ∀ w, w < s.w.numWorkers → ∃ i c, s.call w = some i ∧ s.c.calls[i]? = some c ∧ (c.st = .registered ∨ c.st = .waiting) ∧ c.chan = none
  full : s.w.numWorkers ≤ s.w.items.length - s.w.head
  main : ∃ m, s.c.main = .delivering m

theorem Stuck.blocked {s : Nested.State ε} (h : Stuck s) {w : Nat} (hw : w < s.w.numWorkers) : s.blocked w = true := by
  obtain ⟨i, c, h1, h2, h3, -⟩ := h.wait w hw
  simp [State.blocked, h1, h2, h3]

/-- What is frozen. -/
def Frozen (s s' : Nested.State ε) : Prop := s'.w.workers = s.w.workers ∧ s'.w.items = s.w.items ∧ s'.w.head = s.w.head ∧ s'.c.main = s.c.main ∧ s'.call = s.call

/-- A client step while the receive loop is delivering: the calls that wait without an answer go on doing so. -/
theorem cl_delivering {c c' : Cl.State ε} {a : Cl.Action ε} {m : Message} (hm : c.main = .delivering m) (ha : a ≠ .deliver) (hs : Cl.step c a = some c') :
    c'.main = c.main ∧ ∀ i d, c.calls[i]? = some d → (d.st = .registered ∨ d.st = .waiting) → d.chan = none → a ≠ .reqCancel i →
      ∃ d', c'.calls[i]? = some d' ∧ (d'.st = .registered ∨ d'.st = .waiting) ∧ d'.chan = none := by
  have same : ∀ {c' : Cl.State ε}, c'.main = c.main → c'.calls = c.calls → c'.main = c.main ∧ ∀ i d, c.calls[i]? = some d → (d.st = .registered ∨ d.st = .waiting) → d.chan = none → a ≠ .reqCancel i →
      ∃ d', c'.calls[i]? = some d' ∧ (d'.st = .registered ∨ d'.st = .waiting) ∧ d'.chan = none := by
    intro c' h1 h2
    exact ⟨h1, fun i d hd hst hch _ => ⟨d, by rw [h2]; exact hd, hst, hch⟩⟩
  cases a with
  | main => simp [Cl.step, Cl.State.mainStep, hm] at hs
  | writer =>
    simp only [Cl.step, Cl.State.writerStep] at hs
    repeat' split at hs
    all_goals (first | cases hs; done | injection hs with hs; subst hs; exact same rfl rfl)
  | deliver => exact absurd rfl ha
  | writerFail e =>
    simp only [Cl.step] at hs
    repeat' split at hs
    all_goals (first | cases hs; done | injection hs with hs; subst hs; exact same rfl rfl)
  | send m => simp only [Cl.step, Option.some.injEq] at hs; subst hs; exact same rfl rfl
  | reqStart data =>
    simp only [Cl.step] at hs
    split at hs
    · injection hs with hs; subst hs
      refine ⟨rfl, fun i d hd hst hch _ => ⟨d, ?_, hst, hch⟩⟩
      simp only
      rw [List.getElem?_append_left (List.getElem?_eq_some_iff.1 hd).1]; exact hd
    · injection hs with hs; subst hs; exact same rfl rfl
  | reqSend j =>
    simp only [Cl.step] at hs
    split at hs
    · rename_i c0 hj
      split at hs
      · injection hs with hs; subst hs
        refine ⟨rfl, fun i d hd hst hch _ => ?_⟩
        by_cases hij : j = i
        · subst hij
          rw [hj] at hd; injection hd with hd; subst hd
          exact ⟨{ c0 with st := .waiting }, by simp [Cl.State.setCall, Cl.State.send, (List.getElem?_eq_some_iff.1 hj).1], .inr rfl, hch⟩
        · exact ⟨d, by simp [Cl.State.setCall, Cl.State.send, List.getElem?_set, hij, hd], hst, hch⟩
      · cases hs
    · cases hs
  | reqTake j =>
    simp only [Cl.step] at hs
    split at hs
    · rename_i c0 hj
      split at hs
      · split at hs
        · rename_i m0 p hch0
          have hne : ∀ i d, c.calls[i]? = some d → d.chan = none → j ≠ i := by
            rintro i d hd hch rfl
            rw [hj] at hd; injection hd with hd; subst hd; rw [hch0] at hch; cases hch
          split at hs <;>
          · injection hs with hs; subst hs
            refine ⟨rfl, fun i d hd hst hch _ => ⟨d, ?_, hst, hch⟩⟩
            simp [Cl.State.setCall, List.getElem?_set, hne i d hd hch, hd]
        · cases hs
      · cases hs
    · cases hs
  | reqCancel j =>
    simp only [Cl.step] at hs
    split at hs
    · rename_i c0 hj
      split at hs
      · injection hs with hs; subst hs
        refine ⟨rfl, fun i d hd hst hch hne => ⟨d, ?_, hst, hch⟩⟩
        have : j ≠ i := by rintro rfl; exact hne rfl
        simp [Cl.State.setCall, List.getElem?_set, this, hd]
      · cases hs
    · cases hs
  | handlerErr e =>
    simp only [Cl.step] at hs
    split at hs
    · injection hs with hs; subst hs; exact same rfl rfl
    · cases hs
  | closeBegin =>
    simp only [Cl.step, Cl.State.closeBegin] at hs
    split at hs
    · injection hs with hs; subst hs; exact same rfl rfl
    · cases hs
  | closeConn =>
    simp only [Cl.step, Cl.State.closeConn] at hs
    split at hs
    · injection hs with hs; subst hs; exact same rfl rfl
    · cases hs
  | poolDrop =>
    simp only [Cl.step] at hs
    split at hs
    · injection hs with hs; subst hs; exact same rfl rfl
    · cases hs
  | arrive =>
    simp only [Cl.step] at hs
    split at hs
    · injection hs with hs; subst hs; exact same rfl rfl
    · cases hs
  | _ => simp [Cl.step, hm] at hs

theorem Stuck.step {s s' : Nested.State ε} {a : Nested.Action ε} (h : Stuck s) (hc : ∀ i, a = .c (.reqCancel i) → ∀ w, w < s.w.numWorkers → s.call w ≠ some i) (hs : Nested.step s a = some s') :
    Stuck s' ∧ Frozen s s' ∧ s'.w.numWorkers = s.w.numWorkers := by
  obtain ⟨m, hm⟩ := h.main
  cases a with
  | c act =>
    have hs' : ∃ c', Cl.step s.c act = some c' ∧ act ≠ .deliver ∧ s' = { s with c := c' } := by
      simp only [Nested.step] at hs
      split at hs
      · cases hs
      · rename_i hne
        simp only [Option.map_eq_some_iff] at hs
        obtain ⟨c', h1, h2⟩ := hs
        exact ⟨c', h1, hne, h2.symm⟩
    obtain ⟨c', h1, h2, rfl⟩ := hs'
    obtain ⟨g1, g2⟩ := cl_delivering hm h2 h1
    refine ⟨⟨h.len, h.work, ?_, h.full, ⟨m, g1.trans hm⟩⟩, ⟨rfl, rfl, rfl, g1, rfl⟩, rfl⟩
    intro w hw
    obtain ⟨i, d, e1, e2, e3, e4⟩ := h.wait w hw
    obtain ⟨d', f1, f2, f3⟩ := g2 i d e2 e3 e4 (fun he => hc i (by rw [he]) w hw e1)
    exact ⟨i, d', e1, f1, f2, f3⟩
  | deliver =>
    simp only [Nested.step, hm, Cl.step, Option.bind_some, Option.map_eq_some_iff, Wk.step] at hs
    obtain ⟨w', h1, -⟩ := hs
    have := h.full
    split at h1
    · cases h1
    · rw [if_neg (by omega)] at h1; cases h1
  | w act =>
    have fz : ∀ {w' : Wk.State ε}, w'.workers = s.w.workers → w'.items = s.w.items → w'.head = s.w.head → w'.numWorkers = s.w.numWorkers →
        Stuck { s with w := w' } ∧ Frozen s { s with w := w' } ∧ w'.numWorkers = s.w.numWorkers := by
      intro w' h1 h2 h3 h4
      refine ⟨⟨by rw [h1, h4]; exact h.len, by rw [h1, h4]; exact h.work, by rw [h4]; exact h.wait, by rw [h2, h3, h4]; exact h.full, h.main⟩, ⟨h1, h2, h3, rfl, rfl⟩, h4⟩
    cases act with
    | enqueue it =>
      simp only [Nested.step] at hs
      split at hs
      · cases hs
      · simp only [Option.map_eq_some_iff, Wk.step] at hs
        obtain ⟨w', h1, -⟩ := hs
        have := h.full
        split at h1
        · cases h1
        · rw [if_neg (by omega)] at h1; cases h1
    | closeQueue =>
      simp only [Nested.step, Option.map_eq_some_iff, Wk.step] at hs
      obtain ⟨w', h1, rfl⟩ := hs
      split at h1
      · cases h1
      · injection h1 with h1; subst h1; exact fz rfl rfl rfl rfl
    | work w =>
      simp only [Nested.step, Option.map_eq_some_iff, Wk.step] at hs
      obtain ⟨w', h1, rfl⟩ := hs
      have hlt : w < s.w.numWorkers := by
        rcases Nat.lt_or_ge w s.w.numWorkers with hlt | hge
        · exact hlt
        · rw [List.getElem?_eq_none (by rw [h.len]; exact hge)] at h1; cases h1
      obtain ⟨k, hh, e⟩ := h.work w hlt
      rw [e] at h1; cases h1
    | handlerReturn w r =>
      simp only [Nested.step] at hs
      split at hs
      · cases hs
      · rename_i hb
        simp only [Option.map_eq_some_iff, Wk.step] at hs
        obtain ⟨w', h1, rfl⟩ := hs
        have hlt : w < s.w.numWorkers := by
          rcases Nat.lt_or_ge w s.w.numWorkers with hlt | hge
          · exact hlt
          · rw [List.getElem?_eq_none (by rw [h.len]; exact hge)] at h1; cases h1
        exact absurd (h.blocked hlt) hb
    | send k hh data =>
      simp only [Nested.step, Option.map_eq_some_iff, Wk.step] at hs
      obtain ⟨w', h1, rfl⟩ := hs
      split at h1
      · split at h1
        · injection h1 with h1; subst h1
          unfold Wk.State.ctxSend
          repeat' split
          all_goals exact fz rfl rfl rfl rfl
        · cases h1
      · cases h1
  | request w data =>
    simp only [Nested.step] at hs
    split at hs
    · rename_i k hh e
      have hlt : w < s.w.numWorkers := by rw [← h.len]; exact (List.getElem?_eq_some_iff.1 e).1
      rw [if_pos (h.blocked hlt)] at hs; cases hs
    · cases hs

theorem Stuck.run {s s' : Nested.State ε} {as : List (Nested.Action ε)} (h : Stuck s) (hc : ∀ i, .c (.reqCancel i) ∈ as → ∀ w, w < s.w.numWorkers → s.call w ≠ some i) (hr : runs Nested.step s as = some s') :
    Stuck s' ∧ Frozen s s' := by
  induction as generalizing s with
  | nil => simp only [runs, Option.some.injEq] at hr; subst hr; exact ⟨h, rfl, rfl, rfl, rfl, rfl⟩
  | cons a as ih =>
    obtain ⟨s1, h1, h2⟩ := runs_cons hr
    obtain ⟨g1, g2, g3⟩ := h.step (fun i e => hc i (by rw [e]; exact List.mem_cons_self ..)) h1
    obtain ⟨f1, f2, f3, f4, f5⟩ := g2
    obtain ⟨k1, k2, k3, k4, k5, k6⟩ := ih g1 (by rw [g3, f5]; exact fun i hi => hc i (List.mem_cons_of_mem _ hi)) h2
    exact ⟨k1, k2.trans f1, k3.trans f2, k4.trans f3, k5.trans f4, k6.trans f5⟩

/-! ## Reaching such a state -/

/-- `j` workers are inside the first handler, each having written a request; the queue holds `q` messages; `r` frames wait in the read buffer. -/
structure Prep (W H : Nat) (data : Bytes) (s : Nested.State ε) (j q r : Nat) : Prop where
  nw : s.w.numWorkers = W
  nh : s.w.numHandlers = H
  items : s.w.items.length = j + q
  head : s.w.head = j
  qopen : s.w.queueClosed = false
  len : s.w.workers.length = W
  inside : ∀ w, w < j → s.w.workers[w]? = some (.inside w 0)
  idle : ∀ w, j ≤ w → w < W → s.w.workers[w]? = some .idle
  call : ∀ w, w < j → s.call w = some w
  calls : s.c.calls.length = j
  waiting : ∀ w, w < j → ∃ n, s.c.calls[w]? = some ⟨n, data, .waiting, none⟩ ∧ (⟨n, data⟩ : Message) ∈ Spec.wroteOf s.c.log
  main : s.c.main = .recv
  writer : s.c.writer = .check
  conn : s.c.conn = .open
  rd : s.c.readerDone = false
  cd : s.c.clientDone = false
  wc : s.c.writerClosed = false
  wb : s.c.writerBuf = []
  rbuf : s.c.rbuf = r
  zero : s.c.reqs.entries 0 = none
  early : ReqEarly s.c.reqs j
  nocall : ∀ w, j ≤ w → s.call w = none

/-- The connection is set up. -/
def setup (id : ID) : List (Nested.Action ε) := [.c .main, .c .dialOK, .c .arrive, .c .hsKey, .c .arrive, .c (.hsOK id), .c .main, .c .main, .c .main]

theorem prep_zero (W H : Nat) (data : Bytes) (id : ID) : ∃ s : Nested.State ε, Nested.Reachable W H s ∧ Prep W H data s 0 0 0 := by
  refine ⟨_, ⟨setup id, rfl⟩, ?_⟩
  constructor <;> try rfl
  · simp [Nested.State.new, Wk.State.new]
  · intro w hw; omega
  · intro w _ hw; simp [Nested.State.new, Wk.State.new, hw]
  · intro w hw; omega
  · intro w hw; omega
  · exact ⟨rfl, fun _ _ => rfl⟩
  · intro w _; rfl

/-- A message that is not a response arrives and goes to the queue. -/
theorem prep_fill {W H j q r : Nat} {data : Bytes} {s : Nested.State ε} (d : Bytes) (h : Prep W H data s j q r) (hq : q < W) :
    ∃ s', ReachFrom Nested.step s s' ∧ Prep W H data s' j (q + 1) r := by
  obtain ⟨c, w, call⟩ := s
  obtain ⟨side, main, writer, conn, suite, id, ready, rd, wd, cd, cr, err, once, wc, wb, reqs, calls, rbuf, ip, log⟩ := c
  obtain ⟨nw, nh, items, head, qc, workers, sent, wlog⟩ := w
  obtain ⟨h1, h2, h3, h4, h5, h6, h7, h8, h9, h10, h11, h12, h13, h14, h15, h16, h17, h18, h19, h20, h21, h22⟩ := h
  simp only at h1 h2 h3 h4 h5 h6 h7 h8 h9 h10 h11 h12 h13 h14 h15 h16 h17 h18 h19 h20 h21 h22
  subst h1 h2 h4 h5 h12 h13 h14 h15 h16 h17 h18 h19
  have hlt : items.length - head < nw := by omega
  refine ⟨?_, ⟨[.c .arrive, .c (.readMsg ⟨0, d⟩), .c .main, .deliver, .c .main], ?run⟩, ?prep⟩
  case run =>
    simp [runs, Nested.step, Cl.step, Cl.State.mainStep, Cl.State.route, RequestMap.findRequest, h20, Wk.step, hlt]
    rfl
  · constructor <;> try first | rfl | assumption
    · simp; omega
    · intro w hw
      obtain ⟨n, e1, e2⟩ := h11 w hw
      refine ⟨n, e1, ?_⟩
      simp [Spec.wroteOf] at e2 ⊢
      exact e2

/-- A worker takes the message on the queue, and its handler makes a request, which is written. -/
theorem prep_take {W H j r : Nat} {data : Bytes} {s : Nested.State ε} (h : Prep W H data s j 1 r) (hj : j < W) (hW : W < 2 ^ 64 - 1) (hH : 0 < H) :
    ∃ s', ReachFrom Nested.step s s' ∧ Prep W H data s' (j + 1) 0 r := by
  obtain ⟨c, w, call⟩ := s
  obtain ⟨side, main, writer, conn, suite, id, ready, rd, wd, cd, cr, err, once, wc, wb, reqs, calls, rbuf, ip, log⟩ := c
  obtain ⟨nw, nh, items, head, qc, workers, sent, wlog⟩ := w
  obtain ⟨h1, h2, h3, h4, h5, h6, h7, h8, h9, h10, h11, h12, h13, h14, h15, h16, h17, h18, h19, h20, h21, h22⟩ := h
  simp only at h1 h2 h3 h4 h5 h6 h7 h8 h9 h10 h11 h12 h13 h14 h15 h16 h17 h18 h19 h20 h21 h22
  subst h1 h2 h4 h5 h12 h13 h14 h15 h16 h17 h18 h19 h10
  have hidle := h8 calls.length (Nat.le_refl _) hj
  have hlt : calls.length < items.length := by omega
  have hw : calls.length < workers.length := by omega
  have hidle' : workers[calls.length] = .idle := (List.getElem?_eq_some_iff.1 hidle).2
  have hnc := h22 calls.length (Nat.le_refl _)
  have hcand := candidate_early h21 (by omega)
  have hfree : reqs.entries reqs.candidate = none := h21.free _ (by omega)
  refine ⟨?_, ⟨[.w (.work calls.length), .w (.work calls.length), .request calls.length data, .c (.reqSend calls.length), .c .writer, .c .writer, .c .writer, .c .writer, .c .writer], ?run⟩, ?prep⟩
  case run =>
    simp [runs, Nested.step, Cl.step, Cl.State.writerStep, Cl.State.setCall, Cl.State.send, RequestMap.nextNonce, hfree, Wk.step, Wk.State.setWorker, hidle', hlt, hw, hH, State.blocked, hnc]
    rfl
  · constructor <;> try first | rfl | assumption
    · simp [h6]
    · intro w hw
      simp only [List.getElem?_set]
      split
      · simp_all
      · exact h7 w (by omega)
    · intro w hw hw'
      simp only [List.getElem?_set]
      split
      · omega
      · exact h8 w (by omega) hw'
    · intro w hw
      simp only
      split
      · simp_all
      · exact h9 w (by omega)
    · simp
    · intro w hw
      rcases Nat.lt_or_ge w calls.length with hlt | hge
      · obtain ⟨n, e1, e2⟩ := h11 w hlt
        refine ⟨n, ?_, ?_⟩
        · simp only
          rw [List.getElem?_append_left hlt]; exact e1
        · simp [Spec.wroteOf] at e2 ⊢
          exact .inl e2
      · have : w = calls.length := by omega
        subst this
        exact ⟨reqs.candidate, by simp, by simp [Spec.wroteOf]⟩
    · simp only
      rw [if_neg (fun e => candidate_ne_zero _ e.symm)]; exact h20
    · refine ⟨hcand, fun n hn => ?_⟩
      have : n ≠ reqs.candidate := by rintro rfl; omega
      simp only [this, if_false]
      exact h21.free n (by omega)
    · intro w hw
      simp only
      rw [if_neg (by omega)]; exact h22 w (by omega)

theorem prep_arrive {W H j q r : Nat} {data : Bytes} {s : Nested.State ε} (h : Prep W H data s j q r) : ∃ s', ReachFrom Nested.step s s' ∧ Prep W H data s' j q (r + 1) := by
  refine ⟨{ s with c := { s.c with rbuf := s.c.rbuf + 1 } }, ⟨[.c .arrive], by simp [runs, Nested.step, Cl.step, h.conn]⟩, ?_⟩
  obtain ⟨h1, h2, h3, h4, h5, h6, h7, h8, h9, h10, h11, h12, h13, h14, h15, h16, h17, h18, h19, h20, h21, h22⟩ := h
  exact ⟨h1, h2, h3, h4, h5, h6, h7, h8, h9, h10, h11, h12, h13, h14, h15, h16, h17, h18, congrArg (· + 1) h19, h20, h21, h22⟩

theorem prep_workers (W H : Nat) (data : Bytes) (id : ID) (hW : W < 2 ^ 64 - 1) (hH : 0 < H) (j : Nat) (hj : j ≤ W) : ∃ s : Nested.State ε, Nested.Reachable W H s ∧ Prep W H data s j 0 0 := by
  induction j with
  | zero => exact prep_zero W H data id
  | succ j ih =>
    obtain ⟨s, h1, h2⟩ := ih (by omega)
    obtain ⟨s', h3, h4⟩ := prep_fill [] h2 (by omega)
    obtain ⟨s'', h5, h6⟩ := prep_take h4 (by omega) hW hH
    exact ⟨s'', (h1.trans h3).trans h5, h6⟩

theorem prep_full (W H : Nat) (data : Bytes) (id : ID) (hW : W < 2 ^ 64 - 1) (hH : 0 < H) (q : Nat) (hq : q ≤ W) : ∃ s : Nested.State ε, Nested.Reachable W H s ∧ Prep W H data s W q 0 := by
  induction q with
  | zero => exact prep_workers W H data id hW hH W (Nat.le_refl _)
  | succ q ih =>
    obtain ⟨s, h1, h2⟩ := ih (by omega)
    obtain ⟨s', h3, h4⟩ := prep_fill [] h2 (by omega)
    exact ⟨s', h1.trans h3, h4⟩

theorem prep_buffered (W H : Nat) (data : Bytes) (id : ID) (hW : W < 2 ^ 64 - 1) (hH : 0 < H) (r : Nat) : ∃ s : Nested.State ε, Nested.Reachable W H s ∧ Prep W H data s W W r := by
  induction r with
  | zero => exact prep_full W H data id hW hH W (Nat.le_refl _)
  | succ r ih =>
    obtain ⟨s, h1, h2⟩ := ih
    obtain ⟨s', h3, h4⟩ := prep_arrive h2
    exact ⟨s', h1.trans h3, h4⟩

/-- **C88** refuted: a handler may not rely on `Request` completing, even if the peer answers every request. For every number of workers `W ≥ 1` and of handlers there is a reachable state in which
every worker is inside a handler that waits for the response to a request, written to the peer, over an open connection; `W` further frames (room for all the responses) have arrived; and whatever
happens from there on - any frames, any actions of the peer, of users and of other connections - short of one of these requests being cancelled, no worker ever moves again, no message is taken from
the queue or read from this connection, and none of the requests returns. -/
theorem C88_nested_requests_refuted (W H : Nat) (data : Bytes) (id : ID) (h0 : 0 < W) (hW : W < 2 ^ 64 - 1) (hH : 0 < H) :
    ∃ s : Nested.State ε, Nested.Reachable W H s ∧ s.c.conn = .open ∧ W ≤ s.c.rbuf ∧
      (∀ w, w < W → ∃ k h i c, s.w.workers[w]? = some (.inside k h) ∧ s.call w = some i ∧ s.c.calls[i]? = some c ∧ c.st = .waiting ∧ (⟨c.nonce, c.data⟩ : Message) ∈ Spec.wroteOf s.c.log) ∧
      ∀ as s', runs Nested.step s as = some s' → (∀ i, .c (.reqCancel i) ∈ as → ∀ w, w < W → s.call w ≠ some i) →
        s'.w.workers = s.w.workers ∧ s'.w.head = s.w.head ∧ s'.c.main = s.c.main ∧
        ∀ w, w < W → ∃ i c, s.call w = some i ∧ s'.c.calls[i]? = some c ∧ (c.st = .registered ∨ c.st = .waiting) := by
  obtain ⟨s, h1, h2⟩ := prep_buffered (ε := ε) W H data id hW hH (W + 1)
  have hread : runs Nested.step s [.c (.readMsg ⟨0, []⟩), .c .main] =
      some { s with c := { s.c with main := .delivering ⟨0, []⟩, rbuf := s.c.rbuf - 1, log := s.c.log ++ [.processed ⟨0, []⟩ false] } } := by
    simp [runs, Nested.step, Cl.step, Cl.State.mainStep, Cl.State.route, RequestMap.findRequest, h2.zero, h2.main, h2.rbuf]
  refine ⟨_, h1.run hread, h2.conn, by simp [h2.rbuf], ?_, ?_⟩
  · intro w hw
    obtain ⟨n, e1, e2⟩ := h2.waiting w hw
    refine ⟨w, 0, w, _, h2.inside w hw, h2.call w hw, e1, rfl, ?_⟩
    simp [Spec.wroteOf] at e2 ⊢
    exact e2
  · intro as s' hr hc
    have hst : Stuck { s with c := { s.c with main := .delivering ⟨0, []⟩, rbuf := s.c.rbuf - 1, log := s.c.log ++ [.processed ⟨0, []⟩ false] } } := by
      refine ⟨by simp [h2.len, h2.nw], ?_, ?_, ?_, ⟨_, rfl⟩⟩
      · intro w hw
        exact ⟨w, 0, h2.inside w (by simpa [h2.nw] using hw)⟩
      · intro w hw
        have hw' : w < W := by simpa [h2.nw] using hw
        obtain ⟨n, e1, -⟩ := h2.waiting w hw'
        exact ⟨w, _, h2.call w hw', e1, .inr rfl, rfl⟩
      · simp only [h2.nw, h2.items, h2.head]; omega
    obtain ⟨g1, g2⟩ := hst.run (fun i hi w hw => hc i hi w (by simpa [h2.nw] using hw)) hr
    obtain ⟨f1, f2, f3, f4, f5⟩ := g2
    refine ⟨f1, f3, f4, fun w hw => ?_⟩
    have hn : s'.w.numWorkers = W := by rw [← g1.len, f1]; exact h2.len
    obtain ⟨i, c, e1, e2, e3, -⟩ := g1.wait w (by omega)
    exact ⟨i, c, by rw [← f5]; exact e1, e2, e3⟩

/-! ## Unless all of them wait -/

/-- Worker `w` is not waiting for a response, and has not ended or met an error. -/
def Free (s : Nested.State ε) (w : Nat) : Prop :=
  (s.w.workers[w]? = some .idle ∨ (∃ k h, s.w.workers[w]? = some (.next k h)) ∨ ∃ k h, s.w.workers[w]? = some (.inside k h)) ∧ s.blocked w = false

/-- These actions belong to worker `w` and the handlers that it runs, none of which returns an error. -/
def ByWorker (w : Nat) : Nested.Action ε → Prop
  | .w (.work w') => w' = w
  | .w (.handlerReturn w' none) => w' = w
  | _ => False

theorem len_reach {W H : Nat} {s : Nested.State ε} (h : Nested.Reachable W H s) : s.w.workers.length = W ∧ s.w.numWorkers = W ∧ s.w.items.length - s.w.head ≤ W := by
  refine h.ind (P := fun s => s.w.workers.length = W ∧ s.w.numWorkers = W ∧ s.w.items.length - s.w.head ≤ W) (by simp [Nested.State.new, Wk.State.new]) ?_
  intro s a s' _ ih hs
  have key : ∀ {b : Wk.Action ε} {w' : Wk.State ε}, Wk.step s.w b = some w' → w'.workers.length = W ∧ w'.numWorkers = W ∧ w'.items.length - w'.head ≤ W := by
    intro b w' hb
    obtain ⟨i1, i2, i3⟩ := ih
    cases b with
    | send k h data =>
      simp only [Wk.step] at hb
      repeat' split at hb
      · injection hb with hb; subst hb
        unfold Wk.State.ctxSend
        repeat' split
        all_goals exact ⟨i1, i2, i3⟩
      all_goals cases hb
    | _ =>
      simp only [Wk.step] at hb
      repeat' split at hb
      all_goals first
        | cases hb; done
        | (injection hb with hb; subst hb; simp only [Wk.State.setWorker, List.length_set, List.length_append, List.length_cons, List.length_nil]; refine ⟨i1, i2, ?_⟩; omega)
  cases a with
  | c act =>
    simp only [Nested.step] at hs
    split at hs
    · cases hs
    · simp only [Option.map_eq_some_iff] at hs
      obtain ⟨c', -, rfl⟩ := hs; exact ih
  | deliver =>
    simp only [Nested.step] at hs
    split at hs
    · simp only [Option.bind_eq_some_iff, Option.map_eq_some_iff] at hs
      obtain ⟨c', -, w', h1, rfl⟩ := hs; exact key h1
    · cases hs
  | w act =>
    simp only [Nested.step] at hs
    repeat' split at hs
    all_goals first | cases hs; done | (simp only [Option.map_eq_some_iff] at hs; obtain ⟨w', h1, rfl⟩ := hs; exact key h1)
  | request w data =>
    simp only [Nested.step] at hs
    repeat' split at hs
    all_goals first | cases hs; done | (simp only [Option.map_eq_some_iff] at hs; obtain ⟨c', -, rfl⟩ := hs; exact ih)

/-- Running the remaining handlers of the item. -/
theorem finish_item {w k : Nat} (n : Nat) : ∀ {h : Nat} {s : Nested.State ε}, s.w.workers[w]? = some (.next k h) → s.w.numHandlers - h = n → s.blocked w = false →
    ∃ as s', (∀ a ∈ as, ByWorker w a) ∧ runs Nested.step s as = some s' ∧ s'.w.workers[w]? = some .idle ∧ s'.c = s.c ∧ s'.w.items = s.w.items ∧ s'.w.head = s.w.head ∧
      s'.w.queueClosed = s.w.queueClosed ∧ s'.w.numWorkers = s.w.numWorkers := by
  induction n with
  | zero =>
    intro h s hw hn _
    refine ⟨[.w (.work w)], { s with w := s.w.setWorker w .idle [] }, by simp [ByWorker], ?_, ?_, rfl, rfl, rfl, rfl, rfl⟩
    · have : ¬ h < s.w.numHandlers := by omega
      simp [runs, Nested.step, Wk.step, hw, this]
    · simp [Wk.State.setWorker, (List.getElem?_eq_some_iff.1 hw).1]
  | succ n ih =>
    intro h s hw hn hb
    have hlt := (List.getElem?_eq_some_iff.1 hw).1
    obtain ⟨as, s', h1, h2, h3, h4, h5, h6, h7, h8⟩ := ih (h := h + 1) (s := { s with w := (s.w.setWorker w (.inside k h) [.started k h]).setWorker w (.next k (h + 1)) [.finished k h none] })
      (by simp [Wk.State.setWorker, hlt]) (by simp [Wk.State.setWorker]; omega) (by simpa [State.blocked] using hb)
    refine ⟨.w (.work w) :: .w (.handlerReturn w none) :: as, s', by simpa [ByWorker] using h1, ?_, h3, h4, h5, h6, h7, h8⟩
    refine runs_step (s1 := { s with w := s.w.setWorker w (.inside k h) [.started k h] }) ?_ (runs_step ?_ h2)
    · have : h < s.w.numHandlers := by omega
      simp [Nested.step, Wk.step, hw, this]
    · have hb' : State.blocked { s with w := s.w.setWorker w (.inside k h) [.started k h] } w = false := hb
      simp only [Nested.step, hb', Bool.false_eq_true, if_false]
      simp [Wk.step, Wk.State.setWorker, hlt]

/-- **C88**, partial. A received message that waits for room on the queue gets it as long as one worker is not waiting for a response itself: from every reachable state in which the queue has not been
closed and some worker has not ended and is not inside a request, a finite number of steps of that worker alone, its handlers returning without error, lets the receive loop go on. (Missing from the
full claim: the case in which all the workers wait, C88_nested_requests_refuted.) -/
theorem C88_free_worker_partial {W H : Nat} {s : Nested.State ε} (hr : Nested.Reachable W H s) {m : Message} (hm : s.c.main = .delivering m) (hq : s.w.queueClosed = false) {w : Nat} (hf : Free s w) :
    ∃ as s', (∀ a ∈ as, ByWorker w a) ∧ runs Nested.step s as = some s' ∧ s'.c = s.c ∧ ∃ s'', Nested.step s' .deliver = some s'' ∧ s''.w.items = s.w.items ++ [⟨0, m⟩] ∧ s''.c.main = .recvCb := by
  obtain ⟨hl, hn, hle⟩ := len_reach hr
  -- with room, at once
  have room : ∀ {s' : Nested.State ε}, s'.c = s.c → s'.w.items = s.w.items → s'.w.queueClosed = false → s'.w.items.length - s'.w.head < s'.w.numWorkers →
      ∃ s'', Nested.step s' .deliver = some s'' ∧ s''.w.items = s.w.items ++ [⟨0, m⟩] ∧ s''.c.main = .recvCb := by
    intro s' e1 e2 e3 e4
    simp [Nested.step, e1, hm, Cl.step, Wk.step, e3, e4, e2]
    rw [e2] at e4
    simp [e4]
  -- an idle worker
  have idle : ∀ {s' : Nested.State ε}, s'.c = s.c → s'.w.items = s.w.items → s'.w.queueClosed = false → s'.w.numWorkers = W → s'.w.workers[w]? = some .idle → 0 < W →
      s'.w.items.length - s'.w.head ≤ W →
      ∃ as s2, (∀ a ∈ as, ByWorker w a) ∧ runs Nested.step s' as = some s2 ∧ s2.c = s.c ∧ ∃ s'', Nested.step s2 .deliver = some s'' ∧ s''.w.items = s.w.items ++ [⟨0, m⟩] ∧ s''.c.main = .recvCb := by
    intro s' e1 e2 e3 e4 e5 h0 hle
    rcases Nat.lt_or_ge (s'.w.items.length - s'.w.head) s'.w.numWorkers with hlt | hge
    · exact ⟨[], s', by simp, rfl, e1, room e1 e2 e3 hlt⟩
    · have hh : s'.w.head < s'.w.items.length := by omega
      refine ⟨[.w (.work w)], { s' with w := { s'.w.setWorker w (.next s'.w.head 0) [.taken w s'.w.head] with head := s'.w.head + 1 } }, by simp [ByWorker], ?_, e1, room e1 e2 e3 ?_⟩
      · simp [runs, Nested.step, Wk.step, e5, hh]
      · simp only [Wk.State.setWorker]; omega
  obtain ⟨hpc, hb⟩ := hf
  have h0 : 0 < W := by
    have : w < s.w.workers.length := by
      rcases hpc with e | ⟨k, h, e⟩ | ⟨k, h, e⟩ <;> exact (List.getElem?_eq_some_iff.1 e).1
    omega
  have next : ∀ {s1 : Nested.State ε} {k h : Nat}, s1.c = s.c → s1.w.items = s.w.items → s1.w.head = s.w.head → s1.w.queueClosed = false → s1.w.numWorkers = W → s1.w.workers[w]? = some (.next k h) → s1.blocked w = false →
      ∃ as s2, (∀ a ∈ as, ByWorker w a) ∧ runs Nested.step s1 as = some s2 ∧ s2.c = s.c ∧ ∃ s'', Nested.step s2 .deliver = some s'' ∧ s''.w.items = s.w.items ++ [⟨0, m⟩] ∧ s''.c.main = .recvCb := by
    intro s1 k h e1 e2 e3 e4 e5 e6 e7
    obtain ⟨as, s', g1, g2, g3, g4, g5, g6, g7, g8⟩ := finish_item (w := w) (k := k) _ e6 rfl e7
    obtain ⟨bs, s2, f1, f2, f3, f4⟩ := idle (s' := s') (g4.trans e1) (g5.trans e2) (g7.trans e4) (g8.trans e5) g3 h0 (by rw [g5, g6, e2, e3]; exact hle)
    refine ⟨as ++ bs, s2, ?_, runs_trans g2 f2, f3, f4⟩
    intro a ha
    rcases List.mem_append.1 ha with ha | ha
    · exact g1 a ha
    · exact f1 a ha
  rcases hpc with e | ⟨k, h, e⟩ | ⟨k, h, e⟩
  · exact idle rfl rfl hq hn e h0 hle
  · exact next rfl rfl rfl hq hn e hb
  · have hlt := (List.getElem?_eq_some_iff.1 e).1
    obtain ⟨as, s2, g1, g2, g3⟩ := next (s1 := { s with w := s.w.setWorker w (.next k (h + 1)) [.finished k h none] }) (k := k) (h := h + 1) rfl rfl rfl hq hn (by simp [Wk.State.setWorker, hlt]) hb
    refine ⟨.w (.handlerReturn w none) :: as, s2, by simpa [ByWorker] using g1, runs_step ?_ g2, g3⟩
    simp [Nested.step, hb, Wk.step, e]

/-- One worker, one handler: the state of the refutation exists, and the partial theorem's hypotheses are met when nobody makes a request. -/
example : ∃ s : Nested.State Unit, Nested.Reachable 1 1 s ∧ s.c.main = .delivering ⟨0, [7]⟩ ∧ s.w.queueClosed = false ∧ s.w.items.length = 2 ∧ Free s 0 :=
  ⟨_, ⟨setup ID.zero ++ [.c .arrive, .c (.readMsg ⟨0, [5]⟩), .c .main, .deliver, .c .main, .w (.work 0), .w (.work 0), .c .arrive, .c (.readMsg ⟨0, [6]⟩), .c .main, .deliver, .c .main,
    .c .arrive, .c (.readMsg ⟨0, [7]⟩), .c .main], rfl⟩, rfl, rfl, rfl, .inr (.inr ⟨0, 0, rfl⟩), rfl⟩

end Noise
