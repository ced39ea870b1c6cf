import Verif.Proofs.WorkerDone
import Mathlib.Data.List.Perm.Subperm
/-! # Properties C24, C43, C44: handlers -/
namespace Noise
open Spec Wk
variable {ε : Type}

/-! ## C44 -/

/-- C44: in every schedule of any number of workers, messages are taken off the queue in order, each once (by one worker), and what happens to message `k` is: nothing yet; or one
worker takes it and runs the handlers in order of registration, each once and each after the previous one succeeded; after the first error nothing more happens. -/
theorem C44_handlers_in_order (N H : Nat) (s : Wk.State ε) (h : Wk.Reachable N H s) :
    takenOf s.log = List.range (takenOf s.log).length ∧ (takenOf s.log).length ≤ s.items.length ∧
    ∀ k, handlingOf k s.log = [] ∨ ∃ w n tail, handlingOf k s.log = handledUpTo w k n ++ tail ∧
      ((tail = [] ∧ n ≤ H) ∨ (tail = [.started k n] ∧ n < H) ∨ (∃ e, tail = [.started k n, .finished k n (some e)] ∧ n < H)) := by
  have i := Wk.Inv.reach h
  refine ⟨by rw [i.taken]; simp, by rw [i.taken]; simpa using i.head, ?_⟩
  intro k
  rcases i.shape k with e | ⟨w, n, ⟨e, hn⟩ | ⟨hn, e | ⟨x, e⟩⟩⟩
  · exact Or.inl e
  · exact Or.inr ⟨w, n, [], by simpa using e, Or.inl ⟨rfl, hn⟩⟩
  · exact Or.inr ⟨w, n, _, e, Or.inr (Or.inl ⟨rfl, hn⟩)⟩
  · exact Or.inr ⟨w, n, _, e, Or.inr (Or.inr ⟨x, rfl, hn⟩)⟩

/-- Two workers, two handlers, interleaved; the second message fails in its first handler. -/
example (a b : Message) : ∃ s : Wk.State Nat, runs Wk.step (.new 2 2)
    [.enqueue ⟨7, a⟩, .enqueue ⟨8, b⟩, .work 1, .work 0, .work 0, .work 1, .handlerReturn 0 (some 5), .handlerReturn 1 none, .work 1, .handlerReturn 1 none,
      .work 0, .work 1, .work 0] = some s ∧
    handlingOf 0 s.log = handledUpTo 1 0 2 ∧ handlingOf 1 s.log = [.taken 0 1, .started 1 0, .finished 1 0 (some 5)] ∧ failures s.log = 1 ∧
    s.log.getLast? = some (.closed 8) := ⟨_, rfl, rfl, rfl, rfl, rfl⟩

/-- C44, completeness: a worker that has gone on to a later message, or waits for the next one, or ended because the node shut down, has run every registered handler on the message and all
of them succeeded. -/
theorem C44_all_handlers_run (N H : Nat) (s : Wk.State ε) (h : Wk.Reachable N H s) (w k : Nat) (hk : .taken w k ∈ s.log)
    (hdone : (∃ k', .taken w k' ∈ s.log ∧ k < k') ∨ s.workers[w]? = some .idle ∨ s.workers[w]? = some (.ended false)) :
    handlingOf k s.log = handledUpTo w k H := by
  rcases DoneInv.reach h w k hk with e | ⟨hmax, p, hp, hpk⟩
  · exact e
  · exfalso
    rcases hdone with ⟨k', hm, hlt⟩ | h | h
    · have := hmax k' hm; omega
    · rw [hp] at h; injection h with h; subst h; rcases hpk with h | h <;> cases h
    · rw [hp] at h; injection h with h; subst h; rcases hpk with h | h <;> cases h

/-- One worker with two handlers handles two messages. -/
example (a b : Message) : ∃ s : Wk.State Nat, runs Wk.step (.new 1 2)
    [.enqueue ⟨7, a⟩, .work 0, .work 0, .handlerReturn 0 none, .work 0, .handlerReturn 0 none, .enqueue ⟨8, b⟩, .work 0, .work 0] = some s ∧
    takenOf s.log = [0, 1] ∧ s.log = handledUpTo 0 0 2 ++ [.taken 0 1] := ⟨_, rfl, rfl, rfl⟩

/-! ## C24 -/

/-- Worker 0 of `N` runs handlers `j, ..., j + n - 1` on item 0, each of which sends one response. -/
theorem respond_run (N H : Nat) (m : Message) (hr : m.isRequest = true) (data : Bytes) : ∀ n, n ≤ H →
    ∃ (as : List (Wk.Action ε)) (s : Wk.State ε), runs Wk.step (.new (N + 1) H) as = some s ∧ s.items = [⟨0, m⟩] ∧ s.numHandlers = H ∧
      s.workers = .next 0 n :: List.replicate N .idle ∧ (∀ j, n ≤ j → s.sent 0 j = false) ∧ respondersOf 0 s.log = List.range n := by
  intro n
  induction n with
  | zero =>
    intro _
    refine ⟨[.enqueue ⟨0, m⟩, .work 0], _, rfl, rfl, rfl, rfl, fun _ _ => rfl, rfl⟩
  | succ n ih =>
    intro hn
    obtain ⟨as, s, h1, h2, h3, h4, h5, h6⟩ := ih (by omega)
    have e1 : Wk.step s (.work 0) = some (s.setWorker 0 (.inside 0 n) [.started 0 n]) := by
      simp only [Wk.step, h4, h3, List.getElem?_cons_zero]; rw [if_pos (by omega)]
    have e2 : Wk.step (s.setWorker 0 (.inside 0 n) [.started 0 n]) (.send 0 n data) =
        some ((s.setWorker 0 (.inside 0 n) [.started 0 n]).ctxSend 0 n ⟨0, m⟩ data) := by
      simp [Wk.step, Wk.State.setWorker, h2, Wk.State.hasStarted]
    have e3 : (s.setWorker 0 (.inside 0 n) [.started 0 n]).ctxSend 0 n ⟨0, m⟩ data =
        { s with workers := .inside 0 n :: List.replicate N .idle, sent := fun k' h' => if k' = 0 ∧ h' = n then true else s.sent k' h',
                 log := s.log ++ [.started 0 n] ++ [.sendOk 0 n m.nonce data] } := by
      simp [Wk.State.ctxSend, hr, Wk.State.setWorker, h5 n (Nat.le_refl _), h4]
    rw [e3] at e2
    generalize hsent : (fun k' h' => if k' = 0 ∧ h' = n then true else s.sent k' h') = f at e2
    have e4 : Wk.step { s with workers := .inside 0 n :: List.replicate N .idle, sent := f, log := s.log ++ [.started 0 n] ++ [.sendOk 0 n m.nonce data] }
          (.handlerReturn 0 none) =
        some { s with workers := .next 0 (n + 1) :: List.replicate N .idle, sent := f,
                      log := s.log ++ [.started 0 n] ++ [.sendOk 0 n m.nonce data] ++ [.finished 0 n none] } := rfl
    refine ⟨_, _, runs_trans h1 (runs_step e1 (runs_step e2 (runs_step e4 (runs_nil _)))), h2, h3, rfl, ?_, ?_⟩
    · intro j hj
      show f 0 j = false
      rw [← hsent]
      simp only
      rw [if_neg (by omega)]; exact h5 j (by omega)
    · simp only [respondersOf_append, h6, List.range_succ, List.append_assoc]
      rfl

/-- C24 is false: with `H` handlers registered, one request can be answered `H` times - each handler gets its own copy of the context, hence of the flag. -/
theorem C24_many_responses_refuted (N H : Nat) (m : Message) (hr : m.isRequest = true) (data : Bytes) :
    ∃ s : Wk.State ε, Wk.Reachable (N + 1) H s ∧ s.items = [⟨0, m⟩] ∧ respondersOf 0 s.log = List.range H := by
  obtain ⟨as, s, h1, h2, _, _, _, h6⟩ := respond_run (ε := ε) N H m hr data H (Nat.le_refl _)
  exact ⟨s, ⟨as, h1⟩, h2, h6⟩

example : ∃ m : Message, m.isRequest = true := ⟨⟨1, []⟩, by decide⟩

/-- C24, what does hold: for a request, each invocation of a handler successfully sends at most one response - every further Send on its context returns an error and transmits
nothing; so there are at most as many responses as handlers. For a message that is not a request Send always succeeds. Missing: one response per request if
several handlers are registered (refuted above). -/
theorem C24_one_response_partial (N H : Nat) (s : Wk.State ε) (h : Wk.Reachable N H s) (k : Nat) (it : Item) (hk : s.items[k]? = some it) :
    (it.msg.isRequest = true → (respondersOf k s.log).Nodup ∧ (respondersOf k s.log).length ≤ H) ∧
    (∀ j data s', Wk.step s (.send k j data) = some s' →
      s'.log = s.log ++ (if it.msg.isRequest = true ∧ j ∈ respondersOf k s.log then [.sendErr k j] else [.sendOk k j it.msg.nonce data])) := by
  have g := SendInv.reach h
  refine ⟨fun hr => ⟨g.nodup k it hk hr, ?_⟩, ?_⟩
  · have hsub : respondersOf k s.log ⊆ List.range H := by
      intro j hj
      obtain ⟨n, d, hm⟩ := mem_respondersOf.1 hj
      exact List.mem_range.2 (started_lt h (g.started k j n d hm).1)
    simpa using ((g.nodup k it hk hr).subperm hsub).length_le
  · intro j data s' hs
    simp only [Wk.step, hk] at hs
    split at hs
    · injection hs with hs
      subst hs
      unfold Wk.State.ctxSend
      by_cases hq : it.msg.isRequest = true
      · rw [if_pos hq]
        by_cases hj : j ∈ respondersOf k s.log
        · rw [if_pos (g.marked k it j hk hq hj), if_pos ⟨hq, hj⟩]
        · have : ¬ s.sent k j = true := fun e => hj (g.sent k j e)
          rw [if_neg this, if_neg (fun e => hj e.2)]
      · rw [if_neg hq, if_neg (fun e => hq e.1)]
    · cases hs

/-- A request handled by one handler that tries to answer twice, and a plain message answered twice. -/
example (d : Bytes) : ∃ s : Wk.State Nat, runs Wk.step (.new 1 1)
    [.enqueue ⟨0, ⟨5, []⟩⟩, .work 0, .work 0, .send 0 0 d, .send 0 0 d, .handlerReturn 0 none, .work 0,
     .enqueue ⟨0, ⟨0, []⟩⟩, .work 0, .work 0, .send 1 0 d, .send 1 0 d] = some s ∧
    s.log = [.taken 0 0, .started 0 0, .sendOk 0 0 5 d, .sendErr 0 0, .finished 0 0 none, .taken 0 1, .started 1 0, .sendOk 1 0 0 d, .sendOk 1 0 0 d] := ⟨_, rfl, rfl⟩

/-! ## C43 -/

/-- `j` of the workers are lost after `j` failing messages. -/
theorem fail_run (N H : Nat) (m : Message) (e : ε) : ∀ j, j ≤ N →
    ∃ (as : List (Wk.Action ε)) (s : Wk.State ε), runs Wk.step (.new N (H + 1)) as = some s ∧ s.items.length = j ∧ s.head = j ∧ s.queueClosed = false ∧
      s.numHandlers = H + 1 ∧ s.numWorkers = N ∧ s.workers = List.replicate j (.ended true) ++ List.replicate (N - j) .idle ∧ failures s.log = j := by
  intro j
  induction j with
  | zero => intro _; exact ⟨[], _, rfl, rfl, rfl, rfl, rfl, rfl, by simp [Wk.State.new], rfl⟩
  | succ j ih =>
    intro hj
    obtain ⟨as, s, h1, h2, h3, h4, h5, h6, h7, h8⟩ := ih (by omega)
    have hN : N - j = (N - (j + 1)) + 1 := by omega
    have hidle : ∀ (p q : Pc ε) (r : List (Pc ε)), (List.replicate j p ++ q :: r)[j]? = some q := by
      intro p q r; rw [List.getElem?_append_right (by simp)]; simp
    have hset : ∀ (p q q' : Pc ε) (r : List (Pc ε)), (List.replicate j p ++ q :: r).set j q' = List.replicate j p ++ q' :: r := by
      intro p q q' r; simp
    rw [hN, List.replicate_succ] at h7
    obtain ⟨nw, nh, items, head, qc, ws, sent, log⟩ := s
    simp only at h2 h3 h4 h5 h6 h7 h8
    subst h3 h4 h5 h6 h7
    have hit : (items ++ [⟨0, m⟩])[head]? = some ⟨0, m⟩ := by rw [List.getElem?_append_right (by omega)]; simp [h2]
    have e1 : Wk.step (⟨nw, H + 1, items, head, false, List.replicate head (.ended true) ++ .idle :: List.replicate (nw - (head + 1)) .idle, sent, log⟩ : Wk.State ε)
        (.enqueue ⟨0, m⟩) =
        some ⟨nw, H + 1, items ++ [⟨0, m⟩], head, false, List.replicate head (.ended true) ++ .idle :: List.replicate (nw - (head + 1)) .idle, sent, log⟩ := by
      simp only [Wk.step, Bool.false_eq_true, if_false]
      rw [if_pos (by omega)]
    have e2 : ∀ (p : Pc ε) hd l, Wk.step (⟨nw, H + 1, items ++ [⟨0, m⟩], hd, false, List.replicate head (.ended true) ++ p :: List.replicate (nw - (head + 1)) .idle, sent, l⟩ : Wk.State ε)
        (.handlerReturn head (some e)) = match p with
          | .inside k h => some ⟨nw, H + 1, items ++ [⟨0, m⟩], hd, false, List.replicate head (.ended true) ++ .failing k e :: List.replicate (nw - (head + 1)) .idle, sent, l ++ [.finished k h (some e)]⟩
          | _ => none := by
      intro p hd l
      cases p <;> simp only [Wk.step, hidle, Wk.State.setWorker, hset]
    have e3 : ∀ (p p' : Pc ε) hd es l, (match p with
          | .idle => hd = head ∧ p' = .next head 0 ∧ es = [.taken head head]
          | .next k h => h = 0 ∧ p' = .inside k h ∧ es = [.started k h] ∧ hd = head + 1
          | .failing k e => k = head ∧ p' = .closing k ∧ es = [.reported 0 e] ∧ hd = head + 1
          | .closing k => k = head ∧ p' = .ended true ∧ es = [.closed 0] ∧ hd = head + 1
          | _ => False) →
        Wk.step (⟨nw, H + 1, items ++ [⟨0, m⟩], hd, false, List.replicate head (.ended true) ++ p :: List.replicate (nw - (head + 1)) .idle, sent, l⟩ : Wk.State ε)
          (.work head) = some ⟨nw, H + 1, items ++ [⟨0, m⟩], head + 1, false, List.replicate head (.ended true) ++ p' :: List.replicate (nw - (head + 1)) .idle, sent, l ++ es⟩ := by
      intro p p' hd es l hp
      cases p <;> simp only at hp
      · obtain ⟨rfl, rfl, rfl⟩ := hp
        simp only [Wk.step, hidle, Wk.State.setWorker, hset]
        rw [if_pos (by simp; omega)]
      · obtain ⟨rfl, rfl, rfl, rfl⟩ := hp
        simp only [Wk.step, hidle, Wk.State.setWorker, hset]
        rw [if_pos (by omega)]
      · obtain ⟨rfl, rfl, rfl, rfl⟩ := hp
        simp only [Wk.step, hidle, Wk.State.setWorker, hset, hit]
      · obtain ⟨rfl, rfl, rfl, rfl⟩ := hp
        simp only [Wk.step, hidle, Wk.State.setWorker, hset, hit]
    refine ⟨_, _, runs_trans h1 (runs_step e1 (runs_step (e3 .idle (.next head 0) head [.taken head head] log ⟨rfl, rfl, rfl⟩)
      (runs_step (e3 (.next head 0) (.inside head 0) (head + 1) [.started head 0] _ ⟨rfl, rfl, rfl, rfl⟩)
      (runs_step (e2 (.inside head 0) (head + 1) _) (runs_step (e3 (.failing head e) (.closing head) (head + 1) [.reported 0 e] _ ⟨rfl, rfl, rfl, rfl⟩)
      (runs_step (e3 (.closing head) (.ended true) (head + 1) [.closed 0] _ ⟨rfl, rfl, rfl, rfl⟩) (runs_nil _))))))), ?_⟩
    · refine ⟨by simp [h2], rfl, rfl, rfl, rfl, ?_, ?_⟩
      · simp [List.replicate_succ', List.append_assoc]
      · simp [failures] at h8 ⊢; omega

/-- A worker that has seen a handler error never handles anything again. -/
theorem lost_stays {s s' : Wk.State ε} (hl : ∀ (w : Nat) (p : Pc ε), s.workers[w]? = some p → p.lost = true) {as : List (Wk.Action ε)} (h : runs Wk.step s as = some s') :
    (∀ (w : Nat) (p : Pc ε), s'.workers[w]? = some p → p.lost = true) ∧ takenOf s'.log = takenOf s.log ∧ (∀ k h, .started k h ∈ s'.log → .started k h ∈ s.log) := by
  refine runs_inv (P := fun x => (∀ (w : Nat) (p : Pc ε), x.workers[w]? = some p → p.lost = true) ∧ takenOf x.log = takenOf s.log ∧
    (∀ k h, .started k h ∈ x.log → .started k h ∈ s.log)) ?_ h ⟨hl, rfl, fun _ _ hm => hm⟩
  rintro x a x' ⟨i1, i2, i3⟩ hs
  have upd : ∀ (w : Nat) (p : Pc ε), p.lost = true → ∀ (w' : Nat) (p' : Pc ε), (x.workers.set w p)[w']? = some p' → p'.lost = true := by
    intro w p hp w' p' hw'
    rw [List.getElem?_set] at hw'
    split at hw'
    · split at hw'
      · injection hw' with hw'; exact hw' ▸ hp
      · cases hw'
    · exact i1 w' p' hw'
  wk_cases a hs
  case enqueue => exact ⟨i1, i2, i3⟩
  case closeQueue => exact ⟨i1, i2, i3⟩
  all_goals try (refine ⟨i1, by simpa [takenOf] using i2, fun k h hm => i3 k h (by simpa using hm)⟩)
  all_goals try (rename x.workers[_]? = some _ => hw; have := i1 _ _ hw; simp [Pc.lost] at this)
  all_goals exact ⟨upd _ _ rfl, by simpa [takenOf, Wk.State.setWorker] using i2, fun k h hm => i3 k h (by simpa [Wk.State.setWorker] using hm)⟩

/-- C43 is false: after as many failing messages as there are workers - on whatever connections - the node never handles a message again; such a state is reachable for every
number of workers and of handlers (at least one). -/
theorem C43_workers_die_refuted (N H : Nat) :
    (∀ (s : Wk.State ε), Wk.Reachable N H s → failures s.log = N → ∀ as s', runs Wk.step s as = some s' →
      takenOf s'.log = takenOf s.log ∧ (∀ k h, .started k h ∈ s'.log → .started k h ∈ s.log)) ∧
    (∀ _e : ε, 0 < H → ∃ s : Wk.State ε, Wk.Reachable N H s ∧ failures s.log = N) := by
  refine ⟨?_, ?_⟩
  · intro s h hf as s' hr
    have i := Wk.Inv.reach h
    have hall : ∀ (w : Nat) (p : Pc ε), s.workers[w]? = some p → p.lost = true := by
      have hc : s.workers.countP Pc.lost = s.workers.length := by rw [← lost_reach h, i.len, hf]
      intro w p hp
      exact List.countP_eq_length.1 hc p (List.mem_of_getElem? hp)
    exact (lost_stays hall hr).2
  · intro e hH
    obtain ⟨H, rfl⟩ : ∃ H', H = H' + 1 := ⟨H - 1, by omega⟩
    obtain ⟨as, s, h1, _, _, _, _, _, _, h8⟩ := fail_run (ε := ε) N H ⟨0, []⟩ e N (Nat.le_refl _)
    exact ⟨s, ⟨as, h1⟩, h8⟩

/-- C43, what does hold: every handler error is reported on the connection of its message, which is closed - or the worker's next step does so; and as long as there have
been fewer errors than workers (and the queue is open), the next queued message is handled: some worker can finish what it is doing and take it. Missing:
the node goes on whatever the number of errors (refuted above). -/
theorem C43_error_closes_partial (N H : Nat) (s : Wk.State ε) (h : Wk.Reachable N H s) :
    (∀ k j e, .finished k j (some e) ∈ s.log → ∃ it, s.items[k]? = some it ∧
      ∃ n w s', n ≤ 2 ∧ runs Wk.step s (List.replicate n (.work w)) = some s' ∧ .reported it.client e ∈ s'.log ∧ .closed it.client ∈ s'.log) ∧
    (failures s.log < N → s.queueClosed = false → s.head < s.items.length →
      ∃ w as s', (∀ a ∈ as, Wk.Action.ofWorker w a) ∧ runs Wk.step s as = some s' ∧ takenOf s'.log = List.range (s.head + 1)) := by
  have i := Wk.Inv.reach h
  refine ⟨?_, ?_⟩
  · intro k j e hm
    obtain ⟨it, hit, hc⟩ := FailOK.reach h k j e hm
    refine ⟨it, hit, ?_⟩
    have close : ∀ {s : Wk.State ε} {w : Nat}, s.items[k]? = some it → s.workers[w]? = some (.closing k) →
        Wk.step s (.work w) = some (s.setWorker w (.ended true) [.closed it.client]) := by
      intro s w h1 h2; simp only [Wk.step, h2, h1]
    rcases hc with ⟨w, hw⟩ | ⟨hr, ⟨w, hw⟩ | hcl⟩
    · have e1 : Wk.step s (.work w) = some (s.setWorker w (.closing k) [.reported it.client e]) := by simp only [Wk.step, hw, hit]
      have e2 := close (s := s.setWorker w (.closing k) [.reported it.client e]) (w := w) hit
        (by simp [Wk.State.setWorker, (List.getElem?_eq_some_iff.1 hw).1])
      exact ⟨2, w, _, Nat.le_refl _, runs_step e1 (runs_step e2 (runs_nil _)), by simp [Wk.State.setWorker], by simp [Wk.State.setWorker]⟩
    · exact ⟨1, w, _, by omega, runs_step (close hit hw) (runs_nil _), by simp [Wk.State.setWorker, hr], by simp [Wk.State.setWorker]⟩
    · exact ⟨0, 0, s, by omega, rfl, hr, hcl⟩
  · intro hf hq hlt
    have hex : ∃ (w : Nat) (p : Pc ε), s.workers[w]? = some p ∧ p.lost = false := by
      apply Classical.byContradiction
      intro hno
      have hall : ∀ p ∈ s.workers, p.lost = true := by
        intro p hp
        obtain ⟨w, hw⟩ := List.mem_iff_getElem?.1 hp
        cases hx : p.lost with
        | true => rfl
        | false => exact absurd ⟨w, p, hw, hx⟩ hno
      have := List.countP_eq_length.2 hall
      rw [← lost_reach h, i.len] at this
      omega
    obtain ⟨w, p, hw, hl⟩ := hex
    obtain ⟨as, s1, h1, h2, h3, h4, h5⟩ := drain hw hl (by rintro rfl; rw [ended_reach h w hw] at hq; cases hq)
    have e1 : Wk.step s1 (.work w) = some { s1.setWorker w (.next s1.head 0) [.taken w s1.head] with head := s1.head + 1 } := by
      simp only [Wk.step, h3]; rw [if_pos (by rw [h4, h5]; exact hlt)]
    refine ⟨w, as ++ [.work w], _, ?_, runs_trans h2 (runs_one e1), ?_⟩
    · intro a ha
      rcases List.mem_append.1 ha with ha | ha
      · exact h1 a ha
      · rw [List.mem_singleton.1 ha]; exact Or.inl rfl
    · have r1 := (Wk.Inv.reach ((ReachFrom.run h h2).snoc e1)).taken
      rw [r1, h5]

/-- One of two workers is lost, the other one takes the next message. -/
example (m : Message) : ∃ s : Wk.State Nat, runs Wk.step (.new 2 1)
    [.enqueue ⟨7, m⟩, .work 0, .work 0, .handlerReturn 0 (some 1), .enqueue ⟨8, m⟩] = some s ∧ failures s.log = 1 ∧ s.head < s.items.length ∧ s.queueClosed = false :=
  ⟨_, rfl, rfl, Nat.lt_succ_self 1, rfl⟩

end Noise
