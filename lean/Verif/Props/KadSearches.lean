import Verif.Props.KadSearch
import Verif.Props.KadAnswers
/-! # Property C148: an execution that meets the hypotheses -/
namespace Noise
open Spec Net

/-- A search that has returned, and all of whose goroutines have ended. -/
def quietFind (q : KWire.Find) : Bool := q.it.closed && decide (q.it.shared.chan = []) && q.it.returned.isSome && decide (q.asks = []) && q.it.lookups.all fun l => decide (l.main = .done) && l.workers.all fun w => decide (w = .exited)

theorem quietFind_step {ε : Type} (S : Sorter) (c : KWire.Cfg ε) {s : KWire.State ε} {n f : Nat} (h : ∀ (p : KWire.Part) q, s.parts[n]? = some p → p.finds[f]? = some q → quietFind q = true) :
    (∀ a, KWire.step S c s (.it n f a) = none) ∧ (∀ i j, KWire.step S c s (.ask n f i j) = none) ∧ ∀ i j who, KWire.step S c s (.answer n f i j who) = none := by
  have iter : ∀ q : KWire.Find, quietFind q = true → ∀ a, Iter.step S q.cfg q.it a = none := by
    intro q hq a
    simp only [quietFind, Bool.and_eq_true, decide_eq_true_eq, List.all_eq_true] at hq
    obtain ⟨⟨⟨⟨h1, h2⟩, h3⟩, -⟩, h5⟩ := hq
    cases a with
    | lookup i a =>
      simp only [Iter.step]
      cases hl : q.it.lookups[i]? with
      | none => rfl
      | some l =>
        obtain ⟨g1, g2⟩ := h5 l (List.mem_of_getElem? hl)
        have : Iter.lookupStep q.cfg q.it.shared l a = none := by
          cases a with
          | main => simp [Iter.lookupStep, Iter.mainStep, g1]
          | worker j =>
            simp only [Iter.lookupStep]
            cases hw : l.workers[j]? with
            | none => rfl
            | some w =>
              have := g2 w (List.mem_of_getElem? hw)
              subst this; rfl
          | answer j who r =>
            simp only [Iter.lookupStep]
            cases hw : l.workers[j]? with
            | none => rfl
            | some w =>
              have := g2 w (List.mem_of_getElem? hw)
              subst this; rfl
        simp only [this]
    | close => simp [Iter.step, h1]
    | collect => simp only [Iter.step, h2]
    | finish =>
      obtain ⟨x, hx⟩ := Option.isSome_iff_exists.1 h3
      simp [Iter.step, hx]
  have inner : ∀ (x : Node.State ε) (q : KWire.Find), quietFind q = true → (∀ a, q.step S c n x (.it a) = none) ∧ ∀ i j who, q.step S c n x (.reply i j who) = none := by
    intro x q hq
    have hi := iter q hq
    refine ⟨fun a => ?_, fun i j who => ?_⟩
    · simp only [KWire.Find.step, Search.step, KWire.Cfg.search]
      cases hc : x.crashed with
      | true => simp
      | false => cases a with
        | lookup i b => cases b <;> simp [hi]
        | _ => simp [hi]
    · have : q.asks = [] := by
        simp only [quietFind, Bool.and_eq_true, decide_eq_true_eq] at hq
        exact hq.1.2
      simp [KWire.Find.step, Search.step, this]
  refine ⟨fun a => ?_, fun i j => ?_, fun i j who => ?_⟩
  · simp only [KWire.step, KWire.State.with]
    split
    · rename_i x p hx hp
      split
      · rfl
      · cases hq : p.finds[f]? with
        | none => rfl
        | some q => simp [(inner x q (h p q hp hq)).1 a]
    · rfl
  · simp only [KWire.step]
    split
    · rename_i x p hx hp
      cases hq : p.finds[f]? with
      | none => rfl
      | some q =>
        simp only [iter q (h p q hp hq)]
        split <;> rfl
    · rfl
  · simp only [KWire.step, KWire.State.with]
    split
    · rename_i x p hx hp
      split
      · rfl
      · cases hq : p.finds[f]? with
        | none => rfl
        | some q => simp [(inner x q (h p q hp hq)).2 i j who]
    · rfl

/-- What the nodes of the example know. -/
def kadKnow (e : ID) : List ID := if e = kid 1 then [kid 2] else []

/-- Node 0 dials the nodes 1 and 2, and uses these connections for few requests. -/
def kadOut (s : KWire.State Unit) : Bool := match s.net.nodes[0]? with
  | some X => decide (X.conns.length ≤ 2) && (List.range 2).all fun j => match X.conns[j]? with
    | some x => decide (x.addr = (kid (j + 1)).address) && decide (x.c.calls.length < 2)
    | none => true
  | none => true

/-- The tables contain the nodes. -/
def kadTables (s : KWire.State Unit) : Bool := s.parts.all fun p => p.kad.table.all.all fun e => decide (e = kid 0) || decide (e = kid 1) || decide (e = kid 2)

/-- They contain what the nodes know, and few others. -/
def kadKnown (s : KWire.State Unit) : Bool := decide (s.parts.length = 3) && (List.range 3).all fun m => match s.parts[m]? with
  | some p => decide ((p.kad.table.all.filter fun e => e.id ≠ (kid m).id).length ≤ 16) && (kadKnow (kid m)).all fun e => decide (e ∈ p.kad.table.all) && decide (e.id ≠ (kid m).id)
  | none => true

theorem kadAll_known : ((List.range (kadAll.length + 1)).all fun t => kadClosed (kadPlay t) && kadCalls (kadPlay t) && kadOut (kadPlay t) && kadTables (kadPlay t) && (decide (t ≤ kadJoin.length) || kadKnown (kadPlay t))) = true := by decide +kernel

/-- The hypotheses of C148 are met: `Discover` at node 0, which knows node 1 only, finds node 2 as well. -/
example : ∃ t q l, kadJoin.length < t ∧ FindAt kadPlay 0 0 t q ∧ q.it.returned = some (.ok l) ∧ ∀ e, e = kid 1 ∨ e = kid 2 → e ∈ l ∨ ((l.length : Int) = 16 ∧ ∀ x ∈ l, dist x.id.1 (kid 0).id.1 ≤ dist e.id.1 (kid 0).id.1) := by
  obtain ⟨r, -, hend, ok⟩ := kad_fair
  obtain ⟨s, h1, h2⟩ := Option.map_eq_some_iff.1 kadAll_runs
  obtain ⟨hx, hfin⟩ : Execution (KWire.step insertionSorter kads) kadPlay (fun t => kadAll[t]?) ∧ ∀ t, kadAll.length ≤ t → kadPlay t = s := Fair.play_exec h1
  have always : ∀ t, (kadClosed (kadPlay t) = true ∧ kadCalls (kadPlay t) = true ∧ kadOut (kadPlay t) = true ∧ kadTables (kadPlay t) = true) ∧ (kadJoin.length < t → kadKnown (kadPlay t) = true) := by
    have low : ∀ t, t ≤ kadAll.length → (kadClosed (kadPlay t) = true ∧ kadCalls (kadPlay t) = true ∧ kadOut (kadPlay t) = true ∧ kadTables (kadPlay t) = true) ∧ (kadJoin.length < t → kadKnown (kadPlay t) = true) := by
      intro t ht
      have := List.all_eq_true.1 kadAll_known t (List.mem_range.2 (by omega))
      simp only [Bool.and_eq_true, Bool.or_eq_true, decide_eq_true_eq] at this
      obtain ⟨⟨⟨⟨a1, a2⟩, a3⟩, a4⟩, a5⟩ := this
      exact ⟨⟨a1, a2, a3, a4⟩, fun h => a5.resolve_left (by omega)⟩
    intro t
    by_cases ht : t ≤ kadAll.length
    · exact low t ht
    · rw [hfin t (by omega), ← hfin kadAll.length (Nat.le_refl _)]
      have hlt : kadJoin.length < kadAll.length := by decide +kernel
      exact ⟨(low _ (Nat.le_refl _)).1, fun _ => (low _ (Nat.le_refl _)).2 hlt⟩
  have herr : ((List.range (kadAll.length + 1)).all fun t => match kadNet t with | some (.node _ (.handlerReturn _ (some _))) => false | _ => true) = true := by decide +kernel
  have hwires : ((List.range 2).all fun j => (kadPlay kadAll.length).net.wires.any fun w => decide (w.out = ⟨0, j⟩) && decide (w.inn = ⟨j + 1, j⟩)) = true := by decide +kernel
  have hun : ∀ j, j < 2 → Unbroken (fun t => (kadPlay t).net) kadNet ⟨0, j⟩ ⟨j + 1, j⟩ := by
    intro j hj
    refine (unbroken_of_ok (σ := fun t => (kadPlay t).net) (α := kadNet) (o := ⟨0, j⟩) (i := ⟨j + 1, j⟩) ?_ ok ?_).1
    · have := List.all_eq_true.1 hwires j (List.mem_range.2 hj)
      simp only [List.any_eq_true, Bool.and_eq_true, decide_eq_true_eq] at this
      obtain ⟨w, hw, e⟩ := this
      exact ⟨kadAll.length, w, hw, e.1, e.2⟩
    · intro t m w e ha
      by_cases ht : t ≤ kadAll.length
      · have := List.all_eq_true.1 herr t (List.mem_range.2 (by omega))
        rw [ha] at this; cases this
      · rw [kadNet, List.getElem?_eq_none (by omega)] at ha; cases ha
  have hquiet : (((kadPlay kadAll.length).parts[0]?).bind fun p => (p.finds[0]?).map quietFind) = some true := by decide +kernel
  obtain ⟨p0, hp0⟩ : ∃ p, (kadPlay kadJoin.length).parts[0]? = some p := Option.isSome_iff_exists.1 (by decide +kernel)
  have hpz : ((kadPlay kadJoin.length).parts[0]?).map (fun p => (p.finds.length, p.kad.table.peers insertionSorter)) = some (0, .ok [kid 1]) := by decide +kernel
  rw [hp0] at hpz
  obtain ⟨hf0, hpeers⟩ := Prod.mk.inj (Option.some.inj hpz)
  obtain ⟨hq1, hq2, hq3⟩ := quietFind_step insertionSorter kads (s := kadPlay kadAll.length) (n := 0) (f := 0) (by
    intro p q hp hq
    simpa [hp, hq] using hquiet)
  have low3 : ∀ {e : ID}, e = kid 0 ∨ e = kid 1 ∨ e = kid 2 → ∃ i, i < 3 ∧ e = kid i := by
    rintro e (h | h | h)
    · exact ⟨0, by omega, h⟩
    · exact ⟨1, by omega, h⟩
    · exact ⟨2, by omega, h⟩
  obtain ⟨t, q, l, peers, g1, g2, g3, g4, g5⟩ := C148_finds_everybody insertionSorter kads 3 kadPlay _ (KWire.fair_of_rest hx kad_starts kad_alive (T := kadAll.length) (fun t ht => List.getElem?_eq_none ht) r) 0 kadJoin.length (kid 0).id 1 1 16
    (by
      simp [kadAll, kadFind]) p0 hp0 (by
      rw [hf0]
      constructor
      · intro a _ t
        refine ⟨max t kadAll.length, by omega, .inr ?_⟩
        rintro ⟨b, rfl, hb⟩
        rw [hfin _ (by omega), ← hfin kadAll.length (Nat.le_refl _), hq1] at hb
        cases hb
      · intro i j t
        refine ⟨max t kadAll.length, by omega, .inr ?_⟩
        rintro ⟨b, hb, h⟩
        rw [hfin _ (by omega), ← hfin kadAll.length (Nat.le_refl _)] at h
        rcases hb with rfl | rfl | ⟨who, rfl⟩
        · rw [hq1] at h; cases h
        · rw [hq2] at h; cases h
        · rw [hq3] at h; cases h) (by decide) (by decide)
    (fun t X hX => (okNode_spec (ok t X (List.mem_of_getElem? hX))).1) (by decide) (by decide) [(kid 1).address, (kid 2).address] (by decide) (by
      rintro t k c ⟨Y, hY, hk⟩
      have := (always t).1.2.1
      have hY : (kadPlay t).net.nodes[0]? = some Y := hY
      simp only [kadCalls, hY, List.all_eq_true, Bool.or_eq_true, decide_eq_true_eq] at this
      simpa using this c (List.mem_of_getElem? hk)) (by
      have key : ∀ t j x, (kadPlay t).net.conn ⟨0, j⟩ = some x → j < 2 ∧ x.addr = (kid (j + 1)).address ∧ x.c.calls.length < 2 := by
        intro t j x hco
        obtain ⟨X, hX, hj⟩ := conn_split hco
        have := (always t).1.2.2.1
        have hX : (kadPlay t).net.nodes[0]? = some X := hX
        simp only [kadOut, hX, Bool.and_eq_true, decide_eq_true_eq, List.all_eq_true] at this
        have hlt : j < 2 := by have := (List.getElem?_eq_some_iff.1 hj).1; simp only at this; omega
        have h3 := this.2 j (List.mem_range.2 hlt)
        have hj : X.conns[j]? = some x := hj
        rw [hj] at h3
        simp only [Bool.and_eq_true, decide_eq_true_eq] at h3
        exact ⟨hlt, h3⟩
      intro addr t j x hco _ haddr
      obtain ⟨k1, k2, -⟩ := key t j x hco
      refine ⟨⟨j + 1, j⟩, k2.symm.trans haddr, hun j k1, Nat.one_pos, Nat.one_pos, ?_, fun t x hco => ?_⟩
      · intro key t Y q k h v b it hY hq hin _ _
        have := (always t).1.1
        simp only [kadClosed, Bool.and_eq_true, List.all_eq_true, decide_eq_true_eq] at this
        have h4 := (this.2 Y (List.mem_of_getElem? hY)).2
        rw [hq] at h4
        exact of_decide_eq_true (List.all_eq_true.1 h4 _ hin)
      · have := (key t j x hco).2.2
        omega)
    (fun k _ => hend 0 k) (by
      intro t m p e hp he
      have := (always t).1.2.2.2
      simp only [kadTables, List.all_eq_true, Bool.or_eq_true, decide_eq_true_eq] at this
      exact low3 (or_assoc.1 (this p (List.mem_of_getElem? hp) e he))) (by intro i _; exact ⟨rfl, rfl⟩) (by
      have key : ∀ i, i < 3 → ∀ j, j < 3 → ((kid i).id = (kid j).id → i = j) ∧ ((kid i).address = (kid j).address → i = j) := by decide +kernel
      rintro i j hi hj (h | h)
      · exact (key i hi j hj).1 h
      · exact (key i hi j hj).2 h) kadKnow (by
      intro t m p ht hp
      have := (always t).2 ht
      simp only [kadKnown, Bool.and_eq_true, decide_eq_true_eq, List.all_eq_true] at this
      have hm : m < 3 := by rw [← this.1]; exact (List.getElem?_eq_some_iff.1 hp).1
      have h3 := this.2 m (List.mem_range.2 hm)
      rw [hp] at h3
      simp only [Bool.and_eq_true, decide_eq_true_eq, List.all_eq_true] at h3
      exact h3)
  rw [hpeers] at g4; cases g4
  rw [hf0] at g2
  refine ⟨t, q, l, g1, g2, g3, ?_⟩
  have d1 : Discovered (kads.id 0).id (kid 0).id [kid 1] (fun p l => l = kadKnow p) (kid 1) := .peer (by simp)
  rintro e (rfl | rfl)
  · exact g5 _ d1
  · exact g5 _ (.answer d1 rfl (by decide +kernel) (by decide +kernel) (by decide +kernel))

/-- The application of node 0 has told it of somebody, who is connected to and asked, but does not answer. -/
def kadMute : List (KWire.Action Unit) := onKad (atNode 0 [.listen, .acceptStep]) ++ [.kad 0 (.ack (kid 1)), .kad 0 (.step 0), .kad 0 (.step 0), .find 0 (kid 0).id 1 1 16, .it 0 0 (.lookup 0 .main), .ask 0 0 0 0]
    ++ onKad (atNode 0 ([.callStep 0] ++ connDo 0 (connectOut (kid 1))) ++ [.connectOut ⟨0, 0⟩] ++ atNode 0 ([.select 0 .ready, .callStep 0, .callStep 0] ++ connDo 0 [.writer, .writer, .writer, .writer, .writer, .writer] ++ [.expire 0, .cancel 0]))
    ++ [.answer 0 0 0 0 (kid 1).id] ++ kadIt [.lookup 0 (.worker 0), .lookup 0 .main, .lookup 0 .main, .lookup 0 .main, .lookup 0 .main, .lookup 0 .main, .lookup 0 (.worker 0), .lookup 0 .main, .close, .finish]

/-- This, and then nothing. -/
abbrev mutePlay : Nat → KWire.State Unit := Fair.play (KWire.step insertionSorter kads) kadStart kadMute

/-- Nothing crashes and nothing is closed; node 0 calls nobody but the peer, and once. -/
def muteOk (s : KWire.State Unit) : Bool := s.parts.all (fun p => !p.kad.crashed && p.finds.all fun q => q.asks.all fun a => decide (a.call = 0)) &&
  s.net.nodes.all fun X => !X.crashed && X.conns.all (fun x => decide (x.c.once = .fresh)) && X.calls.all fun d => decide (d.addr = (kid 1).address)

theorem kadMute_runs : (runs (KWire.step insertionSorter kads) kadStart kadMute).map (fun s => (s.net.nodes.all quietNode && quietWires s.net, (s.parts[0]?).bind fun p => (p.finds[0]?).map quietFind,
    (s.net.nodes[0]?).bind fun X => (X.calls[0]?).map fun d => d.ended)) = some (true, some true, some true) := by decide +kernel

theorem kadMute_ok : ((List.range (kadMute.length + 1)).all fun t => muteOk (mutePlay t)) = true := by decide +kernel

/-- The hypotheses of C148 are met when nobody answers: `Discover` returns. -/
example : ∃ t q res, 5 < t ∧ FindAt mutePlay 0 0 t q ∧ q.it.returned = some res := by
  obtain ⟨s, h1, h2⟩ := Option.map_eq_some_iff.1 kadMute_runs
  obtain ⟨hx, hfin⟩ : Execution (KWire.step insertionSorter kads) mutePlay (fun t => kadMute[t]?) ∧ ∀ t, kadMute.length ≤ t → mutePlay t = s := Fair.play_exec h1
  simp only [Prod.mk.injEq] at h2
  obtain ⟨h2, h3, h4⟩ := h2
  have always : ∀ t, muteOk (mutePlay t) = true := by
    have low : ∀ t, t ≤ kadMute.length → muteOk (mutePlay t) = true := fun t ht => List.all_eq_true.1 kadMute_ok t (List.mem_range.2 (by omega))
    intro t
    by_cases ht : t ≤ kadMute.length
    · exact low t ht
    · rw [hfin t (by omega), ← hfin kadMute.length (Nat.le_refl _)]
      exact low _ (Nat.le_refl _)
  simp only [muteOk, Bool.and_eq_true, List.all_eq_true, decide_eq_true_eq, Bool.not_eq_true'] at always
  obtain ⟨p0, hp0⟩ : ∃ p, (mutePlay 5).parts[0]? = some p := Option.isSome_iff_exists.1 (by decide +kernel)
  have hpz : ((mutePlay 5).parts[0]?).map (fun p => p.finds.length) = some 0 := by decide +kernel
  rw [hp0] at hpz
  have hf0 : p0.finds.length = 0 := Option.some.inj hpz
  obtain ⟨hq1, hq2, hq3⟩ := quietFind_step insertionSorter kads (s := s) (n := 0) (f := 0) (by
    intro p q hp hq
    simpa [hp, hq] using h3)
  obtain ⟨t, q, res, g1, g2, g3, -⟩ := C148_search_ends insertionSorter kads 3 mutePlay _ (KWire.fair_of_rest hx kad_starts (fun t p hp => ((always t).1 p hp).1) (T := kadMute.length) (fun t ht => List.getElem?_eq_none ht)
      (net_fair_of_rest (KWire.exec_net hx) rfl (T := kadMute.length) (fun t ht => by rw [hfin t ht]) (quietNet_of h2))) 0 5 (kid 0).id 1 1 16 rfl p0 hp0 (by
      rw [hf0]
      constructor
      · intro a _ t
        refine ⟨max t kadMute.length, by omega, .inr ?_⟩
        rintro ⟨b, rfl, hb⟩
        rw [hfin _ (by omega), hq1] at hb
        cases hb
      · intro i j t
        refine ⟨max t kadMute.length, by omega, .inr ?_⟩
        rintro ⟨b, hb, h⟩
        rw [hfin _ (by omega)] at h
        rcases hb with rfl | rfl | ⟨who, rfl⟩
        · rw [hq1] at h; cases h
        · rw [hq2] at h; cases h
        · rw [hq3] at h; cases h)
    (fun t X hX => ((always t).2 X (List.mem_of_getElem? hX)).1.1) (by decide) (by decide) [(kid 1).address] (by decide) (by
      rintro t k d ⟨X, hX, hk⟩
      have := ((always t).2 X (List.mem_of_getElem? hX)).2 d (List.mem_of_getElem? hk)
      simp [this]) (fun _ => False) (fun _ h => h.elim) (fun _ _ _ _ _ h => h.elim) (by
      rintro k t d ⟨t', q, a, ⟨p, hp, hq⟩, ha, rfl⟩ - -
      rw [((always t').1 p (List.mem_of_getElem? hp)).2 q (List.mem_of_getElem? hq) a ha]
      obtain ⟨X, hX, h4⟩ := Option.bind_eq_some_iff.1 h4
      obtain ⟨d, hd, h4⟩ := Option.map_eq_some_iff.1 h4
      exact ⟨kadMute.length, d, ⟨X, by simp only [hfin _ (Nat.le_refl _)]; exact hX, hd⟩, h4⟩) (by
      intro t j x hco ho
      obtain ⟨X, hX, hj⟩ := conn_split hco
      exact absurd (((always t).2 X (List.mem_of_getElem? hX)).1.2 x (List.mem_of_getElem? hj)) ho)
  rw [hf0] at g2
  exact ⟨t, q, res, g1, g2, g3⟩

end Noise
