import Verif.Props.KadWire
import Verif.Props.GossipLive
/-! # C146: an execution in which a search finds a node of which only another node knows -/
namespace Noise
open Spec

/-- The identities, the opcodes and the handler of the nodes of the example. -/
def kid (n : Nat) : ID := newID (gk (n + 1).toUInt8) [0, 0, 0, 0, 0, 0, 0, 0, 0, 0, 255, 255, 10, 0, 0, 1] (n + 1).toUInt16
def kads : KWire.Cfg Unit := ⟨fun _ => ⟨3, 3, 1, 1, fun _ => false⟩, kid, ⟨0, 1, 2, 3, by decide⟩, 0⟩
/-- Steps of the nodes. -/
def onKad (l : List (Net.Action Unit)) : List (KWire.Action Unit) := l.map .net
/-- Three nodes. -/
def kadStart : KWire.State Unit := ⟨Net.State.new 3, (List.range 3).filterMap fun n => (newTable (kid n)).map KWire.Part.new⟩

/-- Node 0 pings node 1, and node 1 pings node 2; each gets to know the other. -/
def kadJoin : List (KWire.Action Unit) := onKad (atNode 0 ([.listen, .acceptStep, .call .ping (kid 1).address, .callStep 0] ++ connDo 0 (connectOut (kid 1))) ++ atNode 1 ([.listen, .acceptStep, .acceptConn ['x'], .acceptStep] ++ connDo 0 (connectIn (kid 0)))
      ++ [.connect ⟨0, 0⟩ ⟨1, 0⟩] ++ atNode 0 [.select 0 .ready, .callStep 0]
      ++ atNode 1 ([.call .ping (kid 2).address, .callStep 0] ++ connDo 1 (connectOut (kid 2))) ++ atNode 2 ([.listen, .acceptStep, .acceptConn ['y'], .acceptStep] ++ connDo 0 (connectIn (kid 1)))
      ++ [.connect ⟨1, 1⟩ ⟨2, 0⟩] ++ atNode 1 ([.select 0 .ready, .callStep 0] ++ connDo 1 [.writer]) ++ atNode 2 (connDo 0 [.writer])) ++ [.kad 0 (.step 0), .kad 0 (.step 0), .kad 1 (.step 0), .kad 1 (.step 1), .kad 2 (.step 0)]

/-- Node `m` gets this request over connection `j` and answers. -/
def kadServe (m j : Nat) (msg : Message) : List (KWire.Action Unit) := onKad (atNode m (connDo j [.arrive, .readMsg msg, .main, .deliver, .main] ++ [.work 0, .work 0])) ++ [.handle m 0, .reply m 0] ++ onKad (atNode m (connDo j [.writer, .writer, .writer, .writer, .writer, .writer]))
    ++ [.leave m 0 none] ++ onKad (atNode m [.work 0])

/-- Steps of the search. -/
def kadIt (l : List Iter.Action) : List (KWire.Action Unit) := l.map (.it 0 0)

/-- `Discover` at node 0: node 1 is asked and names node 2, which is dialled and asked. -/
def kadFind : List (KWire.Action Unit) := [.find 0 (kid 0).id 1 1 16, .it 0 0 (.lookup 0 .main), .ask 0 0 0 0]
    ++ onKad (atNode 0 ([.callStep 1, .select 1 .ready, .callStep 1, .callStep 1] ++ connDo 0 [.writer, .writer, .writer, .writer, .writer, .writer]))
    ++ kadServe 1 0 ⟨1, put16 2 ++ (kid 1).id.1⟩
    ++ onKad (atNode 0 (connDo 0 [.arrive, .readMsg ⟨1, put16 3 ++ marshalFindNodeResponse [kid 2, kid 0]⟩, .main] ++ [.take 1])) ++ [.answer 0 0 0 0 (kid 1).id]
    ++ kadIt [.lookup 0 (.worker 0), .collect, .lookup 0 .main, .lookup 0 (.worker 0), .lookup 0 .main, .lookup 0 .main, .lookup 0 .main] ++ [.ask 0 0 0 0]
    ++ onKad (atNode 0 ([.callStep 2] ++ connDo 1 (connectOut (kid 2))) ++ atNode 2 ([.acceptConn ['z'], .acceptStep] ++ connDo 1 (connectIn (kid 0))) ++ [.connect ⟨0, 1⟩ ⟨2, 1⟩]
      ++ atNode 0 ([.select 2 .ready, .callStep 2, .callStep 2] ++ connDo 1 [.writer, .writer, .writer, .writer, .writer, .writer]))
    ++ kadServe 2 1 ⟨1, put16 2 ++ (kid 2).id.1⟩
    ++ onKad (atNode 0 (connDo 1 [.arrive, .readMsg ⟨1, put16 3 ++ marshalFindNodeResponse [kid 1]⟩, .main] ++ [.take 2])) ++ [.answer 0 0 0 0 (kid 2).id]
    ++ kadIt [.lookup 0 (.worker 0), .collect, .lookup 0 .main, .lookup 0 (.worker 0), .lookup 0 .main, .lookup 0 .main, .lookup 0 .main, .lookup 0 .main, .lookup 0 (.worker 0), .lookup 0 .main, .close, .finish]

/-- All of it. -/
def kadAll : List (KWire.Action Unit) := kadJoin ++ kadFind

/-- The execution that does this, and then nothing. -/
abbrev kadPlay : Nat → KWire.State Unit := Fair.play (KWire.step insertionSorter kads) kadStart kadAll

/-- Nobody else is connected, nobody else replies, few requests. -/
def kadClosed (s : KWire.State Unit) : Bool := decide (s.net.foreign = []) && s.net.nodes.all fun x => x.conns.all (fun y => decide (y.c.calls.length < 2)) && match x.wk with
  | some q => q.log.all fun ev => match ev with
    | .sendOk _ h _ _ => decide (h = 0)
    | _ => true
  | none => true

/-- Everybody is who they say. -/
def kadHonest (s : KWire.State Unit) : Bool := s.parts.all (fun p => decide (p.user = [])) && s.net.nodes.all (fun x => x.conns.all fun y => match y.c.id with
  | some e => decide (e = kid 0) || decide (e = kid 1) || decide (e = kid 2)
  | none => true)

/-- Every connection leads to the node that was dialled. -/
def kadDials (s : KWire.State Unit) : Bool := s.net.wires.all fun w => match s.net.conn w.out with
  | some y => decide (w.inn.node < 3) && decide (y.addr = (kid w.inn.node).address)
  | none => true

theorem kadAll_runs : (runs (KWire.step insertionSorter kads) kadStart kadAll).map (fun s => (s.parts[0]?).map fun p => p.finds.map fun f => f.it.returned) = some (some [some (.ok [kid 2, kid 1])]) := by decide +kernel

theorem kadAll_ok : ((List.range (kadAll.length + 1)).all fun t => kadClosed (kadPlay t) && kadHonest (kadPlay t) && kadDials (kadPlay t)) = true := by decide +kernel

theorem kad_starts : KWire.Start kads 3 kadStart := by
  have h : ∀ n, n < 3 → (newTable (kid n)).isSome = true := by decide +kernel
  obtain ⟨t0, h0⟩ := Option.isSome_iff_exists.1 (h 0 (by omega))
  obtain ⟨t1, h1⟩ := Option.isSome_iff_exists.1 (h 1 (by omega))
  obtain ⟨t2, h2⟩ := Option.isSome_iff_exists.1 (h 2 (by omega))
  refine ⟨[t0, t1, t2], rfl, ?_, ?_⟩
  · intro i t hi
    match i with
    | 0 => cases hi; exact h0
    | 1 => cases hi; exact h1
    | 2 => cases hi; exact h2
    | _ + 3 => cases hi
  · rw [kadStart, show List.range 3 = [0, 1, 2] from rfl]
    simp only [List.filterMap_cons, List.filterMap_nil, h0, h1, h2, Option.map_some, List.map_cons, List.map_nil]

/-- The hypotheses of C146 are met: `Discover` at node 0, which knows node 1 only, returns the nodes 1 and 2. -/
example : ∃ (σ : Nat → KWire.State Unit) (α : Nat → Option (KWire.Action Unit)) (t : Nat) (p : KWire.Part) (f : KWire.Find), Execution (KWire.step insertionSorter kads) σ α ∧ KWire.Start kads 3 (σ 0) ∧ (∀ t, AmongThemselves kads (σ t)) ∧
    (∀ t e, KnownInNet kads 3 σ t e → WellFormed e ∧ ∃ m, m < 3 ∧ e = kads.id m) ∧
    (∀ (t n j b j' m : Nat) (x : Node.State Unit) (y : Node.Conn Unit), (σ t).net.nodes[n]? = some x → x.conns[j]? = some y → Joined (σ t).net n j b j' → m < 3 → y.addr = (kads.id m).address → b = m) ∧
    (σ t).parts[0]? = some p ∧ f ∈ p.finds ∧ f.it.returned = some (.ok [kid 2, kid 1]) := by
  obtain ⟨s, h1, h2⟩ := Option.map_eq_some_iff.1 kadAll_runs
  obtain ⟨hx, hfin⟩ : Execution (KWire.step insertionSorter kads) kadPlay (fun t => kadAll[t]?) ∧ ∀ t, kadAll.length ≤ t → kadPlay t = s := Fair.play_exec h1
  obtain ⟨p, hp, h2⟩ := Option.map_eq_some_iff.1 h2
  have always : ∀ t, kadClosed (kadPlay t) = true ∧ kadHonest (kadPlay t) = true ∧ kadDials (kadPlay t) = true := by
    have low : ∀ t, t ≤ kadAll.length → kadClosed (kadPlay t) = true ∧ kadHonest (kadPlay t) = true ∧ kadDials (kadPlay t) = true := by
      intro t ht
      have := List.all_eq_true.1 kadAll_ok t (List.mem_range.2 (by omega))
      simp only [Bool.and_eq_true] at this
      exact ⟨this.1.1, this.1.2, this.2⟩
    intro t
    by_cases ht : t ≤ kadAll.length
    · exact low t ht
    · rw [hfin t (by omega), ← hfin kadAll.length (Nat.le_refl _)]
      exact low _ (Nat.le_refl _)
  have h3 : (p.finds.map fun f => f.it.returned)[0]? = some (some (.ok [kid 2, kid 1])) := by rw [h2]; rfl
  rw [List.getElem?_map, Option.map_eq_some_iff] at h3
  obtain ⟨f, hf, hret⟩ := h3
  have known : ∀ t e, KnownInNet kads 3 kadPlay t e → ∃ m, m < 3 ∧ e = kid m := by
    rintro t e ⟨m, hm, h | ⟨t', -, ⟨q, hq, he⟩ | ⟨x, y, hxn, hy, he⟩⟩⟩
    · exact ⟨m, hm, h⟩
    · have := (always t').2.1
      simp only [kadHonest, Bool.and_eq_true, List.all_eq_true, decide_eq_true_eq] at this
      rw [this.1 q (List.mem_of_getElem? hq)] at he
      cases he
    · have := (always t').2.1
      simp only [kadHonest, Bool.and_eq_true, List.all_eq_true, decide_eq_true_eq] at this
      have := this.2 x (List.mem_of_getElem? hxn) y hy
      rw [he] at this
      simp only [Bool.or_eq_true, decide_eq_true_eq] at this
      rcases this with (h | h) | h
      · exact ⟨0, by omega, h⟩
      · exact ⟨1, by omega, h⟩
      · exact ⟨2, by omega, h⟩
  refine ⟨kadPlay, _, kadAll.length, p, f, hx, kad_starts, fun t => ?_, fun t e he => ?_, ?_, by rw [hfin _ (Nat.le_refl _)]; exact hp, List.mem_of_getElem? hf, hret⟩
  · have := (always t).1
    simp only [kadClosed, Bool.and_eq_true, List.all_eq_true, decide_eq_true_eq] at this
    refine ⟨this.1, fun n x q k h v d hxn hq hin hne => ?_, fun n x y hxn hy => ?_⟩
    · have h4 := (this.2 x (List.mem_of_getElem? hxn)).2
      rw [hq] at h4
      have := List.all_eq_true.1 h4 _ hin
      exact absurd (of_decide_eq_true this) hne
    · have h4 := (this.2 x (List.mem_of_getElem? hxn)).1 y hy
      omega
  · obtain ⟨m, hm, rfl⟩ := known t e he
    exact ⟨⟨rfl, rfl⟩, m, hm, rfl⟩
  · rintro t n j b j' m x y hxn hy ⟨w, hw, e1, e2⟩ hm ha
    have := List.all_eq_true.1 (always t).2.2 w hw
    rw [show (kadPlay t).net.conn w.out = some y by rw [e1]; simp [Net.State.conn, hxn, hy]] at this
    simp only [Bool.and_eq_true, decide_eq_true_eq, e2] at this
    have h4 : (kid b).address = (kid m).address := this.2.symm.trans ha
    have key : ∀ b, b < 3 → ∀ m, m < 3 → (kid b).address = (kid m).address → b = m := by decide +kernel
    exact key b this.1 m hm h4

end Noise
