import Verif.Props.GossipSpread
/-! # C145: an execution in which gossip spreads along a chain of three nodes -/
namespace Noise
open Spec Net

/-- The execution of `N` nodes that does these actions, and then nothing. -/
abbrev gplay (N : Nat) (as : List (GWire.Action Unit)) : Nat → GWire.State Unit := Fair.play (GWire.step gossipers) (GWire.State.new N) as

/-- What happens in it in the network. -/
def gplayNet (N : Nat) (as : List (GWire.Action Unit)) (t : Nat) : Option (Net.Action Unit) := (as[t]?).bind (netOf gossipers (gplay N as t))

/-- At the end everything is at rest. -/
def restEnd (s : GWire.State Unit) : Bool := s.net.nodes.all quietNode && quietWires s.net && s.parts.all (fun p => p.g.pushes.all fun q => decide (q.pc = .done) && q.gors.all fun g => decide (g.pc = .done))

/-- Nothing fails, nobody replies, and nobody but gossip sends. -/
def restOk (s : GWire.State Unit) : Bool := s.net.nodes.all okNode && onlyGossip s && s.parts.all (fun p => p.errors.isEmpty)

/-- Executions that come to rest, without failures, are fair. -/
theorem gplay_fair {N : Nat} {as : List (GWire.Action Unit)} (hend : (runs (GWire.step gossipers) (GWire.State.new N) as).map restEnd = some true)
    (hok : ((List.range (as.length + 1)).all fun t => restOk (gplay N as t)) = true) (herr : ((List.range (as.length + 1)).all fun t => noError (gplayNet N as t)) = true) :
    Net.FairRun gossipers.node N (fun t => (gplay N as t).net) (gplayNet N as) ∧ (∀ n, n < N → GossipRuns gossipers N n (gplay N as) fun t => as[t]?) ∧ (∀ t, restOk (gplay N as t) = true) ∧ (∀ m k, Endless (fun t => (gplay N as t).net) m k) ∧
      ∀ o i, ((gplay N as as.length).net.wires.any fun w => decide (w.out = o) && decide (w.inn = i)) = true → Unbroken (fun t => (gplay N as t).net) (gplayNet N as) o i := by
  obtain ⟨s, h1, h2⟩ := Option.map_eq_some_iff.1 hend
  obtain ⟨hx, hfin⟩ : Execution (GWire.step gossipers) (gplay N as) (fun t => as[t]?) ∧ ∀ t, as.length ≤ t → gplay N as t = s := Fair.play_exec h1
  simp only [restEnd, Bool.and_eq_true] at h2
  obtain ⟨⟨h2, h3⟩, h4⟩ := h2
  have always : ∀ t, restOk (gplay N as t) = true := by
    intro t
    by_cases ht : t ≤ as.length
    · exact List.all_eq_true.1 hok t (List.mem_range.2 (by omega))
    · have := List.all_eq_true.1 hok as.length (List.mem_range.2 (by omega))
      rw [hfin _ (Nat.le_refl _)] at this
      rw [hfin t (by omega)]; exact this
  have nodes : ∀ t X, X ∈ (gplay N as t).net.nodes → okNode X = true := by
    intro t X hX
    have := always t
    simp only [restOk, Bool.and_eq_true] at this
    exact List.all_eq_true.1 this.1.1 X hX
  have exec : Execution (Net.step gossipers.node) (fun t => (gplay N as t).net) (gplayNet N as) := by
    intro t
    rcases hx t with ⟨e1, e2⟩ | ⟨a, e1, e2⟩
    · exact .inl ⟨by have e1 : as[t]? = none := e1; simp only [gplayNet, e1, Option.bind_none], by simp only [e2]⟩
    · rcases netOf_step e2 with ⟨e3, e4⟩ | ⟨b, e3, e4⟩
      · exact .inl ⟨by have e1 : as[t]? = some a := e1; simp only [gplayNet, e1, Option.bind_some]; exact e3, e4⟩
      · exact .inr ⟨b, by have e1 : as[t]? = some a := e1; simp only [gplayNet, e1, Option.bind_some]; exact e3, e4⟩
  have quiet := quietNet_of (s := s.net) (by rw [h2, h3]; rfl)
  have noerr : ∀ t m w e, gplayNet N as t ≠ some (.node m (.handlerReturn w (some e))) := by
    intro t m w e ha
    by_cases ht : t ≤ as.length
    · have := List.all_eq_true.1 herr t (List.mem_range.2 (by omega))
      rw [ha] at this; cases this
    · rw [gplayNet, List.getElem?_eq_none (by omega)] at ha; cases ha
  have hr : ∀ t, GWire.Reachable gossipers N (gplay N as t) := fun t => (ReachFrom.refl _).trans (Fair.reach hx t)
  refine ⟨net_fair_of_rest exec rfl (T := as.length) (fun t ht => by rw [hfin t ht]) quiet, ?_, always, ?_, ?_⟩
  · intro n hn
    have at_ : ∀ t, ∃ X, (gplay N as t).net.nodes[n]? = some X ∧ nodeAt (gplay N as) n t = X ∧ okNode X = true := by
      intro t
      have hl : n < (gplay N as t).net.nodes.length := by rw [GWire.nodes_N (hr t)]; exact hn
      exact ⟨_, List.getElem?_eq_getElem hl, by rw [nodeAt, List.getElem?_eq_getElem hl]; rfl, nodes t _ (List.getElem_mem hl)⟩
    obtain ⟨x, hxs, -, hxo⟩ := at_ as.length
    rw [hfin _ (Nat.le_refl _)] at hxs
    have hlp : n < s.parts.length := by
      have := (GWire.Inv.reach (hr as.length)).same
      rw [hfin _ (Nat.le_refl _)] at this
      rw [this]; exact (List.getElem?_eq_some_iff.1 hxs).1
    have hps : s.parts[n]? = some s.parts[n] := List.getElem?_eq_getElem hlp
    obtain ⟨o1, o2, o3⟩ := GWire.push_over (c := gossipers) hxs hps (fun q hq => by
      have := List.all_eq_true.1 (List.all_eq_true.1 h4 _ (List.mem_of_getElem? hps)) q hq
      simp only [Bool.and_eq_true, decide_eq_true_eq, List.all_eq_true] at this
      exact this) (quietNode_spec (List.all_eq_true.1 h2 x (List.mem_of_getElem? hxs))).2.1
    have fair : ∀ C : GWire.Action Unit → Prop, (∀ a, C a → GWire.step gossipers s a = none) → WeaklyFair (gplay N as) (fun t => as[t]?) (Able (GWire.step gossipers) C) C := by
      intro C hC t
      refine ⟨t + as.length, by omega, .inr ?_⟩
      rw [hfin _ (by omega)]
      rintro ⟨a, ha, hs⟩
      rw [hC a ha] at hs; cases hs
    refine ⟨.refl _, hx, fun k => fair _ (by rintro _ ⟨l, rfl⟩; exact o1 k l), fun k j => fair _ (o2 k j), fun q => fair _ (by rintro _ ⟨b, rfl, hb⟩; exact o3 q b hb), fun t j y hy hne => ?_, fun t => ?_⟩
    · obtain ⟨X, -, g1, g2⟩ := at_ t
      rw [g1] at hy
      exact (hne ((okNode_spec g2).2.2.2.1 y (List.mem_of_getElem? hy)).2.1).elim
    · obtain ⟨X, -, g1, g2⟩ := at_ t
      rw [g1]; exact (okNode_spec g2).1
  · rintro m k t d ⟨X, hX, hd⟩
    exact (okNode_spec (nodes t X (List.mem_of_getElem? hX))).2.2.2.2 d (List.mem_of_getElem? hd)
  · intro o i hw
    refine (unbroken_of_ok ⟨as.length, ?_⟩ nodes noerr).1
    simp only [List.any_eq_true, Bool.and_eq_true, decide_eq_true_eq] at hw
    obtain ⟨w, hw, e⟩ := hw
    exact ⟨w, hw, e.1, e.2⟩

/-- Node `n` takes a gossip message from connection 0 and reports it. -/
def takesGossip (n : Nat) : List (GWire.Action Unit) := onNet (atNode n (connDo 0 [.writer, .arrive, .readMsg ⟨0, gossipBytes 5 [7]⟩, .main, .deliver, .main] ++ [.work 0, .work 0]))
    ++ [.enter n 0, .own n (.handler 0), .own n (.handler 0), .own n (.handler 0), .callback n 0 none, .own n (.handler 0)]

/-- Node `n` sends what goroutine `j` of its push 0 is to send, as call 1 over connection `k`. -/
def sendsGossip (n j k : Nat) : List (GWire.Action Unit) := [.send n 0 j] ++ onNet (atNode n ([.callStep 1, .select 1 .ready, .callStep 1] ++ connDo k [.writer, .writer, .writer, .writer, .writer, .writer])) ++ [.sent n 0 j, .own n (.gor 0 j), .own n (.pushing 0 [])]

/-- Node 0 pings node 1, and node 1 pings node 2. -/
def relayStart : List (GWire.Action Unit) := onNet (atNode 0 ([.listen, .acceptStep, .call .ping (gid 1).address, .callStep 0] ++ connDo 0 (connectOut (gid 1))) ++ atNode 1 ([.listen, .acceptStep, .acceptConn ['x'], .acceptStep] ++ connDo 0 (connectIn (gid 0)))
      ++ [.connect ⟨0, 0⟩ ⟨1, 0⟩] ++ atNode 0 [.select 0 .ready, .callStep 0]
      ++ atNode 1 ([.call .ping (gid 2).address, .callStep 0] ++ connDo 1 (connectOut (gid 2))) ++ atNode 2 ([.listen, .acceptStep, .acceptConn ['y'], .acceptStep] ++ connDo 0 (connectIn (gid 1)))
      ++ [.connect ⟨1, 1⟩ ⟨2, 0⟩] ++ atNode 1 [.select 0 .ready, .callStep 0])

/-- Then node 0 pushes `[7]`; node 1 is told and pushes it on to node 2, which is told. -/
def relayRun : List (GWire.Action Unit) := relayStart
    ++ [.push 0 [7], .own 0 (.pushing 0 []), .own 0 (.pushing 0 [gid 1]), .own 0 (.gor 0 0)] ++ sendsGossip 0 0 0
    ++ takesGossip 1 ++ [.own 1 (.pushing 0 []), .own 1 (.pushing 0 [gid 0, gid 2]), .own 1 (.gor 0 0), .own 1 (.gor 0 1)] ++ sendsGossip 1 1 1 ++ [.own 1 (.handler 0), .leave 1 0] ++ onNet (atNode 1 [.work 0])
    ++ takesGossip 2 ++ [.own 2 (.pushing 0 []), .own 2 (.pushing 0 [gid 1]), .own 2 (.gor 0 0), .own 2 (.pushing 0 []), .own 2 (.handler 0), .leave 2 0] ++ onNet (atNode 2 [.work 0])

/-- Whatever a push of node `n` reads in its table, node `m` is in it. -/
def readsIt (n m : Nat) (t : Nat) : Bool := match relayRun[t]? with
  | some (.own n' (.pushing k l)) => if n' = n then match (gplay 3 relayRun t).parts[n]? with
      | some p => match p.g.pushes[k]? with
        | some q => decide (q.pc ≠ .entries) || decide (gid m.toUInt8 ∈ l)
        | none => true
      | none => true
    else true
  | _ => true

/-- All calls of node `n` are for the address of node `m`. -/
def callsOnly (n m : Nat) (s : GWire.State Unit) : Bool := match s.net.nodes[n]? with
  | some x => x.calls.all fun d => decide (d.addr = (gid m.toUInt8).address)
  | none => true

theorem chain_fair : Net.FairRun gossipers.node 3 (fun t => (gplay 3 relayRun t).net) (gplayNet 3 relayRun) ∧ (∀ n, n < 3 → GossipRuns gossipers 3 n (gplay 3 relayRun) fun t => relayRun[t]?) ∧ (∀ t, restOk (gplay 3 relayRun t) = true) ∧
    (∀ m k, Endless (fun t => (gplay 3 relayRun t).net) m k) ∧
    ∀ o i, ((gplay 3 relayRun relayRun.length).net.wires.any fun w => decide (w.out = o) && decide (w.inn = i)) = true → Unbroken (fun t => (gplay 3 relayRun t).net) (gplayNet 3 relayRun) o i :=
  gplay_fair (by decide +kernel) (by decide +kernel) (by decide +kernel)

theorem chain_informs {o i : End} (ho : o.node < 3) (hw : ((gplay 3 relayRun relayRun.length).net.wires.any fun w => decide (w.out = o) && decide (w.inn = i)) = true)
    (hr : ((List.range (relayRun.length + 1)).all (readsIt o.node i.node)) = true) (hc : ((List.range (relayRun.length + 1)).all fun t => callsOnly o.node i.node (gplay 3 relayRun t)) = true)
    (ha : ((gplay 3 relayRun 54).net.conn o).map (fun x => x.addr) = some (gid i.node.toUInt8).address) : KeepsInformed gossipers 3 (gplay 3 relayRun) (fun t => relayRun[t]?) (gplayNet 3 relayRun) 54 o.node i.node := by
  obtain ⟨-, hrun, hok, hend, hu⟩ := chain_fair
  obtain ⟨x, hx, hxa⟩ := Option.map_eq_some_iff.1 ha
  have hfin : ∀ t, relayRun.length ≤ t → gplay 3 relayRun t = gplay 3 relayRun relayRun.length := by
    have hsome : (runs (GWire.step gossipers) (GWire.State.new 3) relayRun).isSome = true := by decide +kernel
    obtain ⟨s, h1⟩ := Option.isSome_iff_exists.1 hsome
    have := (Fair.play_exec h1).2
    intro t ht
    exact (this t ht).trans (this _ (Nat.le_refl _)).symm
  refine ⟨o, i, (gid i.node.toUInt8).address, rfl, rfl, hrun _ ho, hu o i hw, ⟨x, hx, hxa⟩, ?_, ⟨[(gid i.node.toUInt8).address], by show 1 ≤ 2; omega, ?_⟩, fun t p a _ _ => hend _ a.call, ?_, by show 0 < 3; omega, ⟨by show 0 < 1; omega, by show 0 < 1; omega⟩, by show 0 < 1; omega⟩
  · rintro t k l - ⟨e1, p, q, e2, e3, e4⟩
    have e1 : relayRun[t]? = some (.own o.node (.pushing k l)) := e1
    have := List.all_eq_true.1 hr t (List.mem_range.2 (by have := (List.getElem?_eq_some_iff.1 e1).1; omega))
    simp only [readsIt, e1, if_pos, e2, e3, e4, ne_eq, not_true_eq_false, decide_false, Bool.false_or, decide_eq_true_eq] at this
    exact ⟨_, this, rfl, rfl⟩
  · rintro t k d ⟨X, hX, hk⟩
    have key : callsOnly o.node i.node (gplay 3 relayRun t) = true := by
      by_cases ht : t ≤ relayRun.length
      · exact List.all_eq_true.1 hc t (List.mem_range.2 (by omega))
      · rw [hfin t (by omega)]
        exact List.all_eq_true.1 hc relayRun.length (List.mem_range.2 (by omega))
    have hX : (gplay 3 relayRun t).net.nodes[o.node]? = some X := hX
    simp only [callsOnly, hX] at key
    have := of_decide_eq_true (List.all_eq_true.1 key d (List.mem_of_getElem? hk))
    rw [this]; exact List.mem_singleton_self _
  · intro t p hp
    have := hok t
    simp only [restOk, Bool.and_eq_true] at this
    exact List.isEmpty_iff.1 (List.all_eq_true.1 this.2 p (List.mem_of_getElem? hp))

/-- The hypotheses of C145 are met by a path of length two: node 0 keeps node 1 informed, and node 1 keeps node 2 informed. So there is a time at which all three have the data. -/
example : ∃ t', ∀ m, m < 3 → Has (gplay 3 relayRun t') m [7] := by
  obtain ⟨r, hrun, hok, -, -⟩ := chain_fair
  have i1 : KeepsInformed gossipers 3 (gplay 3 relayRun) (fun t => relayRun[t]?) (gplayNet 3 relayRun) 54 0 1 := chain_informs (o := ⟨0, 0⟩) (i := ⟨1, 0⟩) (by decide) (by decide +kernel) (by decide +kernel) (by decide +kernel) (by decide +kernel)
  have i2 : KeepsInformed gossipers 3 (gplay 3 relayRun) (fun t => relayRun[t]?) (gplayNet 3 relayRun) 54 1 2 := chain_informs (o := ⟨1, 1⟩) (i := ⟨2, 0⟩) (by decide) (by decide +kernel) (by decide +kernel) (by decide +kernel) (by decide +kernel)
  have hfresh : ((gplay 3 relayRun 54).parts.all fun p => p.g.pushes.isEmpty) = true := by decide +kernel
  have hp : ((gplay 3 relayRun 55).parts[0]?).map (fun p => p.g.pushes.any fun q => decide (q.data = [7])) = some true := by decide +kernel
  obtain ⟨p, hp, h⟩ := Option.map_eq_some_iff.1 hp
  obtain ⟨q, h1, h2⟩ := List.any_eq_true.1 h
  have run := hrun 0 (by decide)
  refine C145_reaches_everybody gossipers 3 (gplay 3 relayRun) _ (gplayNet 3 relayRun) run.start run.exec r ?_ (fun t => onlyGossip_sound ?_) 54 [7] ?_ 0 ?_ 55 ⟨p, q, hp, h1, of_decide_eq_true h2⟩
  · intro a b ha hb h
    have h3 : a = 0 ∨ a = 1 ∨ a = 2 := by omega
    have h4 : b = 0 ∨ b = 1 ∨ b = 2 := by omega
    rcases h3 with rfl | rfl | rfl <;> rcases h4 with rfl | rfl | rfl <;> first | rfl | (exact absurd h (by decide))
  · have := hok t
    simp only [restOk, Bool.and_eq_true] at this
    exact this.1.2
  · rintro n ⟨p, q, h1, h2, -⟩
    have := List.isEmpty_iff.1 (List.all_eq_true.1 hfresh p (List.mem_of_getElem? h1))
    rw [this] at h2; cases h2
  · intro m hm
    have : m = 0 ∨ m = 1 ∨ m = 2 := by omega
    rcases this with rfl | rfl | rfl
    · exact .refl
    · exact .single i1
    · exact .tail (.single i1) i2

end Noise
