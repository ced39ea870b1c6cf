import Verif.Props.KadPing
import Verif.Props.KadSearches
/-! # Property C149: executions that meet the hypotheses -/
namespace Noise
open Spec Net

/-- Peers of node 0 in the bucket of node 1. -/
def pal (j : Nat) : ID := newID ⟨2 :: List.replicate 31 (j + 3).toUInt8, by simp⟩ [0, 0, 0, 0, 0, 0, 0, 0, 0, 0, 255, 255, 10, 0, 0, 2] (j + 1).toUInt16

/-- Steps of the network. -/
def kp (l : List (KWire.Action Unit)) : List (KPing.Action Unit) := l.map .kw

/-- The application of node 0 has told it of node 1, and then of fifteen others in its bucket; it acknowledges another one. -/
def pingBegin : List (KPing.Action Unit) := kp (onKad (atNode 0 [.listen, .acceptStep]) ++ [.kad 0 (.table (.update (kid 1)))] ++ (List.range 15).map (fun j => .kad 0 (.table (.update (pal j)))) ++ [.kad 0 (.ack (pal 15)), .kad 0 (.step 0), .kad 0 (.step 0)])

/-- It pings node 1, which answers. -/
def pingAll : List (KPing.Action Unit) := pingBegin ++ [.ping 0 0] ++ kp (onKad (atNode 0 ([.callStep 0] ++ connDo 0 (connectOut (kid 1))) ++ atNode 1 ([.listen, .acceptStep, .acceptConn ['x'], .acceptStep] ++ connDo 0 (connectIn (kid 0))) ++ [.connect ⟨0, 0⟩ ⟨1, 0⟩]
      ++ atNode 0 ([.select 0 .ready, .callStep 0, .callStep 0] ++ connDo 0 [.writer, .writer, .writer, .writer, .writer, .writer])) ++ kadServe 1 0 ⟨1, put16 0⟩
      ++ onKad (atNode 0 (connDo 0 [.arrive, .readMsg ⟨1, put16 1⟩, .main] ++ [.take 0]))) ++ [.pinged 0 0, .kw (.kad 0 (.step 0))]

/-- It pings node 1; but somebody is there who does not answer. -/
def pingMute : List (KPing.Action Unit) := pingBegin ++ [.ping 0 0] ++ kp (onKad (atNode 0 ([.callStep 0] ++ connDo 0 (connectOut (kid 1))) ++ [.connectOut ⟨0, 0⟩] ++ atNode 0 ([.select 0 .ready, .callStep 0, .callStep 0] ++ [.expire 0, .cancel 0])))
  ++ [.pinged 0 0, .kw (.kad 0 (.step 0))]

def pingStart : KPing.State Unit := ⟨kadStart, [], []⟩

/-- One of these, and then nothing. -/
abbrev pingPlay : Nat → KPing.State Unit := Fair.play (KPing.step insertionSorter kads) pingStart pingAll
abbrev pingMutePlay : Nat → KPing.State Unit := Fair.play (KPing.step insertionSorter kads) pingStart pingMute

theorem ping_starts : KPing.Start kads 3 pingStart := ⟨kad_starts, rfl, rfl⟩

/-- The hypotheses of the first part of C149 are met: node 1 is removed from the table of node 0, of which the application has removed nobody; it has not answered a ping. -/
example : ∃ t, Execution (KPing.step insertionSorter kads) pingMutePlay (fun t => pingMute[t]?) ∧ KPing.Start kads 3 (pingMutePlay 0) ∧ pingMute[t]? = some (.kw (.kad 0 (.step 0))) ∧ InTable pingMutePlay 0 t (kid 1) ∧ ¬ InTable pingMutePlay 0 (t + 1) (kid 1) := by
  have h : (runs (KPing.step insertionSorter kads) pingStart pingMute).isSome = true := by decide +kernel
  obtain ⟨s, h1⟩ := Option.isSome_iff_exists.1 h
  have h2 : ((pingMutePlay (pingMute.length - 1)).kw.parts[0]?).map (fun p => decide (kid 1 ∈ p.kad.table.all)) = some true := by decide +kernel
  have h3 : ((pingMutePlay (pingMute.length - 1 + 1)).kw.parts[0]?).map (fun p => decide (kid 1 ∈ p.kad.table.all)) = some false := by decide +kernel
  refine ⟨pingMute.length - 1, (Fair.play_exec h1).1, ping_starts, rfl, ?_, ?_⟩
  · obtain ⟨p, hp, h2⟩ := Option.map_eq_some_iff.1 h2
    exact ⟨p, hp, of_decide_eq_true h2⟩
  · rintro ⟨p, hp, he⟩
    rw [hp] at h3
    exact of_decide_eq_false (Option.some.inj h3) he

def isPinged : Option (KPing.Action Unit) → Bool
  | some (.pinged _ _) => true
  | _ => false

/-- The hypotheses of the third part of C149 are met, in the same execution. -/
example : ∀ e, InTable pingMutePlay 0 (pingMute.length - 1 + 1) e → e.id ≠ (kid 1).id := by
  have h : (runs (KPing.step insertionSorter kads) pingStart pingMute).isSome = true := by decide +kernel
  obtain ⟨s, h1⟩ := Option.isSome_iff_exists.1 h
  have hth : (((pingMutePlay pingBegin.length).kw.parts[0]?).bind fun p => p.kad.threads[0]?) = some ⟨pal 15, .ping (kid 1)⟩ := by decide +kernel
  obtain ⟨p, hp, hth⟩ := Option.bind_eq_some_iff.1 hth
  have hx0 : ((pingMutePlay pingBegin.length).kw.net.nodes[0]?).map (fun x => x.calls.length) = some 0 := by decide +kernel
  obtain ⟨x, hX, hx0⟩ := Option.map_eq_some_iff.1 hx0
  have hx1 : (((pingMutePlay (pingMute.length - 2)).kw.net.nodes[0]?).bind fun x => (x.calls[0]?).map fun d => decide (d.pc = .returned .cancelled)) = some true := by decide +kernel
  obtain ⟨x', hX', hx1⟩ := Option.bind_eq_some_iff.1 hx1
  obtain ⟨d, hd, hx1⟩ := Option.map_eq_some_iff.1 hx1
  have hlen : pingBegin.length < pingMute.length - 2 ∧ pingMute.length - 2 + 1 = pingMute.length - 1 := by decide +kernel
  have hno : ((List.range (pingMute.length - 2)).all fun u => !isPinged (pingMute[u]?)) = true := by decide +kernel
  exact (C149_silent_peers_go insertionSorter kads 3 pingMutePlay _ (Fair.play_exec h1).1 ping_starts 0 0 pingBegin.length (pingMute.length - 2) rfl (pal 15) (kid 1) ⟨p, hp, hth⟩ hlen.1 rfl
    (by
      intro u _ h2 h3
      have := List.all_eq_true.1 hno u (List.mem_range.2 h2)
      have h3 : pingMute[u]? = some (.pinged 0 0) := h3
      rw [h3] at this; cases this) x x' d _ hX hX' (by rw [hx0]; exact hd) (of_decide_eq_true hx1) (by rintro ⟨m, h, -⟩; cases h)).2 (pingMute.length - 1) (by omega) rfl (fun v _ _ => by omega)

/-- What the network does in it. -/
def pingNet (t : Nat) : Option (Net.Action Unit) := KWire.netActs kads (fun t => (pingPlay t).kw) (KPing.kwActs kads pingPlay (fun t => pingAll[t]?)) t

/-- Nothing fails; node 0 calls nobody but node 1, and once; nobody but kademlia answers requests. -/
def pingOk (s : KPing.State Unit) : Bool := s.kw.net.nodes.all okNode && s.kw.parts.all (fun p => !p.kad.crashed) && kadClosed s.kw && match s.kw.net.nodes[0]? with
  | some X => decide (X.conns.length ≤ 1) && X.calls.all fun d => decide (d.addr = (kid 1).address)
  | none => true

theorem pingAll_runs : (runs (KPing.step insertionSorter kads) pingStart pingAll).map (fun s => (s.kw.net.nodes.all quietNode && quietWires s.kw.net, s.kw.net.wires.any (fun w => decide (w.out = ⟨0, 0⟩) && decide (w.inn = ⟨1, 0⟩)), s.waits)) = some (true, true, []) := by decide +kernel

theorem pingAll_ok : ((List.range (pingAll.length + 1)).all fun t => pingOk (pingPlay t) && noError (pingNet t)) = true := by decide +kernel

/-- The hypotheses of the second part of C149 are met: node 1 answers, and the new peer is turned away. -/
example : ∃ t, pingBegin.length < t ∧ pingAll[t]? = some (.pinged 0 0) ∧ ThreadAt pingPlay 0 0 (t + 1) ⟨pal 15, .emit (.evicted (pal 15)) false⟩ := by
  obtain ⟨s, h1, h2⟩ := Option.map_eq_some_iff.1 pingAll_runs
  obtain ⟨hx, hfin⟩ : Execution (KPing.step insertionSorter kads) pingPlay (fun t => pingAll[t]?) ∧ ∀ t, pingAll.length ≤ t → pingPlay t = s := Fair.play_exec h1
  simp only [Prod.mk.injEq] at h2
  obtain ⟨h2, h3, h4⟩ := h2
  have always : ∀ t, pingOk (pingPlay t) = true ∧ noError (pingNet t) = true := by
    have low : ∀ t, t ≤ pingAll.length → pingOk (pingPlay t) = true ∧ noError (pingNet t) = true := fun t ht => by
      simpa only [Bool.and_eq_true] using List.all_eq_true.1 pingAll_ok t (List.mem_range.2 (by omega))
    intro t
    by_cases ht : t ≤ pingAll.length
    · exact low t ht
    · refine ⟨?_, ?_⟩
      · rw [hfin t (by omega), ← hfin pingAll.length (Nat.le_refl _)]
        exact (low _ (Nat.le_refl _)).1
      · have : pingAll[t]? = none := List.getElem?_eq_none (by omega)
        simp only [pingNet, KWire.netActs, KPing.kwActs, this, Option.bind_none, noError]
  have ok := fun t => (always t).1
  simp only [pingOk, Bool.and_eq_true, List.all_eq_true, Bool.not_eq_true'] at ok
  have hun := (unbroken_of_ok (σ := fun t => (pingPlay t).kw.net) (α := pingNet) (o := ⟨0, 0⟩) (i := ⟨1, 0⟩) (by
    simp only [List.any_eq_true, Bool.and_eq_true, decide_eq_true_eq] at h3
    obtain ⟨w, hw, e⟩ := h3
    exact ⟨pingAll.length, w, by simp only [hfin _ (Nat.le_refl _)]; exact hw, e.1, e.2⟩) (fun t X hX => (ok t).1.1.1 X hX) (by
    intro t m w e ha
    have := (always t).2
    rw [ha] at this; cases this))
  have hconn : ∀ t j x, (pingPlay t).kw.net.conn ⟨0, j⟩ = some x → j = 0 := by
    intro t j x hco
    obtain ⟨X, hX, hj⟩ := conn_split hco
    have h5 := (ok t).2
    have hX : (pingPlay t).kw.net.nodes[0]? = some X := hX
    rw [hX] at h5
    simp only [Bool.and_eq_true, decide_eq_true_eq] at h5
    have := (List.getElem?_eq_some_iff.1 hj).1
    simp only at this
    omega
  have hth : (((pingPlay pingBegin.length).kw.parts[0]?).bind fun p => p.kad.threads[0]?) = some ⟨pal 15, .ping (kid 1)⟩ := by decide +kernel
  obtain ⟨p, hp, hth⟩ := Option.bind_eq_some_iff.1 hth
  obtain ⟨t, g1, g2, -, g3⟩ := C149_answering_peers_stay insertionSorter kads 3 pingPlay _ hx (KWire.fair_of_rest (KPing.exec_kw hx) kad_starts (fun t p hp => (ok t).1.1.2 p hp) (T := pingAll.length) (by
      intro t ht
      have : pingAll[t]? = none := List.getElem?_eq_none ht
      simp only [KPing.kwActs, this, Option.bind_none])
      (net_fair_of_rest (KWire.exec_net (KPing.exec_kw hx)) rfl (T := pingAll.length) (fun t ht => by simp only [hfin t ht]) (quietNet_of h2))) 0 0 pingBegin.length (by
      intro t
      refine ⟨max t pingAll.length, by omega, .inr ?_⟩
      rintro ⟨a, rfl, h⟩
      rw [hfin _ (by omega)] at h
      simp [KPing.step, h4] at h) rfl (pal 15) (kid 1) ⟨p, hp, hth⟩
    (fun t X hX => (okNode_spec ((ok t).1.1.1 X (List.mem_of_getElem? hX))).1) (by decide) (by decide) [(kid 1).address] (by decide) (by
      rintro t k d ⟨X, hX, hk⟩
      have h5 := (ok t).2
      have hX : (pingPlay t).kw.net.nodes[0]? = some X := hX
      rw [hX] at h5
      simp only [Bool.and_eq_true, decide_eq_true_eq, List.all_eq_true] at h5
      simp [h5.2 d (List.mem_of_getElem? hk)]) (by
      intro t j x hco _ haddr
      have hj := hconn t j x hco
      subst hj
      refine ⟨⟨1, 0⟩, rfl, hun.1, Nat.one_pos, Nat.one_pos, ?_, fun t x hco => ?_⟩
      · intro t Y q k h v b it hY hq hin _ _
        have := (ok t).1.2
        simp only [kadClosed, Bool.and_eq_true, List.all_eq_true, decide_eq_true_eq] at this
        have h4 := (this.2 Y (List.mem_of_getElem? hY)).2
        rw [hq] at h4
        exact of_decide_eq_true (List.all_eq_true.1 h4 _ hin)
      · obtain ⟨X, hX, hj⟩ := conn_split hco
        have := (okNode_spec ((ok t).1.1.1 X (List.mem_of_getElem? hX))).2.2.2.1 x (List.mem_of_getElem? hj)
        omega) (fun x _ => hun.2 0 x.calls.length)
  exact ⟨t, g1, g2, g3⟩

end Noise
