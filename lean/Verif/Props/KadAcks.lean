import Verif.Props.KadAck
import Verif.Props.KadPings
/-! # Property C150: an execution that meets the hypotheses -/
namespace Noise
open Spec Net

/-- All connections of node 0 are to node 1. -/
def ackOk (s : KPing.State Unit) : Bool := match s.kw.net.nodes[0]? with
  | some X => X.conns.all fun x => decide (x.addr = (kid 1).address)
  | none => true

theorem pingAll_ackOk : ((List.range (pingAll.length + 1)).all fun t => ackOk (pingPlay t)) = true := by decide +kernel

/-- In the end the call of `Ack` has nothing left to do. -/
theorem pingAll_rest : (runs (KPing.step insertionSorter kads) pingStart pingAll).map (fun s => [.kw (.kad 0 (.step 0)), .ping 0 0, .pinged 0 0].all fun a => (KPing.step insertionSorter kads s a).isNone) = some true := by decide +kernel

/-- The hypotheses of C150 are met: the bucket is full; node 1 is pinged and answers; `Ack` returns. -/
example : ∃ t, pingBegin.length - 2 < t ∧ ThreadAt pingPlay 0 0 t ⟨pal 15, .done⟩ := by
  obtain ⟨s, h1, h2⟩ := Option.map_eq_some_iff.1 pingAll_runs
  obtain ⟨hx, hfin⟩ : Execution (KPing.step insertionSorter kads) pingPlay (fun t => pingAll[t]?) ∧ ∀ t, pingAll.length ≤ t → pingPlay t = s := Fair.play_exec h1
  simp only [Prod.mk.injEq] at h2
  obtain ⟨h2, h3, h4⟩ := h2
  have always : ∀ t, pingOk (pingPlay t) = true ∧ noError (pingNet t) = true := by
    have low : ∀ t, t ≤ pingAll.length → pingOk (pingPlay t) = true ∧ noError (pingNet t) = true := fun t ht => by
      simpa only [Bool.and_eq_true] using List.all_eq_true.1 pingAll_ok t (List.mem_range.2 (by omega))
    intro t
    by_cases ht : t ≤ pingAll.length
    · exact low t ht
    · refine ⟨?_, ?_⟩
      · rw [hfin t (by omega), ← hfin pingAll.length (Nat.le_refl _)]
        exact (low _ (Nat.le_refl _)).1
      · have : pingAll[t]? = none := List.getElem?_eq_none (by omega)
        simp only [pingNet, KWire.netActs, KPing.kwActs, this, Option.bind_none, noError]
  have ok := fun t => (always t).1
  simp only [pingOk, Bool.and_eq_true, List.all_eq_true, Bool.not_eq_true'] at ok
  have hun := (unbroken_of_ok (σ := fun t => (pingPlay t).kw.net) (α := pingNet) (o := ⟨0, 0⟩) (i := ⟨1, 0⟩) (by
    simp only [List.any_eq_true, Bool.and_eq_true, decide_eq_true_eq] at h3
    obtain ⟨w, hw, e⟩ := h3
    exact ⟨pingAll.length, w, by simp only [hfin _ (Nat.le_refl _)]; exact hw, e.1, e.2⟩) (fun t X hX => (ok t).1.1.1 X hX) (by
    intro t m w e ha
    have := (always t).2
    rw [ha] at this; cases this))
  have hconn : ∀ t j x, (pingPlay t).kw.net.conn ⟨0, j⟩ = some x → j = 0 := by
    intro t j x hco
    obtain ⟨X, hX, hj⟩ := conn_split hco
    have h5 := (ok t).2
    have hX : (pingPlay t).kw.net.nodes[0]? = some X := hX
    rw [hX] at h5
    simp only [Bool.and_eq_true, decide_eq_true_eq] at h5
    have := (List.getElem?_eq_some_iff.1 hj).1
    simp only at this
    omega
  have low : ∀ t, ackOk (pingPlay t) = true := by
    intro t
    by_cases ht : t ≤ pingAll.length
    · exact List.all_eq_true.1 pingAll_ackOk t (List.mem_range.2 (by omega))
    · rw [hfin t (by omega), ← hfin pingAll.length (Nat.le_refl _)]
      exact List.all_eq_true.1 pingAll_ackOk _ (List.mem_range.2 (by omega))
  have haddr1 : ∀ t j x, (pingPlay t).kw.net.conn ⟨0, j⟩ = some x → x.addr = (kid 1).address := by
    intro t j x hco
    obtain ⟨X, hX, hj⟩ := conn_split hco
    have h5 := low t
    have hX : (pingPlay t).kw.net.nodes[0]? = some X := hX
    simp only [ackOk, hX, List.all_eq_true, decide_eq_true_eq] at h5
    exact h5 x (List.mem_of_getElem? hj)
  have hrest := pingAll_rest
  rw [h1] at hrest
  simp only [Option.map_some, Option.some.injEq, List.all_eq_true] at hrest
  have hth : (((pingPlay (pingBegin.length - 2)).kw.parts[0]?).bind fun p => p.kad.threads[0]?) = some ⟨pal 15, .update⟩ := by decide +kernel
  obtain ⟨p, hp, hth⟩ := Option.bind_eq_some_iff.1 hth
  obtain ⟨t, g1, g2, -⟩ := C150_ack_returns insertionSorter kads 3 pingPlay _ hx ping_starts (KWire.fair_of_rest (KPing.exec_kw hx) kad_starts (fun t p hp => (ok t).1.1.2 p hp) (T := pingAll.length) (by
      intro t ht
      have : pingAll[t]? = none := List.getElem?_eq_none ht
      simp only [KPing.kwActs, this, Option.bind_none])
      (net_fair_of_rest (KWire.exec_net (KPing.exec_kw hx)) rfl (T := pingAll.length) (fun t ht => by simp only [hfin t ht]) (quietNet_of h2))) 0 0 (pingBegin.length - 2) (by
      intro a ha t
      refine ⟨max t pingAll.length, by omega, .inr ?_⟩
      rintro ⟨b, rfl, h⟩
      rw [hfin _ (by omega)] at h
      have := hrest b (by rcases ha with rfl | rfl | rfl <;> simp)
      rw [Option.isNone_iff_eq_none] at this
      rw [this] at h
      cases h) (pal 15) ⟨p, hp, hth⟩
    (fun t X hX => (okNode_spec ((ok t).1.1.1 X (List.mem_of_getElem? hX))).1) (by decide) (by decide) [(kid 1).address] (by decide) (by
      rintro t k d ⟨X, hX, hk⟩
      have h5 := (ok t).2
      have hX : (pingPlay t).kw.net.nodes[0]? = some X := hX
      rw [hX] at h5
      simp only [Bool.and_eq_true, decide_eq_true_eq, List.all_eq_true] at h5
      simp [h5.2 d (List.mem_of_getElem? hk)]) (by
      intro _ e _ t j x hco _ haddr
      have hj := hconn t j x hco
      subst hj
      refine ⟨⟨1, 0⟩, (haddr1 t 0 x hco).symm.trans haddr, hun.1, Nat.one_pos, Nat.one_pos, ?_, fun t x hco => ?_⟩
      · intro t Y q k h v b it hY hq hin _ _
        have := (ok t).1.2
        simp only [kadClosed, Bool.and_eq_true, List.all_eq_true, decide_eq_true_eq] at this
        have h4 := (this.2 Y (List.mem_of_getElem? hY)).2
        rw [hq] at h4
        exact of_decide_eq_true (List.all_eq_true.1 h4 _ hin)
      · obtain ⟨X, hX, hj⟩ := conn_split hco
        have := (okNode_spec ((ok t).1.1.1 X (List.mem_of_getElem? hX))).2.2.2.1 x (List.mem_of_getElem? hj)
        omega) (fun _ x _ _ => hun.2 0 x.calls.length)
  exact ⟨t, g1, g2⟩

/-- Node 1 has been connected to meanwhile; this is reported to `Ack` too. -/
def pingKnown : List (KPing.Action Unit) := pingAll ++ [.kw (.kad 0 (.step 1)), .kw (.kad 0 (.step 1))]

abbrev knownPlay : Nat → KPing.State Unit := Fair.play (KPing.step insertionSorter kads) pingStart pingKnown

/-- No process crashes; node 1 stays in the table of node 0. -/
def knownOk (s : KPing.State Unit) : Bool := s.kw.parts.all (fun p => !p.kad.crashed) && s.kw.net.nodes.all (fun x => !x.crashed)

theorem pingKnown_ok : ((List.range (pingKnown.length + 1)).all fun t => knownOk (knownPlay t)) = true := by decide +kernel

theorem pingKnown_in : ((List.range 3).all fun t => match (knownPlay (pingAll.length + t)).kw.parts[0]? with | some p => decide (kid 1 ∈ p.kad.table.all) | none => false) = true := by decide +kernel

theorem pingKnown_rest : (runs (KPing.step insertionSorter kads) pingStart pingKnown).map (fun s => (KPing.step insertionSorter kads s (.kw (.kad 0 (.step 1)))).isNone) = some true := by decide +kernel

/-- The hypotheses of the second part of C150 are met. -/
example : ∃ t, pingAll.length < t ∧ ThreadAt knownPlay 0 1 t ⟨kid 1, .done⟩ := by
  obtain ⟨s, h1, h2⟩ := Option.map_eq_some_iff.1 pingKnown_rest
  obtain ⟨hx, hfin⟩ : Execution (KPing.step insertionSorter kads) knownPlay (fun t => pingKnown[t]?) ∧ ∀ t, pingKnown.length ≤ t → knownPlay t = s := Fair.play_exec h1
  have ok : ∀ t, knownOk (knownPlay t) = true := by
    intro t
    by_cases ht : t ≤ pingKnown.length
    · exact List.all_eq_true.1 pingKnown_ok t (List.mem_range.2 (by omega))
    · rw [hfin t (by omega), ← hfin pingKnown.length (Nat.le_refl _)]
      exact List.all_eq_true.1 pingKnown_ok _ (List.mem_range.2 (by omega))
  simp only [knownOk, Bool.and_eq_true, List.all_eq_true, Bool.not_eq_true'] at ok
  have hlen : pingKnown.length = pingAll.length + 2 := by simp [pingKnown]
  have hth : (((knownPlay pingAll.length).kw.parts[0]?).bind fun p => p.kad.threads[1]?) = some ⟨kid 1, .update⟩ := by decide +kernel
  obtain ⟨p, hp, hth⟩ := Option.bind_eq_some_iff.1 hth
  obtain ⟨t1, t2, g1, g2, -, -, g3⟩ := C150_known_peers insertionSorter kads 3 knownPlay _ hx ping_starts 0 1 pingAll.length (by
      intro t
      refine ⟨max t pingKnown.length, by omega, .inr ?_⟩
      rintro ⟨b, rfl, h⟩
      rw [hfin _ (by omega)] at h
      rw [Option.isNone_iff_eq_none] at h2
      rw [h2] at h
      cases h) (kid 1) ⟨p, hp, hth⟩ (fun t p hp => (ok t).1 p hp) (fun t x hX => (ok t).2 x (List.mem_of_getElem? hX)) (by
      intro t ht _
      refine ⟨kid 1, ?_, rfl⟩
      have key : ∀ k, k < 3 → InTable knownPlay 0 (pingAll.length + k) (kid 1) := by
        intro k hk
        have := List.all_eq_true.1 pingKnown_in k (List.mem_range.2 hk)
        split at this
        · rename_i q hq
          exact ⟨q, hq, of_decide_eq_true this⟩
        · cases this
      by_cases hle : t ≤ pingKnown.length
      · obtain ⟨k, rfl⟩ := Nat.exists_eq_add_of_le ht
        exact key k (by omega)
      · obtain ⟨q, k1, k2⟩ := key 2 (by omega)
        rw [hfin _ (by omega)] at k1
        exact ⟨q, by rw [hfin t (by omega)]; exact k1, k2⟩)
  exact ⟨t2 + 1, by omega, g3⟩

end Noise
