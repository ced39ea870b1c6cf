import Verif.Proofs.KadAck
import Verif.Props.KadPing
/-! # Property C150: calls of `Ack` return in a network where peers answer -/
namespace Noise
open Spec
variable {ε : Type}

theorem threadAt_eq {σ : Nat → KPing.State ε} {n i t : Nat} {th th' : Kad.Thread} (h : ThreadAt σ n i t th) (h' : ThreadAt σ n i t th') : th = th' := by
  obtain ⟨p, h1, h2⟩ := h
  obtain ⟨p', h3, h4⟩ := h'
  rw [h1] at h3; cases h3
  rw [h2] at h4; cases h4; rfl

open Net in
/-- **C150 (`Ack` returns).** In every fair execution of a network of nodes with kademlia: suppose that all identities that ever are in the routing table of a node have addresses of nodes that answer pings, that the contexts of the pings that a call of `Ack` there makes do not end, and that
the node makes its calls to no more addresses than its pool may hold. Then the call of `Ack` returns, whatever else happens, and removes nobody. (That the goroutines of the connections go on, which is part of the fairness, includes that the calls of `Ack` in their callbacks return: the second
theorem says so for recorded peers.) Meanwhile somebody with the key of its argument has been in the routing table, or a peer from the table has been pinged
and has answered. -/
theorem C150_ack_returns [Nonempty ε] (S : Sorter) (c : KWire.Cfg ε) (N : Nat) (σ : Nat → KPing.State ε) (α : Nat → Option (KPing.Action ε)) (hx : Execution (KPing.step S c) σ α) (h0 : KPing.Start c N (σ 0))
    (r : KWire.FairRun S c N (fun t => (σ t).kw) (KPing.kwActs c σ α)) (n i t0 : Nat)
    (hfair : ∀ a, a = .kw (.kad n (.step i)) ∨ a = .ping n i ∨ a = .pinged n i → WeaklyFair σ α (Able (KPing.step S c) (· = a)) (· = a)) (id : ID) (hth : ThreadAt σ n i t0 ⟨id, .update⟩)
    (hcr : ∀ t x, (σ t).kw.net.nodes[n]? = some x → x.crashed = false) (hat : 0 < (c.node n).attempts) (hNo : 0 < (c.node n).numWorkers) (L : List Text) (hL : L.length ≤ (c.node n).max)
    (hin : ∀ t k d, CallAt (fun t => (σ t).kw.net) n k t d → d.addr ∈ L) (hrel : ∀ t e, InTable σ n t e → Responsive c (fun t => (σ t).kw) (KPing.kwActs c σ α) n e.address)
    (hend : ∀ t x, α t = some (.ping n i) → (σ t).kw.net.nodes[n]? = some x → Endless (fun t => (σ t).kw.net) n x.calls.length) :
    ∃ t, t0 < t ∧ ThreadAt σ n i t ⟨id, .done⟩ ∧ (∀ u e, t0 ≤ u → u ≤ t → ¬ ThreadAt σ n i u ⟨id, .delete e⟩) ∧
      ((id.id ≠ zeroPublicKey → ∃ u e, t0 ≤ u ∧ u ≤ t ∧ InTable σ n u e ∧ e.id = id.id) ∨ ∃ u v e, t0 ≤ u ∧ u < v ∧ v < t ∧ InTable σ n u e ∧ ThreadAt σ n i v ⟨id, .ping e⟩ ∧ α v = some (.pinged n i)) := by
  have alive : ∀ t p, p ∈ (σ t).kw.parts → p.kad.crashed = false := r.alive
  have hfs := hfair _ (.inl rfl)
  -- the last steps: the callback, and the return
  have finish : ∀ {t ev}, t0 ≤ t → ThreadAt σ n i t ⟨id, .emit ev false⟩ → ∃ t', t < t' ∧ (∀ u, t ≤ u → u < t' → ThreadAt σ n i u ⟨id, .emit ev false⟩) ∧ ThreadAt σ n i t' ⟨id, .done⟩ := by
    intro t ev _ h
    obtain ⟨t', h1, h2, p, p', -, h4, h5, h6, -⟩ := KPing.thread_goes hx h0 alive hcr hfs h (by simp) (by simp)
    refine ⟨t' + 1, by omega, fun u h7 h8 => h2 u h7 (by omega), p', h5, ?_⟩
    simp only [Kad.threadStep, Bool.false_eq_true, if_false, Option.some.injEq] at h6
    rw [← h6]
    exact List.getElem?_set_self (List.getElem?_eq_some_iff.1 h4).1
  -- the first step
  obtain ⟨t1, a1, a2, p, p', -, a4, a5, a6, -⟩ := KPing.thread_goes hx h0 alive hcr hfs hth (by simp) (by simp)
  have recorded : ∀ {ev b} {tb : Table}, p.kad.table.update id = (tb, .ok b) → p'.kad = ({ p.kad with table := tb } : Kad.State).set i id (.emit ev false) →
      ∃ t, t0 < t ∧ ThreadAt σ n i t ⟨id, .done⟩ ∧ (∀ u e, t0 ≤ u → u ≤ t → ¬ ThreadAt σ n i u ⟨id, .delete e⟩) ∧ (id.id ≠ zeroPublicKey → ∃ u e, t0 ≤ u ∧ u ≤ t ∧ InTable σ n u e ∧ e.id = id.id) := by
    intro ev b tb hu hk
    obtain ⟨t2, b1, b2, b3⟩ := finish (t := t1 + 1) (ev := ev) (by omega) ⟨p', a5, by rw [hk]; exact List.getElem?_set_self (List.getElem?_eq_some_iff.1 a4).1⟩
    refine ⟨t2, by omega, b3, fun u e h1 h2 h3 => ?_, fun hz => ?_⟩
    · by_cases c1 : u ≤ t1
      · cases threadAt_eq h3 (a2 u h1 c1)
      · by_cases c2 : u < t2
        · cases threadAt_eq h3 (b2 u (by omega) c2)
        · rw [show u = t2 by omega] at h3; cases threadAt_eq h3 b3
    · obtain ⟨e', g1, g2⟩ := KPing.update_in hz hu
      exact ⟨t1 + 1, e', by omega, by omega, ⟨p', a5, by rw [hk]; exact g1⟩, g2⟩
  simp only [Kad.threadStep] at a6
  split at a6
  · rename_i tb hu
    obtain ⟨t, g1, g2, g3, g4⟩ := recorded hu (Option.some.inj a6).symm
    exact ⟨t, g1, g2, g3, .inl g4⟩
  · rename_i tb hu
    obtain ⟨t, g1, g2, g3, g4⟩ := recorded hu (Option.some.inj a6).symm
    exact ⟨t, g1, g2, g3, .inl g4⟩
  rename_i tb err hu
  have hl : ThreadAt σ n i (t1 + 1) ⟨id, .last⟩ := ⟨p', a5, by rw [← Option.some.inj a6]; exact List.getElem?_set_self (List.getElem?_eq_some_iff.1 a4).1⟩
  -- the bucket is full
  obtain ⟨t2, b1, b2, q, q', b3, b4, b5, b6, b7⟩ := KPing.thread_goes hx h0 alive hcr hfs hl (by simp) (by simp)
  simp only [Kad.threadStep] at b6
  split at b6
  swap
  · have := alive _ q' (List.mem_of_getElem? b5)
    rw [← Option.some.inj b6] at this
    cases this
  rename_i e he
  have hpt : ThreadAt σ n i (t2 + 1) ⟨id, .ping e⟩ := ⟨q', b5, by rw [← Option.some.inj b6]; exact List.getElem?_set_self (List.getElem?_eq_some_iff.1 b4).1⟩
  have hine : InTable σ n t2 e := ⟨q, b3, KadEnd.last_mem he⟩
  -- it pings
  obtain ⟨t3, c1, c2, c3⟩ := KPing.ping_goes hx h0 alive hcr (hfair _ (.inr (.inl rfl))) hpt (by
    rw [b7]
    rintro w hw ⟨rfl, rfl⟩
    obtain ⟨x1, q1, id1, e1, d1, k1, k2, k3, -⟩ := (KPing.Inv.reach (KPing.exec_reach hx h0 t2)).waits w hw
    rw [b3] at k2; cases k2
    rw [b4] at k3; cases k3)
  obtain ⟨t4, d1, d2, d3, d4⟩ := C149_answering_peers_stay S c N σ α hx r n i t3 (hfair _ (.inr (.inr rfl))) c3 id e (c2 t3 c1 (Nat.le_refl _)) hcr hat hNo L hL hin (hrel _ e hine) (fun x hX => hend t3 x c3 hX)
  obtain ⟨t5, e1, e2, e3⟩ := finish (by omega) d4
  refine ⟨t5, by omega, e3, fun u e' h1 h2 h3 => ?_, .inr ⟨t2, t4, e, by omega, by omega, by omega, hine, d3 t4 d1 (Nat.le_refl _), d2⟩⟩
  by_cases k1 : u ≤ t1
  · cases threadAt_eq h3 (a2 u h1 k1)
  by_cases k2 : u ≤ t2
  · cases threadAt_eq h3 (b2 u (by omega) k2)
  by_cases k3 : u ≤ t3
  · cases threadAt_eq h3 (c2 u (by omega) k3)
  by_cases k4 : u ≤ t4
  · cases threadAt_eq h3 (d3 u (by omega) k4)
  by_cases k5 : u < t5
  · cases threadAt_eq h3 (e2 u (by omega) k5)
  · rw [show u = t5 by omega] at h3; cases threadAt_eq h3 e3

/-- **C150 (`Ack` of recorded peers returns).** In every execution of a network of nodes with kademlia: if there is somebody with the key of the argument of `Ack` in the routing table for as long as the call lasts, then it returns as soon as its goroutine has taken two steps: it waits for
nobody, pings nobody and removes nobody. So connections to recorded peers are not held up by their callbacks. -/
theorem C150_known_peers (S : Sorter) (c : KWire.Cfg ε) (N : Nat) (σ : Nat → KPing.State ε) (α : Nat → Option (KPing.Action ε)) (hx : Execution (KPing.step S c) σ α) (h0 : KPing.Start c N (σ 0)) (n i t0 : Nat)
    (hfair : WeaklyFair σ α (Able (KPing.step S c) (· = .kw (.kad n (.step i)))) (· = .kw (.kad n (.step i)))) (id : ID) (hth : ThreadAt σ n i t0 ⟨id, .update⟩)
    (halive : ∀ t p, p ∈ (σ t).kw.parts → p.kad.crashed = false) (hcr : ∀ t x, (σ t).kw.net.nodes[n]? = some x → x.crashed = false)
    (hknown : ∀ t, t0 ≤ t → ThreadAt σ n i t ⟨id, .update⟩ → ∃ e, InTable σ n t e ∧ e.id = id.id) :
    ∃ t1 t2, t0 ≤ t1 ∧ t1 < t2 ∧ (∀ u, t0 ≤ u → u ≤ t1 → ThreadAt σ n i u ⟨id, .update⟩) ∧ (∀ u, t1 < u → u ≤ t2 → ThreadAt σ n i u ⟨id, .emit (.activity id) false⟩) ∧ ThreadAt σ n i (t2 + 1) ⟨id, .done⟩ := by
  obtain ⟨t1, a1, a2, p, p', a3, a4, a5, a6, -⟩ := KPing.thread_goes hx h0 halive hcr hfair hth (by simp) (by simp)
  obtain ⟨e, ⟨q, hq, he⟩, hk⟩ := hknown t1 a1 (a2 t1 a1 (Nat.le_refl _))
  rw [a3] at hq; cases hq
  obtain ⟨tb, hu⟩ := KPing.update_known (KPing.table_inv (KPing.reach_kw (KPing.exec_reach hx h0 t1)) n p a3) he hk
  simp only [Kad.threadStep, hu, Option.some.injEq] at a6
  have hem : ThreadAt σ n i (t1 + 1) ⟨id, .emit (.activity id) false⟩ := ⟨p', a5, by rw [← a6]; exact List.getElem?_set_self (List.getElem?_eq_some_iff.1 a4).1⟩
  obtain ⟨t2, b1, b2, q, q', -, b4, b5, b6, -⟩ := KPing.thread_goes hx h0 halive hcr hfair hem (by simp) (by simp)
  refine ⟨t1, t2, a1, by omega, a2, fun u h1 h2 => b2 u (by omega) h2, q', b5, ?_⟩
  simp only [Kad.threadStep, Bool.false_eq_true, if_false, Option.some.injEq] at b6
  rw [← b6]
  exact List.getElem?_set_self (List.getElem?_eq_some_iff.1 b4).1

end Noise
