import Verif.Proofs.KadPing
import Verif.Proofs.KadSync
/-! # The calls of `Ack` go on, in a network of nodes with kademlia -/
namespace Noise.KPing
open Spec
variable {ε : Type} {S : Sorter} {c : KWire.Cfg ε} {N : Nat} {σ : Nat → State ε} {α : Nat → Option (Action ε)}

/-- A call that does not wait for a ping, while it does not take a step. -/
theorem thread_idle (hx : Execution (step S c) σ α) (h0 : Start c N (σ 0)) {n i u : Nat} {th : Kad.Thread} (hth : ThreadAt σ n i u th) (hpc : ∀ e, th.pc ≠ .ping e) (hnu : α u ≠ some (.kw (.kad n (.step i)))) : ThreadAt σ n i (u + 1) th := by
  obtain ⟨p, hp, hth1⟩ := hth
  rcases hx u with ⟨-, h⟩ | ⟨a, h, hs⟩
  · exact ⟨p, by rw [h]; exact hp, hth1⟩
  have key : ∀ {b : KWire.Action ε}, KWire.step S c (σ u).kw b = some (σ (u + 1)).kw → (∀ g, b ≠ .kad n (.pinged i g)) → b ≠ .kad n (.step i) → ThreadAt σ n i (u + 1) th := by
    intro b hb h1 h2
    obtain ⟨p', f1, ⟨l, f2⟩ | ⟨act, rfl, f2⟩⟩ := KWire.step_kad hb hp
    · refine ⟨p', f1, ?_⟩
      rw [f2]
      simp only
      rw [List.getElem?_append_left (List.getElem?_eq_some_iff.1 hth1).1]; exact hth1
    · exact ⟨p', f1, kad_other f2 hth1 (fun g hg => h1 g (by rw [hg])) (fun hg => h2 (by rw [hg]))⟩
  rcases step_kw hs with ⟨b, rfl, hdec, hb, -⟩ | ⟨m, j, y, q, id1, e2, rfl, -, -, -, -, hb, -⟩ | ⟨m, j, w, y, d1, res, rfl, hw, rfl, rfl, -, -, -, hb, -⟩ | ⟨m, k, y, d1, rfl, -, -, -, hb, -⟩
  · exact key hb (by rintro g rfl; cases hdec) (by rintro rfl; exact hnu h)
  · exact key hb (by simp) (by simp)
  · refine key hb (fun g hg => ?_) (by simp)
    simp only [KWire.Action.kad.injEq, Kad.Action.pinged.injEq] at hg
    obtain ⟨rfl, rfl, -⟩ := hg
    obtain ⟨x1, q, id1, e1, d1, k1, k2, k3, -⟩ := (Inv.reach (exec_reach hx h0 u)).waits w hw
    rw [hp] at k2; cases k2
    rw [hth1] at k3; cases k3
    exact absurd rfl (hpc e1)
  · exact key hb (by simp) (by simp)

/-- A call that can take a step takes it. -/
theorem thread_goes (hx : Execution (step S c) σ α) (h0 : Start c N (σ 0)) (alive : ∀ t p, p ∈ (σ t).kw.parts → p.kad.crashed = false) {n i t0 : Nat} (hcr : ∀ t x, (σ t).kw.net.nodes[n]? = some x → x.crashed = false)
    (hfair : WeaklyFair σ α (Able (step S c) (· = .kw (.kad n (.step i)))) (· = .kw (.kad n (.step i)))) {id : ID} {pc : Kad.Pc} (hth : ThreadAt σ n i t0 ⟨id, pc⟩) (hpc : ∀ e, pc ≠ .ping e) (hd : pc ≠ .done) :
    ∃ t, t0 ≤ t ∧ (∀ u, t0 ≤ u → u ≤ t → ThreadAt σ n i u ⟨id, pc⟩) ∧ ∃ (p p' : KWire.Part), (σ t).kw.parts[n]? = some p ∧ p.kad.threads[i]? = some ⟨id, pc⟩ ∧ (σ (t + 1)).kw.parts[n]? = some p' ∧
      Kad.threadStep p.kad i id pc = some p'.kad ∧ (σ (t + 1)).waits = (σ t).waits := by
  have stay : ∀ t, t0 ≤ t → (∀ u, t0 ≤ u → u < t → α u ≠ some (.kw (.kad n (.step i)))) → ThreadAt σ n i t ⟨id, pc⟩ := by
    intro t hle
    induction t, hle using Nat.le_induction with
    | base => exact fun _ => hth
    | succ t hle ih => exact fun h => thread_idle hx h0 (ih fun u h1 h2 => h u h1 (by omega)) hpc (h t hle (by omega))
  have hex : ∃ t, t0 ≤ t ∧ α t = some (.kw (.kad n (.step i))) := by
    by_contra hno
    push Not at hno
    obtain ⟨t, h1, h2⟩ := hfair t0
    rcases h2 with ⟨a, h2, rfl⟩ | h2
    · exact hno t h1 h2
    apply h2
    obtain ⟨p, g1, g2⟩ := stay t h1 fun u h3 _ => hno u h3
    have hr := reach_kw (exec_reach hx h0 t)
    obtain ⟨y, hy⟩ : ∃ y, (σ t).kw.net.nodes[n]? = some y := ⟨_, List.getElem?_eq_getElem (by
      rw [KWire.reach_len hr, ← (KWire.net_reach hr).2]; exact (List.getElem?_eq_some_iff.1 g1).1)⟩
    refine ⟨_, rfl, ?_⟩
    have hs : ∃ k', Kad.threadStep p.kad i id pc = some k' := by
      cases pc with
      | ping e => exact absurd rfl (hpc e)
      | done => exact absurd rfl hd
      | _ =>
        simp only [Kad.threadStep]
        try split
        all_goals exact ⟨_, rfl⟩
    obtain ⟨k', hs⟩ := hs
    have halive := alive t p (List.mem_of_getElem? g1)
    simp only [step, decided, KWire.step, KWire.State.with, hy, g1, hcr t y hy, Bool.or_self, Kad.step, halive, g2, hs, Option.map_some, Option.isSome_some, Bool.false_eq_true, if_false]
  classical
  obtain ⟨h1, h2⟩ := Nat.find_spec hex
  have hall : ∀ u, t0 ≤ u → u ≤ Nat.find hex → ThreadAt σ n i u ⟨id, pc⟩ := fun u h3 h4 => stay u h3 fun v h5 h6 h7 => Nat.find_min hex (by omega : v < Nat.find hex) ⟨h5, h7⟩
  refine ⟨Nat.find hex, h1, hall, ?_⟩
  obtain ⟨p, g1, g2⟩ := hall _ h1 (Nat.le_refl _)
  rcases hx (Nat.find hex) with ⟨h, -⟩ | ⟨a, h, hs⟩
  · rw [h2] at h; cases h
  rw [h2] at h; cases h
  rcases step_kw hs with ⟨b, h, -, hb, hw, -⟩ | ⟨m, j, y, q, id1, e2, h, -⟩ | ⟨m, j, w, y, d1, res, h, -⟩ | ⟨m, k, y, d1, h, -⟩ <;> cases h
  obtain ⟨y1, q0, q1, -, hq0, hf, he⟩ := KWire.with_some hb
  rw [g1] at hq0; cases hq0
  obtain ⟨k, hk, rfl⟩ := Option.map_eq_some_iff.1 hf
  refine ⟨p, _, g1, g2, by rw [he]; exact List.getElem?_set_self (List.getElem?_eq_some_iff.1 g1).1, ?_, hw⟩
  simp only [Kad.step, alive _ p (List.mem_of_getElem? g1), g2, Bool.false_eq_true, if_false] at hk
  exact hk

/-- A call that has come to its ping makes it. -/
theorem ping_goes (hx : Execution (step S c) σ α) (h0 : Start c N (σ 0)) {n i t0 : Nat} (alive : ∀ t p, p ∈ (σ t).kw.parts → p.kad.crashed = false) (hcr : ∀ t x, (σ t).kw.net.nodes[n]? = some x → x.crashed = false)
    (hfair : WeaklyFair σ α (Able (step S c) (· = .ping n i)) (· = .ping n i)) {id e : ID} (hth : ThreadAt σ n i t0 ⟨id, .ping e⟩) (hw : ∀ w ∈ (σ t0).waits, ¬ (w.node = n ∧ w.thread = i)) :
    ∃ t, t0 ≤ t ∧ (∀ u, t0 ≤ u → u ≤ t → ThreadAt σ n i u ⟨id, .ping e⟩) ∧ α t = some (.ping n i) := by
  have stay : ∀ t, t0 ≤ t → (∀ u, t0 ≤ u → u < t → α u ≠ some (.ping n i)) → ThreadAt σ n i t ⟨id, .ping e⟩ ∧ ∀ w ∈ (σ t).waits, ¬ (w.node = n ∧ w.thread = i) := by
    intro t hle
    induction t, hle using Nat.le_induction with
    | base => exact fun _ => ⟨hth, hw⟩
    | succ t hle ih =>
      intro hno
      obtain ⟨⟨p, hp, hth1⟩, hw1⟩ := ih fun u h1 h2 => hno u h1 (by omega)
      rcases hx t with ⟨-, h⟩ | ⟨a, h, hs⟩
      · exact ⟨⟨p, by rw [h]; exact hp, hth1⟩, by rw [h]; exact hw1⟩
      rcases step_kw hs with ⟨b, rfl, hdec, hb, e1, -⟩ | ⟨m, j, y, q, id1, e2, rfl, -, -, -, -, hb, e1, -⟩ | ⟨m, j, w, y, d1, res, rfl, hw2, rfl, rfl, -, -, -, hb, e1, -⟩ | ⟨m, k, y, d1, rfl, -, -, -, hb, e1⟩
      · exact ⟨threads_step hb hp hth1 ⟨e, rfl⟩ (by rintro g rfl; cases hdec), by rw [e1]; exact hw1⟩
      · refine ⟨threads_step hb hp hth1 ⟨e, rfl⟩ (by simp), ?_⟩
        rw [e1]
        intro w hw2
        rcases List.mem_append.1 hw2 with hw2 | hw2
        · exact hw1 w hw2
        · rw [List.mem_singleton.1 hw2]
          rintro ⟨rfl, rfl⟩
          exact hno t hle (by omega) h
      · refine ⟨threads_step hb hp hth1 ⟨e, rfl⟩ (fun g hg => ?_), ?_⟩
        · simp only [KWire.Action.kad.injEq, Kad.Action.pinged.injEq] at hg
          exact hw1 w hw2 ⟨hg.1, hg.2.1⟩
        · rw [e1]; exact fun w' hw' => hw1 w' (List.mem_filter.1 hw').1
      · exact ⟨threads_step hb hp hth1 ⟨e, rfl⟩ (by simp), by rw [e1]; exact hw1⟩
  have hex : ∃ t, t0 ≤ t ∧ α t = some (.ping n i) := by
    by_contra hno
    push Not at hno
    obtain ⟨t, h1, h2⟩ := hfair t0
    rcases h2 with ⟨a, h2, rfl⟩ | h2
    · exact hno t h1 h2
    apply h2
    obtain ⟨⟨p, g1, g2⟩, g3⟩ := stay t h1 fun u h3 _ => hno u h3
    have hr := reach_kw (exec_reach hx h0 t)
    obtain ⟨y, hy⟩ : ∃ y, (σ t).kw.net.nodes[n]? = some y := ⟨_, List.getElem?_eq_getElem (by
      rw [KWire.reach_len hr, ← (KWire.net_reach hr).2]; exact (List.getElem?_eq_some_iff.1 g1).1)⟩
    refine ⟨_, rfl, ?_⟩
    have hany : (σ t).waits.any (fun w => decide (w.node = n ∧ w.thread = i)) = false := by
      rw [List.any_eq_false]; intro w hw; simpa only [decide_eq_true_eq] using g3 w hw
    have halive := alive t p (List.mem_of_getElem? g1)
    simp only [step, hy, g1, g2, hany, KWire.step, KWire.bars, KWire.State.go, KWire.dead, halive, Net.step, Node.step, hcr t y hy, Option.map_some, Option.any_some, Option.isSome_some, Bool.false_eq_true, if_false]
  classical
  obtain ⟨h1, h2⟩ := Nat.find_spec hex
  exact ⟨Nat.find hex, h1, fun u h3 h4 => (stay u h3 fun v h5 h6 h7 => Nat.find_min hex (by omega : v < Nat.find hex) ⟨h5, h7⟩).1, h2⟩

/-- After `Update`, somebody with this key is in the table. -/
theorem update_in {t t' : Table} {e : ID} (hz : e.id ≠ zeroPublicKey) {b : Bool} (h : t.update e = (t', .ok b)) : ∃ e' ∈ t'.all, e'.id = e.id := by
  have h1 := KadSync.update_first (t := t) hz (b := b) (by rw [h])
  rw [h] at h1
  obtain ⟨x, g1, g2⟩ := Option.map_eq_some_iff.1 h1
  exact ⟨x, (Table.mem_all t' x).2 ⟨_, Table.bucketIndex_lt t' e.id, List.mem_of_mem_head? g1⟩, g2⟩

/-- `Update` of a key that is in the table finds it. -/
theorem update_known {t : Table} (hi : t.Inv) {e x : ID} (hx : x ∈ t.all) (hk : x.id = e.id) : ∃ t', t.update e = (t', .ok false) := by
  have hm := (hi.mem_all_iff x).1 hx
  rw [hk] at hm
  rcases Table.update_cases t e with ⟨h, -⟩ | ⟨y, pre, post, -, -, h⟩ | ⟨h, -⟩ | ⟨h, -⟩
  · exact ⟨_, h⟩
  · exact ⟨_, h⟩
  · exact absurd hk (h x hm)
  · exact absurd hk (h x hm)

end Noise.KPing
