import Verif.Props.KadServe
import Verif.Props.KadFind
/-! # C147: the execution of `KadFind.lean` meets its hypotheses -/
namespace Noise
open Spec Net
variable {ε : Type}

/-- If an execution of nodes with kademlia, of which the part of the nodes is fair, comes to rest, then it is fair. -/
theorem KWire.fair_of_rest {S : Sorter} {c : KWire.Cfg ε} {N : Nat} {σ : Nat → KWire.State ε} {α : Nat → Option (KWire.Action ε)} (hx : Execution (KWire.step S c) σ α) (h0 : KWire.Start c N (σ 0)) (hl : ∀ t p, p ∈ (σ t).parts → p.kad.crashed = false)
    {T : Nat} (hrest : ∀ t, T ≤ t → α t = none) (r : Net.FairRun c.node N (fun t => (σ t).net) (KWire.netActs c σ α)) : KWire.FairRun S c N σ α := by
  have idle : ∀ (C : Net.Action ε → Prop) t, T ≤ t → ¬ Takes (KWire.netActs c σ α) C t := by
    rintro C t ht ⟨b, h, -⟩
    rw [KWire.netActs, hrest t ht] at h; cases h
  have able : ∀ {s : KWire.State ε} {b : Net.Action ε}, (KWire.step S c s (.net b)).isSome = true → (Net.step c.node s.net b).isSome = true := by
    intro s b h
    simp only [KWire.step] at h
    split at h
    · cases h
    · obtain ⟨s', h⟩ := Option.isSome_iff_exists.1 h
      rw [(KWire.go_some h).1]; rfl
  refine ⟨hx, h0, hl, ?_, ?_, ?_⟩
  · intro p t
    obtain ⟨u, hu, h | h⟩ := r.runs p (max t T)
    · exact absurd h (idle _ u (by omega))
    refine ⟨u, by omega, .inr ?_⟩
    rintro ⟨a, ⟨h1, h2⟩, h3⟩
    have inside : ∀ n w x, p = .worker n w → (σ u).net.nodes[n]? = some x → x.crashed = false → (KWire.invocation c x w).isSome = true → False := by
      rintro n w x rfl hX hcr hi
      obtain ⟨⟨k, it⟩, hi⟩ := Option.isSome_iff_exists.1 hi
      obtain ⟨q, g1, g2, g3⟩ := KWire.invocation_some hi
      exact h ⟨.node n (.handlerReturn w none), ⟨.inr ⟨_, rfl⟩, fun n j m e => by cases e⟩, by simp [Net.step, hX, Node.step, hcr, g1, Wk.step, g2]⟩
    obtain ⟨s', h3⟩ := Option.isSome_iff_exists.1 h3
    cases a with
    | net b => exact h ⟨b, ⟨h1, h2 b rfl⟩, able (by rw [h3]; rfl)⟩
    | handle n w =>
      cases p with
      | worker n' w' =>
        obtain ⟨rfl, rfl⟩ := h1
        simp only [KWire.step, KWire.State.with] at h3
        split at h3
        swap
        · cases h3
        rename_i x p hX hp
        split at h3
        · cases h3
        rename_i hcr
        refine inside n w x rfl hX (by simp at hcr; exact hcr.1) ?_
        cases hi : KWire.invocation c x w with
        | none => simp [hi] at h3
        | some => rfl
      | _ => cases h1
    | reply n w =>
      cases p with
      | worker n' w' =>
        obtain ⟨rfl, rfl⟩ := h1
        simp only [KWire.step] at h3
        split at h3
        swap
        · cases h3
        rename_i x p hX hp
        split at h3
        swap
        · cases h3
        rename_i hi
        split at h3
        swap
        · cases h3
        have := (KWire.go_some h3).1
        refine inside n w x rfl hX ?_ (by rw [hi]; rfl)
        cases hcr : x.crashed with
        | false => rfl
        | true => simp [Net.step, hX, Node.step, hcr] at this
      | _ => cases h1
    | leave n w e =>
      cases p with
      | worker n' w' =>
        obtain ⟨rfl, rfl⟩ := h1
        simp only [KWire.step] at h3
        split at h3
        swap
        · cases h3
        rename_i x p hX hp
        split at h3
        swap
        · cases h3
        rename_i hi
        split at h3
        swap
        · cases h3
        split at h3
        swap
        · cases h3
        have := (KWire.go_some h3).1
        refine inside n w x rfl hX ?_ (by rw [hi]; rfl)
        cases hcr : x.crashed with
        | false => rfl
        | true => simp [Net.step, hX, Node.step, hcr] at this
      | _ => cases h1
    | _ => cases p <;> cases h1
  · intro e t
    obtain ⟨u, hu, h | h⟩ := r.net e (max t T)
    · exact absurd h (idle _ u (by omega))
    · exact ⟨u, by omega, .inr h⟩
  · intro e hinf
    obtain ⟨u, hu, h⟩ := r.queue e (fun t => by
      obtain ⟨u, hu, a, rfl, h⟩ := hinf t
      exact ⟨u, hu, _, rfl, able h⟩) T
    exact absurd h (idle _ u hu)

/-- What the network does in it. -/
def kadNet (t : Nat) : Option (Net.Action Unit) := (kadAll[t]?).bind (KWire.netOf kads (kadPlay t))

theorem kad_fair : Net.FairRun kads.node 3 (fun t => (kadPlay t).net) kadNet ∧ Unbroken (fun t => (kadPlay t).net) kadNet ⟨0, 0⟩ ⟨1, 0⟩ ∧ (∀ m k, Endless (fun t => (kadPlay t).net) m k) ∧ ∀ t X, X ∈ (kadPlay t).net.nodes → okNode X = true := by
  have hend : (runs (KWire.step insertionSorter kads) kadStart kadAll).map (fun s => s.net.nodes.all quietNode && quietWires s.net) = some true := by decide +kernel
  have hwire : (runs (KWire.step insertionSorter kads) kadStart kadAll).map (fun s => s.net.wires.any fun w => decide (w.out = ⟨0, 0⟩) && decide (w.inn = ⟨1, 0⟩)) = some true := by decide +kernel
  have hok : ((List.range (kadAll.length + 1)).all fun t => (kadPlay t).net.nodes.all okNode) = true := by decide +kernel
  have herr : ((List.range (kadAll.length + 1)).all fun t => noError (kadNet t)) = true := by decide +kernel
  obtain ⟨s, h1, h2⟩ := Option.map_eq_some_iff.1 hend
  obtain ⟨hx, hfin⟩ : Execution (KWire.step insertionSorter kads) kadPlay (fun t => kadAll[t]?) ∧ ∀ t, kadAll.length ≤ t → kadPlay t = s := Fair.play_exec h1
  rw [h1] at hwire
  have exec : Execution (Net.step kads.node) (fun t => (kadPlay t).net) kadNet := by
    intro t
    rcases hx t with ⟨e1, e2⟩ | ⟨a, e1, e2⟩
    · exact .inl ⟨by have e1 : kadAll[t]? = none := e1; simp only [kadNet, e1, Option.bind_none], by simp only [e2]⟩
    · rcases KWire.netOf_step e2 with ⟨e3, e4⟩ | ⟨b, e3, e4⟩
      · exact .inl ⟨by have e1 : kadAll[t]? = some a := e1; simp only [kadNet, e1, Option.bind_some]; exact e3, e4⟩
      · exact .inr ⟨b, by have e1 : kadAll[t]? = some a := e1; simp only [kadNet, e1, Option.bind_some]; exact e3, e4⟩
  have ok : ∀ t X, X ∈ (kadPlay t).net.nodes → okNode X = true := by
    intro t X hX
    by_cases ht : t ≤ kadAll.length
    · exact List.all_eq_true.1 (List.all_eq_true.1 hok t (List.mem_range.2 (by omega))) X hX
    · have := List.all_eq_true.1 hok kadAll.length (List.mem_range.2 (by omega))
      rw [hfin _ (Nat.le_refl _)] at this
      rw [hfin t (by omega)] at hX
      exact List.all_eq_true.1 this X hX
  obtain ⟨g1, g2⟩ := unbroken_of_ok (σ := fun t => (kadPlay t).net) (α := kadNet) (o := ⟨0, 0⟩) (i := ⟨1, 0⟩) (by
    have := Option.some.inj hwire
    simp only [List.any_eq_true, Bool.and_eq_true, decide_eq_true_eq] at this
    obtain ⟨w, hw, e⟩ := this
    exact ⟨kadAll.length, w, by rw [hfin _ (Nat.le_refl _)]; exact hw, e.1, e.2⟩) ok (by
    intro t m w e ha
    by_cases ht : t ≤ kadAll.length
    · have := List.all_eq_true.1 herr t (List.mem_range.2 (by omega))
      rw [ha] at this; cases this
    · rw [kadNet, List.getElem?_eq_none (by omega)] at ha; cases ha)
  exact ⟨net_fair_of_rest exec rfl (T := kadAll.length) (fun t ht => by rw [hfin t ht]) (quietNet_of h2), g1, g2, ok⟩

theorem kad_alive : ∀ t p, p ∈ (kadPlay t).parts → p.kad.crashed = false := by
  have hall : ((List.range (kadAll.length + 1)).all fun t => (kadPlay t).parts.all fun p => !p.kad.crashed) = true := by decide +kernel
  obtain ⟨s, h1, h2⟩ := Option.map_eq_some_iff.1 kadAll_runs
  have hfin : ∀ t, kadAll.length ≤ t → kadPlay t = s := (Fair.play_exec h1).2
  have low : ∀ t, t ≤ kadAll.length → ∀ p, p ∈ (kadPlay t).parts → p.kad.crashed = false := by
    intro t ht p hp
    have := List.all_eq_true.1 (List.all_eq_true.1 hall t (List.mem_range.2 (by omega))) p hp
    simpa using this
  intro t p hp
  by_cases ht : t ≤ kadAll.length
  · exact low t ht p hp
  · rw [hfin t (by omega), ← hfin kadAll.length (Nat.le_refl _)] at hp
    exact low _ (Nat.le_refl _) p hp

/-- Calls at node 0 are for the addresses of the nodes 1 and 2. -/
def kadCalls (s : KWire.State Unit) : Bool := match s.net.nodes[0]? with
  | some x => x.calls.all fun d => decide (d.addr = (kid 1).address) || decide (d.addr = (kid 2).address)
  | none => true

/-- When node 0 asks node 1. -/
def kadAsks : Nat := kadJoin.length + 3

/-- The hypotheses of C147 are met: what node 1 answers when node 0 asks it in the course of `Discover`. -/
example : ∃ t' m d', kadAsks ≤ t' ∧ CallAt (fun t => (kadPlay t).net) 0 1 t' d' ∧ d'.pc = .returned (.response m) ∧
    ∃ u p, kadAsks < u ∧ u ≤ t' ∧ (kadPlay u).parts[1]? = some p ∧ ReplyTo insertionSorter kads.ops p.kad.table (.find (kid 1).id) m.data := by
  obtain ⟨r, u, hend, ok⟩ := kad_fair
  obtain ⟨s, h1, h2⟩ := Option.map_eq_some_iff.1 kadAll_runs
  obtain ⟨hx, hfin⟩ : Execution (KWire.step insertionSorter kads) kadPlay (fun t => kadAll[t]?) ∧ ∀ t, kadAll.length ≤ t → kadPlay t = s := Fair.play_exec h1
  have hall : ((List.range (kadAll.length + 1)).all fun t => kadClosed (kadPlay t) && kadCalls (kadPlay t)) = true := by decide +kernel
  have always : ∀ t, kadClosed (kadPlay t) = true ∧ kadCalls (kadPlay t) = true := by
    have low : ∀ t, t ≤ kadAll.length → kadClosed (kadPlay t) = true ∧ kadCalls (kadPlay t) = true := by
      intro t ht
      have := List.all_eq_true.1 hall t (List.mem_range.2 (by omega))
      simpa only [Bool.and_eq_true] using this
    intro t
    by_cases ht : t ≤ kadAll.length
    · exact low t ht
    · rw [hfin t (by omega), ← hfin kadAll.length (Nat.le_refl _)]
      exact low _ (Nat.le_refl _)
  have hcall : (((kadPlay kadAsks).net.nodes[0]?).bind fun X => (X.calls[1]?).map fun d => (decide (d.pc = .get), decide (0 < d.left), decide (d.addr = (kid 1).address), decide (d.kind = .request (Query.bytes kads.ops (.find (kid 1).id))),
      (X.conns[0]?).map fun x => decide (x.addr = (kid 1).address))) = some (true, true, true, true, some true) := by decide +kernel
  obtain ⟨X, hX, hcall⟩ := Option.bind_eq_some_iff.1 hcall
  obtain ⟨d, hd, hcall⟩ := Option.map_eq_some_iff.1 hcall
  simp only [Prod.mk.injEq, decide_eq_true_eq, Option.map_eq_some_iff] at hcall
  obtain ⟨e1, e2, e3, e4, x, e5, e6⟩ := hcall
  have hX : (kadPlay kadAsks).net.nodes[(⟨0, 0⟩ : End).node]? = some X := hX
  have hco : (kadPlay kadAsks).net.conn ⟨0, 0⟩ = some x := (conn_join hX).trans e5
  refine C147_queries_answered insertionSorter kads 3 kadPlay _ (KWire.fair_of_rest hx kad_starts kad_alive (T := kadAll.length) (fun t ht => List.getElem?_eq_none ht) r) ⟨0, 0⟩ ⟨1, 0⟩ u (by decide) (by decide) (by decide) ?_ [(kid 1).address, (kid 2).address] (by decide) ?_ (.find (kid 1).id) ?_
    kadAsks 1 d ⟨X, hX, hd⟩ e1 e2 x hco (e6.trans e3.symm) e4 (hend 0 1)
  · intro t y hy
    obtain ⟨Y, hY, hy'⟩ := conn_split hy
    have := (okNode_spec (ok t Y (List.mem_of_getElem? hY))).2.2.2.1 y (List.mem_of_getElem? hy')
    omega
  · rintro t k c ⟨Y, hY, hk⟩
    have := (always t).2
    have hY : (kadPlay t).net.nodes[0]? = some Y := hY
    simp only [kadCalls, hY, List.all_eq_true, Bool.or_eq_true, decide_eq_true_eq] at this
    simpa using this c (List.mem_of_getElem? hk)
  · intro t Y q k h v b it hY hq hin _ _
    have := (always t).1
    simp only [kadClosed, Bool.and_eq_true, List.all_eq_true, decide_eq_true_eq] at this
    have h4 := (this.2 Y (List.mem_of_getElem? hY)).2
    rw [hq] at h4
    exact of_decide_eq_true (List.all_eq_true.1 h4 _ hin)

/-- Node 1 runs the handler of kademlia. -/
example : (∃ s', KWire.step insertionSorter kads (kadPlay 81) (.handle 1 0) = some s') ∨ (∃ s', KWire.step insertionSorter kads (kadPlay 81) (.reply 1 0) = some s') ∨
    (∃ s', KWire.step insertionSorter kads (kadPlay 81) (.leave 1 0 none) = some s') ∨ ∀ e, ∃ s', KWire.step insertionSorter kads (kadPlay 81) (.leave 1 0 (some e)) = some s' := by
  obtain ⟨s, h1, -⟩ := Option.map_eq_some_iff.1 kadAll_runs
  obtain ⟨hx, -⟩ : Execution (KWire.step insertionSorter kads) kadPlay (fun t => kadAll[t]?) ∧ ∀ t, kadAll.length ≤ t → kadPlay t = s := Fair.play_exec h1
  have hc : (((kadPlay 81).net.nodes[1]?).bind fun x => x.wk.bind fun q => (q.workers[0]?).map fun w => (x.crashed, match w with | .inside k h => decide (k = 0 ∧ h = kads.handler) | _ => false)) = some (false, true) := by decide +kernel
  obtain ⟨x, hX, hc⟩ := Option.bind_eq_some_iff.1 hc
  obtain ⟨q, hq, hc⟩ := Option.bind_eq_some_iff.1 hc
  obtain ⟨w, hw, hc⟩ := Option.map_eq_some_iff.1 hc
  obtain ⟨hc, hi⟩ := Prod.mk.inj hc
  have hw : q.workers[0]? = some (.inside 0 kads.handler) := by
    rw [hw]
    cases w with
    | inside k h =>
      obtain ⟨rfl, rfl⟩ := of_decide_eq_true hi
      rfl
    | _ => cases hi
  obtain ⟨p, hp⟩ : ∃ p, (kadPlay 81).parts[1]? = some p := Option.isSome_iff_exists.1 (by decide +kernel)
  exact C147_handler_goes_on insertionSorter kads 3 (kadPlay 81) (KWire.all_serve hx kad_starts 81).1 (kad_alive 81) 1 0 x p hX hp hc q 0 hq hw

end Noise
