import Verif.Proofs.Net
/-! # Every connection between two nodes of a network behaves as `Model/Link.lean` says -/
namespace Noise.Net
open Spec
variable {ε : Type} {cfg : Nat → Node.Cfg ε}

/-- The ends of connections between nodes. -/
def ends (ws : List Wire) : List End := ws.flatMap fun w => [w.out, w.inn]

theorem used_iff {s : State ε} {e : End} : s.used e = false ↔ e ∉ s.foreign ∧ e ∉ ends s.wires := by
  unfold State.used ends
  rw [Bool.or_eq_false_iff]
  refine and_congr (by simp) ?_
  rw [← Bool.not_eq_true, List.any_eq_true, List.mem_flatMap]
  refine not_congr (exists_congr fun w => and_congr_right fun _ => ?_)
  rw [Bool.or_eq_true, decide_eq_true_iff, decide_eq_true_iff, List.mem_cons, List.mem_singleton, eq_comm, @eq_comm _ e w.inn]

structure Inv (cfg : Nat → Node.Cfg ε) (s : State ε) : Prop where
  nodes : ∀ (n : Nat) (x : Node.State ε), s.nodes[n]? = some x → Node.Reachable (cfg n) x
  sides : ∀ (k : Nat) (w : Wire), s.wires[k]? = some w → (∃ x, s.conn w.out = some x ∧ x.c.side = .outbound) ∧ ∃ y, s.conn w.inn = some y ∧ y.c.side = .inbound
  link : ∀ (k : Nat) (w : Wire), s.wires[k]? = some w → Link.Reachable (cfg w.inn.node).numWorkers (cfg w.inn.node).numHandlers (s.lk cfg w.out w.inn w.readOut w.readIn)
  free : ∀ o i, s.used o = false → s.used i = false → Fits s o i → Link.Reachable (cfg i.node).numWorkers (cfg i.node).numHandlers (s.lk cfg o i 0 0)
  nodup : (ends s.wires).Nodup
  apart : ∀ e ∈ s.foreign, e ∉ ends s.wires

theorem conn_new (n : Nat) (e : End) : (State.new n : State ε).conn e = none := by
  unfold State.conn State.new
  simp only
  cases h : (List.replicate n (Node.State.new : Node.State ε))[e.node]? with
  | none => rfl
  | some x =>
    have := List.eq_of_mem_replicate (List.mem_of_getElem? h)
    subst this
    simp [Node.State.new]

theorem Inv.init (n : Nat) : Inv cfg (State.new n : State ε) := by
  refine ⟨?_, by simp [State.new], by simp [State.new], ?_, by simp [State.new, ends], by simp [State.new]⟩
  · intro k x hx
    have := List.eq_of_mem_replicate (List.mem_of_getElem? hx)
    subst this
    exact .refl _
  · intro o i _ _ _
    refine ⟨[], ?_⟩
    have hw : (State.new n : State ε).wkOf cfg i.node = Wk.State.new (cfg i.node).numWorkers (cfg i.node).numHandlers := by
      unfold State.wkOf State.new
      simp only
      cases h : (List.replicate n (Node.State.new : Node.State ε))[i.node]? with
      | none => rfl
      | some x =>
        have := List.eq_of_mem_replicate (List.mem_of_getElem? h)
        subst this
        rfl
    simp only [runs, State.lk, State.cl, conn_new, hw, Link.State.new]
    rfl

theorem getElem?_set_conn {x x' : Node.State ε} {j i : Nat} {y y' : Node.Conn ε} (hc : x'.conns = x.conns.set j y') (hj : x.conns[j]? = some y) (hs : y'.c.side = y.c.side) {z : Node.Conn ε} (hz : x.conns[i]? = some z) :
    ∃ z', x'.conns[i]? = some z' ∧ z'.c.side = z.c.side := by
  by_cases h : i = j
  · subst h
    rw [hj] at hz; cases hz
    exact ⟨y', by rw [hc]; exact List.getElem?_set_self (List.getElem?_eq_some_iff.1 hj).1, hs⟩
  · exact ⟨z, by rw [hc, List.getElem?_set_ne (Ne.symm h)]; exact hz, rfl⟩

/-- Clients stay, on their side. -/
theorem neff_keeps {c : Node.Cfg ε} {x x' : Node.State ε} (h : Node.NEff c x x') {j : Nat} {y : Node.Conn ε} (hy : x.conns[j]? = some y) : ∃ y', x'.conns[j]? = some y' ∧ y'.c.side = y.c.side := by
  cases h with
  | plain hp _ =>
    obtain ⟨y', h1, h2⟩ := hp.old j y hy
    exact ⟨y', h1, h2.side⟩
  | deliver i m z z' q q' hz _ hc hstep _ _ _ => exact getElem?_set_conn hc hz (Cl.side_step hstep) hy
  | refused k h data it q q' hc => exact ⟨y, by rw [hc]; exact hy, rfl⟩
  | answer k h data it z z' q q' _ _ _ _ _ hz hc hstep => exact getElem?_set_conn hc hz (Cl.side_step hstep) hy
  | send i data z z' _ hz _ hc hstep => exact getElem?_set_conn hc hz (Cl.side_step hstep) hy

/-- The clients that there are stay, on their side. -/
def Keeps (s s' : State ε) : Prop := ∀ e y, s.conn e = some y → ∃ y', s'.conn e = some y' ∧ y'.c.side = y.c.side

theorem Keeps.fits {s s' : State ε} (h : Keeps s s') {o i : End} (hf : Fits s' o i) : Fits s o i := by
  refine ⟨fun x hx => ?_, fun y hy => ?_⟩
  · obtain ⟨x', h1, h2⟩ := h o x hx
    rw [← h2]; exact hf.1 x' h1
  · obtain ⟨y', h1, h2⟩ := h i y hy
    rw [← h2]; exact hf.2 y' h1

theorem keeps_set {s : State ε} {n : Nat} {x x' : Node.State ε} (hn : s.nodes[n]? = some x) (h : ∀ (j : Nat) (y : Node.Conn ε), x.conns[j]? = some y → ∃ y', x'.conns[j]? = some y' ∧ y'.c.side = y.c.side) : Keeps s (s.setNode n x') := by
  intro e y hy
  rw [conn_set hn]
  by_cases he : e.node = n
  · rw [if_pos he]
    exact h _ y (by rw [← conn_at hn he]; exact hy)
  · rw [if_neg he]; exact ⟨y, hy, rfl⟩

theorem Inv.fits {s : State ε} (v : Inv cfg s) {k : Nat} {w : Wire} (hw : s.wires[k]? = some w) : Fits s w.out w.inn := by
  obtain ⟨⟨x, h1, h2⟩, y, h3, h4⟩ := v.sides k w hw
  refine ⟨fun x' hx' => ?_, fun y' hy' => ?_⟩
  · rw [h1] at hx'; cases hx'; exact h2
  · rw [h3] at hy'; cases hy'; exact h4

theorem nodes_set {s : State ε} (v : Inv cfg s) {n : Nat} {x x' : Node.State ε} {a : Node.Action ε} (hn : s.nodes[n]? = some x) (h : Node.step (cfg n) x a = some x') (m : Nat) (z : Node.State ε)
    (hz : (s.setNode n x').nodes[m]? = some z) : Node.Reachable (cfg m) z := by
  unfold State.setNode at hz
  by_cases hm : m = n
  · subst hm
    simp only [List.getElem?_set_self (List.getElem?_eq_some_iff.1 hn).1, Option.some.injEq] at hz
    subst hz
    exact (v.nodes m x hn).snoc h
  · simp only [List.getElem?_set_ne (Ne.symm hm)] at hz
    exact v.nodes m z hz

theorem Inv.sides_keep {s s' : State ε} (v : Inv cfg s) (hk : Keeps s s') {k : Nat} {w : Wire} (hw : s.wires[k]? = some w) :
    (∃ x, s'.conn w.out = some x ∧ x.c.side = .outbound) ∧ ∃ y, s'.conn w.inn = some y ∧ y.c.side = .inbound := by
  obtain ⟨⟨x, h1, h2⟩, y, h3, h4⟩ := v.sides k w hw
  obtain ⟨x', h5, h6⟩ := hk _ _ h1
  obtain ⟨y', h7, h8⟩ := hk _ _ h3
  exact ⟨⟨x', h5, h6.trans h2⟩, y', h7, h8.trans h4⟩

/-- A node does anything but read a message. -/
theorem Inv.node {s : State ε} (v : Inv cfg s) {n : Nat} {x x' : Node.State ε} {a : Node.Action ε} (hn : s.nodes[n]? = some x) (h : Node.step (cfg n) x a = some x')
    (ha : ∀ j m, a ≠ .conn j (.readMsg m)) : Inv cfg (s.setNode n x') := by
  have hr := v.nodes n x hn
  have he := Node.step_neff hr h ha
  have hk : Keeps s (s.setNode n x') := keeps_set hn fun j y hy => neff_keeps he hy
  refine ⟨nodes_set v hn h, fun k w hw => v.sides_keep hk hw, fun k w hw => ?_, fun o i ho hi hf => ?_, v.nodup, v.apart⟩
  · have hs := v.sides_keep hk hw
    have hf' : Fits (s.setNode n x') w.out w.inn := by
      obtain ⟨⟨x, h1, h2⟩, y, h3, h4⟩ := hs
      refine ⟨fun x' hx' => ?_, fun y' hy' => ?_⟩
      · rw [h1] at hx'; cases hx'; exact h2
      · rw [h3] at hy'; cases hy'; exact h4
    exact (v.link k w hw).trans (lk_neff hn hr he (v.fits hw) hf' _ _)
  · exact (v.free o i ho hi (hk.fits hf)).trans (lk_neff hn hr he (hk.fits hf) hf _ _)

/-- Reading changes one client only. -/
theorem read_eff {c : Node.Cfg ε} {x x' : Node.State ε} {j : Nat} {m : Message} (h : Node.step c x (.conn j (.readMsg m)) = some x') :
    ∃ y y' : Node.Conn ε, x.conns[j]? = some y ∧ x'.conns = x.conns.set j y' ∧ Cl.step y.c (.readMsg m) = some y'.c ∧ x'.wk = x.wk := by
  have h' : x.connStep j (.readMsg m) = some x' := by
    unfold Node.step at h
    split at h
    · cases h
    · exact h
  unfold Node.State.connStep at h'
  split at h'
  · simp only at h'
    have hw := (Node.stepConn_same h').wk
    obtain ⟨y, c, hy, hc, rfl⟩ := Node.stepConn_some h'
    exact ⟨y, { y with c := c }, hy, rfl, hc, hw⟩
  · cases h'

/-- Other connections are not affected. -/
theorem lk_read {s : State ε} {n j : Nat} {x x' : Node.State ε} {y y' : Node.Conn ε} (hn : s.nodes[n]? = some x) (hy : x.conns[j]? = some y) (hc : x'.conns = x.conns.set j y') (hw : x'.wk = x.wk)
    {o i : End} (ho : o ≠ ⟨n, j⟩) (hi : i ≠ ⟨n, j⟩) (ro ri : Nat) : (s.setNode n x').lk cfg o i ro ri = s.lk cfg o i ro ri := by
  unfold State.lk
  rw [cl_one hn hy hc, cl_one hn hy hc, if_neg ho, if_neg hi, wkOf_set hn]
  by_cases h : i.node = n
  · rw [if_pos h, hw, h, wkOf_at hn]
  · rw [if_neg h]

theorem readWire_some {s : State ε} {e : End} {m : Message} {l l' : List Wire} (h : readWire s e m l = some l') : ∃ (k : Nat) (w w' : Wire), l[k]? = some w ∧ l' = l.set k w' ∧ w'.out = w.out ∧ w'.inn = w.inn ∧
    ((w.out = e ∧ w' = { w with readOut := w.readOut + 1 } ∧ ∃ y, s.conn w.inn = some y ∧ (Link.wire y.c)[w.readOut]? = some m) ∨
     (w.inn = e ∧ w' = { w with readIn := w.readIn + 1 } ∧ ∃ y, s.conn w.out = some y ∧ (Link.wire y.c)[w.readIn]? = some m)) := by
  induction l generalizing l' with
  | nil => cases h
  | cons w ws ih =>
    simp only [readWire] at h
    split at h
    · next he =>
      split at h
      · next y hy =>
        split at h
        · next hm => cases h; exact ⟨0, w, _, rfl, rfl, rfl, rfl, .inl ⟨he, rfl, y, hy, hm⟩⟩
        · cases h
      · cases h
    · split at h
      · next he =>
        split at h
        · next y hy =>
          split at h
          · next hm => cases h; exact ⟨0, w, _, rfl, rfl, rfl, rfl, .inr ⟨he, rfl, y, hy, hm⟩⟩
          · cases h
        · cases h
      · cases h1 : readWire s e m ws with
        | none => rw [h1] at h; cases h
        | some ws' =>
          rw [h1] at h; cases h
          obtain ⟨k, v, v', h2, rfl, h4, h5, h6⟩ := ih h1
          exact ⟨k + 1, v, v', by simpa using h2, by simp, h4, h5, h6⟩

theorem ends_set {l : List Wire} {k : Nat} {w w' : Wire} (h : l[k]? = some w) (h1 : w'.out = w.out) (h2 : w'.inn = w.inn) : ends (l.set k w') = ends l := by
  induction l generalizing k with
  | nil => rfl
  | cons v l ih =>
    cases k with
    | zero => simp only [List.getElem?_cons_zero, Option.some.injEq] at h; subst h; simp [ends, h1, h2]
    | succ k =>
      have := ih (k := k) (by simpa using h)
      simp only [ends, List.set_cons_succ, List.flatMap_cons] at this ⊢
      rw [this]

theorem ends_mem {l : List Wire} {k : Nat} {w : Wire} (h : l[k]? = some w) : w.out ∈ ends l ∧ w.inn ∈ ends l :=
  ⟨List.mem_flatMap.2 ⟨w, List.mem_of_getElem? h, by simp⟩, List.mem_flatMap.2 ⟨w, List.mem_of_getElem? h, by simp⟩⟩

/-- An end belongs to one connection. -/
theorem ends_one {l : List Wire} (hd : (ends l).Nodup) {k k' : Nat} {w w' : Wire} (h : l[k]? = some w) (h' : l[k']? = some w') (hne : k ≠ k') {e : End} (he : e = w.out ∨ e = w.inn) : w'.out ≠ e ∧ w'.inn ≠ e := by
  have key : ∀ {l : List Wire}, (ends l).Nodup → ∀ {k k' : Nat} {w w' : Wire}, l[k]? = some w → l[k']? = some w' → k < k' → ∀ a, (a = w.out ∨ a = w.inn) → ∀ b, (b = w'.out ∨ b = w'.inn) → a ≠ b := by
    intro l
    induction l with
    | nil => intro _ k k' w w' h; simp at h
    | cons v l ih =>
      intro hd k k' w w' h h' hlt a ha b hb
      have hd' : ([v.out, v.inn] ++ ends l).Nodup := hd
      obtain ⟨_, hd2, hd3⟩ := List.nodup_append.1 hd'
      cases k' with
      | zero => omega
      | succ k' =>
        simp only [List.getElem?_cons_succ] at h'
        cases k with
        | zero =>
          simp only [List.getElem?_cons_zero, Option.some.injEq] at h
          subst h
          have hb' : b ∈ ends l := by rcases hb with rfl | rfl; exacts [(ends_mem h').1, (ends_mem h').2]
          exact hd3 a (by rcases ha with rfl | rfl <;> simp) b hb'
        | succ k =>
          simp only [List.getElem?_cons_succ] at h
          exact ih hd2 h h' (by omega) a ha b hb
  rcases Nat.lt_or_gt_of_ne hne with hlt | hlt
  · exact ⟨fun e' => key hd h h' hlt e he _ (.inl rfl) e'.symm, fun e' => key hd h h' hlt e he _ (.inr rfl) e'.symm⟩
  · exact ⟨fun e' => key hd h' h hlt _ (.inl rfl) e he e', fun e' => key hd h' h hlt _ (.inr rfl) e he e'⟩

theorem read_keeps {s : State ε} {n j : Nat} {x x' : Node.State ε} {y y' : Node.Conn ε} {m : Message} (hn : s.nodes[n]? = some x) (hy : x.conns[j]? = some y) (hc : x'.conns = x.conns.set j y')
    (hs : Cl.step y.c (.readMsg m) = some y'.c) : Keeps s (s.setNode n x') := keeps_set hn fun _ _ hz => getElem?_set_conn hc hy (Cl.side_step hs) hz

/-- A node reads a message from outside the network. -/
theorem Inv.readForeign {s : State ε} (v : Inv cfg s) {n j : Nat} {m : Message} {x x' : Node.State ε} (hn : s.nodes[n]? = some x) (h : Node.step (cfg n) x (.conn j (.readMsg m)) = some x')
    (hf : (⟨n, j⟩ : End) ∈ s.foreign) : Inv cfg (s.setNode n x') := by
  obtain ⟨y, y', hy, hc, hs, hw⟩ := read_eff h
  have hk : Keeps s (s.setNode n x') := read_keeps hn hy hc hs
  have hne : (⟨n, j⟩ : End) ∉ ends s.wires := v.apart _ hf
  refine ⟨nodes_set v hn h, fun k w hw => v.sides_keep hk hw, fun k w hwk => ?_, fun o i ho hi hfit => ?_, v.nodup, v.apart⟩
  · rw [lk_read hn hy hc hw (fun e => hne (by rw [← e]; exact (ends_mem hwk).1)) (fun e => hne (by rw [← e]; exact (ends_mem hwk).2))]
    exact v.link k w hwk
  · rw [lk_read hn hy hc hw (fun e => (used_iff.1 ho).1 (by rw [e]; exact hf)) (fun e => (used_iff.1 hi).1 (by rw [e]; exact hf))]
    exact v.free o i ho hi (hk.fits hfit)

/-- A node reads a message from another node. -/
theorem Inv.read {s : State ε} (v : Inv cfg s) {n j : Nat} {m : Message} {x x' : Node.State ε} {ws : List Wire} (hn : s.nodes[n]? = some x) (h : Node.step (cfg n) x (.conn j (.readMsg m)) = some x')
    (hr : readWire s ⟨n, j⟩ m s.wires = some ws) : Inv cfg { s.setNode n x' with wires := ws } := by
  obtain ⟨y, y', hy, hc, hs, hw⟩ := read_eff h
  have hk : Keeps s (s.setNode n x') := read_keeps hn hy hc hs
  obtain ⟨k, w, w', hwk, rfl, ho, hi, hcase⟩ := readWire_some hr
  have he : ends (s.wires.set k w') = ends s.wires := ends_set hwk ho hi
  have hin : (⟨n, j⟩ : End) = w.out ∨ (⟨n, j⟩ : End) = w.inn := by rcases hcase with ⟨h, _⟩ | ⟨h, _⟩; exacts [.inl h.symm, .inr h.symm]
  have hmem : (⟨n, j⟩ : End) ∈ ends s.wires := by rcases hin with h | h <;> rw [h]; exacts [(ends_mem hwk).1, (ends_mem hwk).2]
  have hlk : ∀ o i ro ri, State.lk cfg ({ s.setNode n x' with wires := s.wires.set k w' } : State ε) o i ro ri = (s.setNode n x').lk cfg o i ro ri := fun _ _ _ _ => rfl
  have hold : ∀ (k' : Nat) (u' : Wire), (s.wires.set k w')[k']? = some u' → ∃ u, s.wires[k']? = some u ∧ u'.out = u.out ∧ u'.inn = u.inn := by
    intro k' u' hu'
    by_cases hkk : k' = k
    · subst hkk
      rw [List.getElem?_set_self (List.getElem?_eq_some_iff.1 hwk).1] at hu'
      cases hu'
      exact ⟨w, hwk, ho, hi⟩
    · rw [List.getElem?_set_ne (Ne.symm hkk)] at hu'
      exact ⟨u', hu', rfl, rfl⟩
  refine ⟨nodes_set v hn h, ?_, ?_, ?_, ?_, ?_⟩
  · intro k' u' hu'
    obtain ⟨u, hu, h1, h2⟩ := hold k' u' hu'
    rw [h1, h2]
    exact v.sides_keep hk hu
  · intro k' u' hu'
    rw [hlk]
    by_cases hkk : k' = k
    · subst hkk
      simp only [List.getElem?_set_self (List.getElem?_eq_some_iff.1 hwk).1, Option.some.injEq] at hu'
      subst hu'
      rw [ho, hi]
      refine (v.link k' w hwk).trans ?_
      have hsides := v.sides k' w hwk
      have hoi : w.out ≠ w.inn := by
        intro e
        obtain ⟨⟨z, h1, h2⟩, z', h3, h4⟩ := hsides
        rw [e, h3] at h1; cases h1
        rw [h2] at h4; cases h4
      have hwkn : (s.setNode n x').wkOf cfg w.inn.node = s.wkOf cfg w.inn.node := by
        rw [wkOf_set hn]
        by_cases h : w.inn.node = n
        · rw [if_pos h, hw, h, wkOf_at hn]
        · rw [if_neg h]
      unfold State.lk
      rw [cl_one hn hy hc, cl_one hn hy hc, hwkn]
      rcases hcase with ⟨e, rfl, z, hz, hm⟩ | ⟨e, rfl, z, hz, hm⟩
      · rw [if_pos e, if_neg (fun e' => hoi (e.trans e'.symm)), e, cl_here hn hy]
        refine ⟨[.a (.readMsg m)], ?_⟩
        have hb : s.cl w.inn .inbound = z.c := by unfold State.cl; rw [hz]
        simp [runs, Link.step, Link.stepA, hb, hm, hs]
      · rw [if_pos e, if_neg (fun e' => hoi (e'.trans e.symm))]
        refine ⟨[.b (.readMsg m)], ?_⟩
        have hb : s.cl w.out .outbound = z.c := by unfold State.cl; rw [hz]
        have hi : s.cl w.inn .inbound = y.c := by rw [e, cl_here hn hy]
        simp [runs, Link.step, Link.stepB, hb, hi, hm, hs]
    · have hu := hu'
      simp only [List.getElem?_set_ne (Ne.symm hkk)] at hu
      have := ends_one v.nodup hwk hu (Ne.symm hkk) hin
      rw [lk_read hn hy hc hw this.1 this.2]
      exact v.link k' u' hu
  · intro o i hou hiu hf
    have hou := used_iff.1 hou
    have hiu := used_iff.1 hiu
    simp only [he] at hou hiu
    rw [hlk, lk_read hn hy hc hw (fun e => hou.2 (by rw [e]; exact hmem)) (fun e => hiu.2 (by rw [e]; exact hmem))]
    exact v.free o i (used_iff.2 hou) (used_iff.2 hiu) (hk.fits hf)
  · simp only [he]; exact v.nodup
  · simp only [he]; exact v.apart

theorem Inv.connect {s : State ε} (v : Inv cfg s) {o i : End} {x y : Node.Conn ε} (hx : s.conn o = some x) (hy : s.conn i = some y) (h1 : x.c.side = .outbound) (h2 : y.c.side = .inbound)
    (ho : s.used o = false) (hi : s.used i = false) : Inv cfg { s with wires := s.wires ++ [⟨o, i, 0, 0⟩] } := by
  have he : ends (s.wires ++ [⟨o, i, 0, 0⟩]) = ends s.wires ++ [o, i] := by simp [ends]
  have hoi : o ≠ i := by
    intro e
    rw [e, hy] at hx; cases hx
    rw [h1] at h2; cases h2
  have hfit : Fits s o i := by
    refine ⟨fun x' hx' => ?_, fun y' hy' => ?_⟩
    · rw [hx] at hx'; cases hx'; exact h1
    · rw [hy] at hy'; cases hy'; exact h2
  have hcases : ∀ (k : Nat) (w : Wire), (s.wires ++ [⟨o, i, 0, 0⟩])[k]? = some w → s.wires[k]? = some w ∨ w = ⟨o, i, 0, 0⟩ := by
    intro k w hw
    by_cases hk : k < s.wires.length
    · rw [List.getElem?_append_left hk] at hw; exact .inl hw
    · rw [List.getElem?_append_right (by omega)] at hw
      exact .inr (List.mem_singleton.1 (List.mem_of_getElem? hw))
  have hou := used_iff.1 ho
  have hiu := used_iff.1 hi
  refine ⟨v.nodes, ?_, ?_, ?_, ?_, ?_⟩
  · intro k w hw
    rcases hcases k w hw with hw | rfl
    · exact v.sides k w hw
    · exact ⟨⟨x, hx, h1⟩, y, hy, h2⟩
  · intro k w hw
    rcases hcases k w hw with hw | rfl
    · exact v.link k w hw
    · exact v.free o i ho hi hfit
  · intro o' i' ho' hi' hf
    have ho' := used_iff.1 ho'
    have hi' := used_iff.1 hi'
    simp only [he, List.mem_append, not_or] at ho' hi'
    exact v.free o' i' (used_iff.2 ⟨ho'.1, ho'.2.1⟩) (used_iff.2 ⟨hi'.1, hi'.2.1⟩) hf
  · simp only [he]
    rw [List.nodup_append]
    refine ⟨v.nodup, by simp [hoi], ?_⟩
    intro a ha b hb e
    subst e
    simp only [List.mem_cons, List.not_mem_nil, or_false] at hb
    rcases hb with rfl | rfl
    · exact hou.2 ha
    · exact hiu.2 ha
  · intro e hef
    simp only [he, List.mem_append, not_or]
    refine ⟨v.apart e hef, ?_⟩
    intro hm
    simp only [List.mem_cons, List.not_mem_nil, or_false] at hm
    rcases hm with rfl | rfl
    · exact hou.1 hef
    · exact hiu.1 hef

theorem Inv.step {s s' : State ε} {a : Action ε} (v : Inv cfg s) (h : step cfg s a = some s') : Inv cfg s' := by
  cases a with
  | node n act =>
    simp only [Net.step] at h
    split at h
    · next x hn =>
      split at h
      · next j m =>
        split at h
        · next hf =>
          cases hx : Node.step (cfg n) x (.conn j (.readMsg m)) with
          | none => rw [hx] at h; cases h
          | some x' => rw [hx] at h; cases h; exact v.readForeign hn hx (by simpa using hf)
        · split at h
          · next ws hws =>
            cases hx : Node.step (cfg n) x (.conn j (.readMsg m)) with
            | none => rw [hx] at h; cases h
            | some x' => rw [hx] at h; cases h; exact v.read hn hx hws
          · cases h
      · next hne =>
        cases hx : Node.step (cfg n) x act with
        | none => rw [hx] at h; cases h
        | some x' => rw [hx] at h; cases h; exact v.node hn hx (fun j m e => hne j m e)
    · cases h
  | connect o i =>
    simp only [Net.step] at h
    split at h
    · next x y hx hy =>
      split at h
      · next hc => cases h; exact v.connect hx hy hc.1 hc.2.1 hc.2.2.1 hc.2.2.2
      · cases h
    · cases h
  | connectOut e =>
    simp only [Net.step] at h
    split at h
    · split at h
      · next hu =>
        cases h
        have hu := used_iff.1 hu
        refine ⟨v.nodes, v.sides, v.link, ?_, v.nodup, ?_⟩
        · intro o i ho hi hf
          have ho := used_iff.1 ho
          have hi := used_iff.1 hi
          simp only [List.mem_append, not_or] at ho hi
          exact v.free o i (used_iff.2 ⟨ho.1.1, ho.2⟩) (used_iff.2 ⟨hi.1.1, hi.2⟩) hf
        · intro e' he'
          rcases List.mem_append.1 he' with h | h
          · exact v.apart e' h
          · rw [List.mem_singleton.1 h]; exact hu.2
      · cases h
    · cases h

theorem Inv.reach {n : Nat} {s : State ε} (h : Reachable cfg n s) : Inv cfg s := h.inv (fun _ _ _ => Inv.step) (Inv.init n)

end Noise.Net
