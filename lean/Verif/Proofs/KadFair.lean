import Verif.Proofs.KadServe
import Verif.Proofs.GossipWork
import Verif.Proofs.NetRun
/-! # Fair executions of nodes with kademlia are fair executions of the nodes -/
namespace Noise.KWire
open Noise.Spec
variable {ε : Type}

theorem netOf_step {S : Sorter} {c : Cfg ε} {s s' : State ε} {a : Action ε} (hs : step S c s a = some s') : (netOf c s a = none ∧ s'.net = s.net) ∨ ∃ b, netOf c s a = some b ∧ Net.step c.node s.net b = some s'.net := by
  cases a with
  | net b =>
    simp only [KWire.step] at hs
    split at hs
    · cases hs
    · exact .inr ⟨_, rfl, (go_some hs).1⟩
  | kad | handle | find | it | answer =>
    obtain ⟨x, p, p', hx, hp, hf, rfl⟩ := with_some hs
    exact .inl ⟨rfl, rfl⟩
  | leave n w r =>
    simp only [KWire.step] at hs
    (repeat' split at hs) <;> first | (cases hs; done) | exact .inr ⟨_, rfl, (go_some hs).1⟩
  | reply n w =>
    simp only [KWire.step] at hs
    split at hs
    swap
    · cases hs
    rename_i x p hx hp
    split at hs
    swap
    · cases hs
    rename_i k it hinv
    split at hs
    swap
    · cases hs
    rename_i k' data hfind
    exact .inr ⟨_, by simp only [netOf, hx, hp, hinv, hfind], (go_some hs).1⟩
  | ask n f i j =>
    simp only [KWire.step] at hs
    split at hs
    swap
    · cases hs
    rename_i x p hx hp
    split at hs
    swap
    · cases hs
    rename_i q hq
    split at hs
    swap
    · cases hs
    rename_i id hid
    split at hs
    swap
    · cases hs
    exact .inr ⟨_, by simp only [netOf, hp, hq, hid], (go_some hs).1⟩

theorem start_some (S : Sorter) (o : Kad.Opcodes) (t : Table) (m : Message) : ∃ pc, start S o t m = some pc := by
  unfold start Kad.handle
  cases Kad.decode o m.data with
  | undecodable => exact ⟨_, rfl⟩
  | other => exact ⟨_, rfl⟩
  | ping => by_cases h : m.nonce > 0 <;> simp only [h, if_true, if_false] <;> exact ⟨_, rfl⟩
  | findNode k =>
    obtain ⟨r, h1, -⟩ := Table.findClosest_eq S t k bucketSize
    simp only [h1]
    by_cases h : m.nonce > 0 <;> simp only [h, if_true, if_false] <;> exact ⟨_, rfl⟩

theorem go_able {c : Cfg ε} {s : State ε} {a : Net.Action ε} (hl : ∀ p ∈ s.parts, p.kad.crashed = false) (h : (Net.step c.node s.net a).isSome = true) : (s.go c a).isSome = true := by
  have hd : dead s a = false := by
    unfold dead
    split
    · split
      · rename_i p hp
        exact hl p (List.mem_of_getElem? hp)
      · rfl
    · rfl
  unfold State.go
  rw [hd]
  simpa using h

theorem invocation_of {c : Cfg ε} {x : Node.State ε} {w k : Nat} {q : Wk.State ε} {it : Wk.Item} (h1 : x.wk = some q) (h2 : q.workers[w]? = some (.inside k c.handler)) (h3 : q.items[k]? = some it) : invocation c x w = some (k, it) := by
  simp [invocation, h1, h2, h3]

/-- A handler can send. -/
theorem send_able {cfg : Nat → Node.Cfg ε} {N : Nat} {s : Net.State ε} (hr : Net.Reachable cfg N s) {n : Nat} {x : Node.State ε} (hx : s.nodes[n]? = some x) (hcr : x.crashed = false) {q : Wk.State ε} (hq : x.wk = some q) {w k h : Nat}
    (hw : q.workers[w]? = some (.inside k h)) (d : Bytes) : (Net.step cfg s (.node n (.ctxSend k h d))).isSome = true := by
  have hn : Node.Reachable (cfg n) x := (Net.Inv.reach hr).nodes n x hx
  obtain ⟨it, hit⟩ := GWire.inside_item hn hq hw
  have i := Wk.Inv.reach ((Node.Stage.reach hn).workers q hq)
  have hst : q.hasStarted k h = true := by
    rw [Wk.hasStarted_iff]
    have h1 := (i.pc w _ hw).2.2
    have h2 : (.started k h : Wk.Event ε) ∈ handlingOf k q.log := by rw [h1]; simp
    exact (List.mem_filter.1 h2).1
  obtain ⟨y, hy, -⟩ := Node.ItemInv.reach hn q hq it (List.mem_of_getElem? hit)
  have key : (x.ctxSend k h d).isSome = true := by
    simp only [Node.State.ctxSend, hq, Wk.step, hit, hst, if_true]
    split
    · rfl
    · simp only [Node.State.stepConn, hy, Cl.step]
      rfl
  simp only [Net.step, hx, Node.step, hcr]
  simpa using key

/-- Kademlia's handler is never stuck: unless its process has crashed it can decode the message; it can send its reply if it has one; and it can return what it is to return. -/
theorem handler_goes {S : Sorter} {c : Cfg ε} {N : Nat} {s : State ε} (hr : Reachable S c N s) (hl : ∀ p ∈ s.parts, p.kad.crashed = false) {n w : Nat} {x : Node.State ε} {p : Part} (hx : s.net.nodes[n]? = some x) (hp : s.parts[n]? = some p)
    (hcr : x.crashed = false) {k : Nat} {it : Wk.Item} (hi : invocation c x w = some (k, it)) :
    (p.runs.find? (fun r => r.item = k) = none → (step S c s (.handle n w)).isSome = true) ∧
    (∀ k' d, p.runs.find? (fun r => r.item = k) = some ⟨k', .reply d⟩ → (step S c s (.reply n w)).isSome = true) ∧
    (∀ r e, p.runs.find? (fun r => r.item = k) = some r → returns r.pc e = true → (step S c s (.leave n w e)).isSome = true) := by
  have hpc := hl p (List.mem_of_getElem? hp)
  obtain ⟨q, h1, h2, h3⟩ := invocation_some hi
  refine ⟨fun hf => ?_, fun k' d hf => ?_, fun r e hf he => ?_⟩
  · obtain ⟨pc, hs⟩ := start_some S c.ops p.kad.table it.msg
    have hany : p.runs.any (fun r => r.item = k) = false := by
      rw [List.any_eq_false]
      intro r hm
      have := List.find?_eq_none.1 hf r hm
      simpa using this
    simp only [step, State.with, hx, hp, hcr, hpc, Bool.or_self, Bool.false_eq_true, if_false, hi, hany, hs]
    rfl
  · simp only [step, hx, hp, hi, hf]
    refine go_able (c := c) ?_ (send_able (net_reach hr).1 hx hcr h1 h2 d)
    intro p' hm
    rcases List.mem_or_eq_of_mem_set hm with hm | rfl
    · exact hl _ hm
    · exact hpc
  · simp only [step, hx, hp, hi, hf, he, if_true]
    refine go_able hl ?_
    simp only [Net.step, hx, Node.step, hcr, h1, Wk.step, h2]
    cases e <;> rfl

/-- What becomes of the calls of `Handle` in a step. -/
theorem step_runs {S : Sorter} {c : Cfg ε} {s s' : State ε} {a : Action ε} (hs : step S c s a = some s') {n : Nat} {p : Part} (hp : s.parts[n]? = some p) : ∃ p', s'.parts[n]? = some p' ∧
    ((p'.runs = p.runs ∧ ∀ w, a ≠ .handle n w ∧ a ≠ .reply n w) ∨
    (∃ w x k it pc, a = .handle n w ∧ s.net.nodes[n]? = some x ∧ invocation c x w = some (k, it) ∧ p.runs.find? (fun r => r.item = k) = none ∧ p'.runs = p.runs ++ [⟨k, pc⟩]) ∨
    (∃ w x k it k' d, a = .reply n w ∧ s.net.nodes[n]? = some x ∧ invocation c x w = some (k, it) ∧ p.runs.find? (fun r => r.item = k) = some ⟨k', .reply d⟩ ∧ p'.runs = p.runs.map fun r => if r.item = k then ⟨k, .replied⟩ else r)) := by
  have go : ∀ {s1 : State ε} {b : Net.Action ε} {p1 : Part}, s1.go c b = some s' → s1.parts[n]? = some p1 → ∃ p', s'.parts[n]? = some p' ∧ p'.runs = p1.runs := by
    intro s1 b p1 h1 h2
    rw [(go_some h1).2, List.getElem?_mapIdx, h2]
    refine ⟨_, rfl, ?_⟩
    simp only [called]
    split <;> rfl
  have set : ∀ {m : Nat} {p1 p2 : Part}, s.parts[m]? = some p1 → p2.runs = p1.runs → ∃ p', (s.parts.set m p2)[n]? = some p' ∧ p'.runs = p.runs := by
    intro m p1 p2 h1 h2
    by_cases hm : m = n
    · subst hm
      rw [hp] at h1; cases h1
      exact ⟨p2, List.getElem?_set_self (List.getElem?_eq_some_iff.1 hp).1, h2⟩
    · exact ⟨p, by rw [List.getElem?_set_ne hm]; exact hp, rfl⟩
  cases a with
  | net b =>
    simp only [step] at hs
    split at hs
    · cases hs
    obtain ⟨p', h1, h2⟩ := go hs hp
    exact ⟨p', h1, .inl ⟨h2, by simp⟩⟩
  | leave m w r =>
    simp only [step] at hs
    (repeat' split at hs) <;> first | (cases hs; done) | (obtain ⟨p', h1, h2⟩ := go hs hp; exact ⟨p', h1, .inl ⟨h2, by simp⟩⟩)
  | kad m b =>
    obtain ⟨x, p0, p1, hx, hp0, hf, rfl⟩ := with_some hs
    obtain ⟨k, hk, rfl⟩ := Option.map_eq_some_iff.1 hf
    obtain ⟨p', h1, h2⟩ := set hp0 (p2 := { p0 with kad := k, user := p0.user ++ given b }) rfl
    exact ⟨p', h1, .inl ⟨h2, by simp⟩⟩
  | find m target lookups requests max =>
    obtain ⟨x, p0, p1, hx, hp0, hf, rfl⟩ := with_some hs
    have hr : p1.runs = p0.runs := by
      (repeat' split at hf) <;> first | (cases hf; done) | (cases hf; rfl)
    obtain ⟨p', h1, h2⟩ := set hp0 hr
    exact ⟨p', h1, .inl ⟨h2, by simp⟩⟩
  | it m f b =>
    obtain ⟨x, p0, p1, hx, hp0, hf, rfl⟩ := with_some hs
    have hr : p1.runs = p0.runs := by
      (repeat' split at hf) <;> first | (cases hf; done) | (obtain ⟨pc, h1, rfl⟩ := Option.map_eq_some_iff.1 hf; rfl)
    obtain ⟨p', h1, h2⟩ := set hp0 hr
    exact ⟨p', h1, .inl ⟨h2, by simp⟩⟩
  | answer m f i j who =>
    obtain ⟨x, p0, p1, hx, hp0, hf, rfl⟩ := with_some hs
    have hr : p1.runs = p0.runs := by
      (repeat' split at hf) <;> first | (cases hf; done) | (obtain ⟨pc, h1, rfl⟩ := Option.map_eq_some_iff.1 hf; rfl)
    obtain ⟨p', h1, h2⟩ := set hp0 hr
    exact ⟨p', h1, .inl ⟨h2, by simp⟩⟩
  | handle m w =>
    obtain ⟨x, p0, p1, hx, hp0, hf, rfl⟩ := with_some hs
    split at hf
    swap
    · cases hf
    rename_i k it hinv
    split at hf
    · cases hf
    rename_i hany
    obtain ⟨pc, h1, rfl⟩ := Option.map_eq_some_iff.1 hf
    by_cases hm : m = n
    · subst hm
      rw [hp] at hp0; cases hp0
      refine ⟨_, List.getElem?_set_self (List.getElem?_eq_some_iff.1 hp).1, .inr (.inl ⟨w, x, k, it, pc, rfl, hx, hinv, ?_, rfl⟩)⟩
      rw [List.find?_eq_none]
      intro r hr he
      exact hany (List.any_eq_true.2 ⟨r, hr, he⟩)
    · exact ⟨p, by show (s.parts.set m _)[n]? = _; rw [List.getElem?_set_ne hm]; exact hp, .inl ⟨rfl, by simp [hm]⟩⟩
  | reply m w =>
    simp only [step] at hs
    split at hs
    swap
    · cases hs
    rename_i x p0 hx hp0
    split at hs
    swap
    · cases hs
    rename_i k it hinv
    split at hs
    swap
    · cases hs
    rename_i k' d hf
    by_cases hm : m = n
    · subst hm
      rw [hp] at hp0; cases hp0
      obtain ⟨p', h1, h2⟩ := go hs (List.getElem?_set_self (List.getElem?_eq_some_iff.1 hp).1)
      exact ⟨p', h1, .inr (.inr ⟨w, x, k, it, k', d, rfl, hx, hinv, hf, h2⟩)⟩
    · obtain ⟨p', h1, h2⟩ := go hs (by show (s.parts.set m _)[n]? = _; rw [List.getElem?_set_ne hm]; exact hp)
      exact ⟨p', h1, .inl ⟨h2, by simp [hm]⟩⟩
  | ask m f i j =>
    simp only [step] at hs
    split at hs
    swap
    · cases hs
    rename_i x p0 hx hp0
    split at hs
    swap
    · cases hs
    rename_i q hq
    split at hs
    swap
    · cases hs
    split at hs
    swap
    · cases hs
    rename_i it hit
    obtain ⟨p1, h1, h2⟩ := set hp0 (p2 := { p0 with finds := p0.finds.set f { q with it := it, asks := q.asks ++ [⟨i, j, x.calls.length⟩] } }) rfl
    obtain ⟨p', h3, h4⟩ := go hs h1
    exact ⟨p', h3, .inl ⟨h4.trans h2, by simp⟩⟩

/-- How far the call of `Handle` for item `k` has yet to go before it returns. -/
def left (rs : List Run) (k : Nat) : Nat := match rs.find? (fun r => r.item = k) with
  | none => 2
  | some r => match r.pc with
    | .reply _ => 1
    | _ => 0

theorem left_append (rs : List Run) (k k' : Nat) (pc : HPc) : left (rs ++ [⟨k', pc⟩]) k ≤ left rs k ∧ (k' = k → rs.find? (fun r => r.item = k) = none → left (rs ++ [⟨k', pc⟩]) k < left rs k) := by
  unfold left
  rw [List.find?_append]
  cases h : rs.find? (fun r => r.item = k) with
  | some r => simp
  | none =>
    by_cases hk : k' = k
    · subst hk
      simp only [List.find?_cons, decide_true, Option.none_or]
      cases pc <;> simp
    · simp [hk]

theorem left_replied (rs : List Run) (k k' : Nat) : left (rs.map fun r => if r.item = k' then ⟨k', .replied⟩ else r) k ≤ left rs k ∧
    (∀ j d, k' = k → rs.find? (fun r => r.item = k) = some ⟨j, .reply d⟩ → left (rs.map fun r => if r.item = k' then ⟨k', .replied⟩ else r) k < left rs k) := by
  have key : (rs.map fun r => if r.item = k' then (⟨k', .replied⟩ : Run) else r).find? (fun r => r.item = k) = (rs.find? fun r => r.item = k).map fun r => if r.item = k' then ⟨k', .replied⟩ else r := by
    rw [List.find?_map]
    congr 2
    funext r
    by_cases h : r.item = k'
    · simp only [Function.comp, h, if_true]
    · simp only [Function.comp, h, if_false]
  unfold left
  rw [key]
  cases h : rs.find? (fun r => r.item = k) with
  | none => simp
  | some r =>
    have hk : r.item = k := by simpa using List.find?_some h
    by_cases hkk : k' = k
    · subst hkk
      simp only [Option.map_some, hk, if_true]
      refine ⟨by omega, ?_⟩
      rintro j d - e
      cases e
      simp
    · have : ¬ r.item = k' := by rw [hk]; exact fun e => hkk e.symm
      simp only [Option.map_some, this, if_false]
      exact ⟨Nat.le_refl _, fun j d e => absurd e hkk⟩

/-- Worker `w` of node `n` is in the handler of kademlia, for item `k`. -/
def In (c : Cfg ε) (s : State ε) (n w k : Nat) : Prop := ∃ x q, s.net.nodes[n]? = some x ∧ x.wk = some q ∧ q.workers[w]? = some (.inside k c.handler)

theorem In.step {S : Sorter} {c : Cfg ε} {N : Nat} {s s' : State ε} {a : Action ε} (hr : Reachable S c N s) (hs : step S c s a = some s') {n w k : Nat} (h : In c s n w k) (hno : ∀ r, netOf c s a ≠ some (.node n (.handlerReturn w r))) : In c s' n w k := by
  obtain ⟨x, q, hx, hq, hw⟩ := h
  rcases netOf_step hs with ⟨-, e⟩ | ⟨b, hb, e⟩
  · exact ⟨x, q, by rw [e]; exact hx, hq, hw⟩
  · obtain ⟨x', hx', ⟨rfl, -⟩ | ⟨act, rfl, hst⟩⟩ := Net.node_step e hx
    · exact ⟨x', q, hx', hq, hw⟩
    · have hn : Node.Reachable (c.node n) x := (Net.Inv.reach (net_reach hr).1).nodes n x hx
      rcases Node.step_wkBy hst with h1 | ⟨h1, -⟩ | ⟨q0, q1, act', h1, h2, h3, h4⟩
      · exact ⟨x', q, hx', h1.trans hq, hw⟩
      · rw [(Node.Stage.reach hn).init.1 h1] at hq; cases hq
      · rw [hq] at h1; cases h1
        rcases Wk.inside_stays h3 hw with h5 | ⟨r, rfl⟩
        · exact ⟨x', q1, hx', h2, h5⟩
        · have h4 : act = .handlerReturn w r := h4
          rw [h4] at hb
          exact absurd hb (hno r)

theorem exec_reach {S : Sorter} {c : Cfg ε} {N : Nat} {σ : Nat → State ε} {α : Nat → Option (Action ε)} (hx : Execution (step S c) σ α) (h0 : Start c N (σ 0)) (t : Nat) : Reachable S c N (σ t) := ⟨σ 0, h0, Fair.reach hx t⟩

theorem reach_len {S : Sorter} {c : Cfg ε} {N : Nat} {s : State ε} (h : Reachable S c N s) : s.net.nodes.length = N :=
  (net_reach h).1.inv (P := fun s : Net.State ε => s.nodes.length = N) (fun _ _ _ hi hs => (Net.step_len hs).trans hi) (by simp [Net.State.new])

theorem exec_net {S : Sorter} {c : Cfg ε} {σ : Nat → State ε} {α : Nat → Option (Action ε)} (hx : Execution (step S c) σ α) : Execution (Net.step c.node) (fun t => (σ t).net) (netActs c σ α) := by
  intro t
  rcases hx t with ⟨e1, e2⟩ | ⟨a, e1, e2⟩
  · exact .inl ⟨by simp only [netActs, e1, Option.bind_none], by simp only [e2]⟩
  · rcases netOf_step e2 with ⟨e3, e4⟩ | ⟨b, e3, e4⟩
    · exact .inl ⟨by simp only [netActs, e1, Option.bind_some]; exact e3, e4⟩
    · exact .inr ⟨b, by simp only [netActs, e1, Option.bind_some]; exact e3, e4⟩

/-- In a fair execution of nodes with kademlia, the goroutines of the nodes run, and also the handler of kademlia returns. -/
theorem FairRun.toNet [Nonempty ε] {S : Sorter} {c : Cfg ε} {N : Nat} {σ : Nat → State ε} {α : Nat → Option (Action ε)} (r : FairRun S c N σ α) : Net.FairRun c.node N (fun t => (σ t).net) (netActs c σ α) := by
  have takes : ∀ t b, α t = some (.net b) → netActs c σ α t = some b := fun t b h => by simp only [netActs, h, Option.bind_some]; rfl
  have able : ∀ t b, (Net.step c.node (σ t).net b).isSome = true → bars c (σ t).net b = false → (step S c (σ t) (.net b)).isSome = true := by
    intro t b h1 h2
    simp only [step, h2, Bool.false_eq_true, if_false]
    exact go_able (r.alive t) h1
  have plain : ∀ p : Net.Proc, (∀ b, p.acts (ε := ε) b → ∀ s, bars c s b = false) → (∀ a : Action ε, acts p a → ∃ b, a = .net b ∧ p.acts b) →
      WeaklyFair (fun t => (σ t).net) (netActs c σ α) (fun s => Able (Net.step c.node) (fun a => p.acts a ∧ Net.sure s a) s) p.acts := by
    intro p hbar hact t
    obtain ⟨u, h1, h2⟩ := r.runs p t
    refine ⟨u, h1, h2.imp ?_ ?_⟩
    · rintro ⟨a, h3, h4⟩
      obtain ⟨b, rfl, h5⟩ := hact a h4
      exact ⟨b, takes u b h3, h5⟩
    · rintro h3 ⟨b, ⟨h4, h5⟩, h6⟩
      exact h3 ⟨.net b, ⟨h4, fun b' e => by cases e; exact h5⟩, able u b h6 (hbar b h4 _)⟩
  refine ⟨exec_net r.exec, ?_, ?_, ?_, ?_⟩
  · obtain ⟨ts, -, -, e⟩ := r.init
    show (σ 0).net = _
    rw [e]
  · intro p
    cases p with
    | main e => exact plain _ (by rintro b ⟨act, rfl, h⟩ s; rfl) (by
        intro a h
        cases a with
        | net b => exact ⟨b, rfl, h⟩
        | _ => cases h)
    | writer e => exact plain _ (by rintro b rfl s; rfl) (by
        intro a h
        cases a with
        | net b => exact ⟨b, rfl, h⟩
        | _ => cases h)
    | call n k => exact plain _ (by rintro b (rfl | ⟨b, rfl⟩ | rfl | rfl) s <;> rfl) (by
        intro a h
        cases a with
        | net b => exact ⟨b, rfl, h⟩
        | _ => cases h)
    | worker n w =>
      intro t
      by_contra hcon
      have hno : ∀ u, t ≤ u → ¬ Takes (netActs c σ α) (Net.Proc.acts (.worker n w)) u ∧ Able (Net.step c.node) (fun a => (Net.Proc.worker n w).acts a ∧ Net.sure (σ u).net a) (σ u).net := by
        intro u hu
        constructor
        · exact fun h => hcon ⟨u, hu, .inl h⟩
        · by_contra h
          exact hcon ⟨u, hu, .inr h⟩
      -- what the goroutine does are steps within the handler
      have inner : ∀ u a, t ≤ u → α u = some a → acts (.worker n w) a → a = .handle n w ∨ a = .reply n w := by
        intro u a hu ha hact
        cases a with
        | net b => exact absurd ⟨b, takes u b ha, hact⟩ (hno u hu).1
        | handle m v => obtain ⟨rfl, rfl⟩ := hact; exact .inl rfl
        | reply m v => obtain ⟨rfl, rfl⟩ := hact; exact .inr rfl
        | leave m v e =>
          obtain ⟨rfl, rfl⟩ := hact
          exact absurd ⟨.node m (.handlerReturn v e), by simp only [netActs, ha, Option.bind_some]; rfl, .inr ⟨e, rfl⟩⟩ (hno u hu).1
        | _ => cases hact
      -- the node has not crashed
      have node : ∀ u, t ≤ u → ∃ x, (σ u).net.nodes[n]? = some x ∧ x.crashed = false := by
        intro u hu
        obtain ⟨b, ⟨h1, -⟩, h2⟩ := (hno u hu).2
        have : ∃ act, b = .node n act := by rcases h1 with rfl | ⟨e, rfl⟩ <;> exact ⟨_, rfl⟩
        obtain ⟨act, rfl⟩ := this
        have : ∃ x, (σ u).net.nodes[n]? = some x := by
          cases h : (σ u).net.nodes[n]? with
          | some x => exact ⟨x, rfl⟩
          | none => simp [Net.step, h] at h2
        obtain ⟨x, hx⟩ := this
        refine ⟨x, hx, ?_⟩
        cases hc : x.crashed with
        | false => rfl
        | true =>
          exfalso
          rcases h1 with e | ⟨e, e'⟩
          · cases e; simp [Net.step, hx, Node.step, hc] at h2
          · cases e'; simp [Net.step, hx, Node.step, hc] at h2
      by_cases hin : ∃ u k, t ≤ u ∧ In c (σ u) n w k
      · obtain ⟨u0, k, hu0, h0⟩ := hin
        have main : ∀ u, (u0 ≤ u ∧ In c (σ u) n w k) → ∃ u', u ≤ u' ∧ False := by
          refine Fair.well1 (T := Takes α (acts (.worker n w))) (able := fun u => Able (step S c) (fun a => acts (.worker n w) a ∧ sure (σ u) a) (σ u)) (r.runs (.worker n w))
            (fun u => ((σ u).parts[n]?).elim 0 fun p => left p.runs k) ?_
          rintro u ⟨hu, h⟩
          right
          have hr := exec_reach r.exec r.init u
          obtain ⟨x, hx, hcr⟩ := node u (by omega)
          obtain ⟨p, hp⟩ : ∃ p, (σ u).parts[n]? = some p := ⟨_, List.getElem?_eq_getElem (by
            rw [(net_reach hr).2, ← reach_len hr]; exact (List.getElem?_eq_some_iff.1 hx).1)⟩
          obtain ⟨x', q, hx', hq, hw⟩ := h
          rw [hx] at hx'; cases hx'
          obtain ⟨it, hit⟩ := GWire.inside_item ((Net.Inv.reach (net_reach hr).1).nodes n x hx) hq hw
          have hinv := invocation_of hq hw hit
          obtain ⟨g1, g2, g3⟩ := handler_goes hr (r.alive u) hx hp hcr hinv
          refine ⟨?_, ?_⟩
          · cases hf : p.runs.find? (fun r => r.item = k) with
            | none => exact ⟨.handle n w, ⟨⟨rfl, rfl⟩, fun b e => by cases e⟩, g1 hf⟩
            | some run =>
              obtain ⟨j, pc⟩ := run
              obtain ⟨e⟩ := ‹Nonempty ε›
              cases pc with
              | reply d => exact ⟨.reply n w, ⟨⟨rfl, rfl⟩, fun b e => by cases e⟩, g2 j d hf⟩
              | ignored => exact ⟨.leave n w none, ⟨⟨rfl, rfl⟩, fun b e => by cases e⟩, g3 _ none hf rfl⟩
              | failed => exact ⟨.leave n w (some e), ⟨⟨rfl, rfl⟩, fun b e => by cases e⟩, g3 _ (some e) hf rfl⟩
              | replied => exact ⟨.leave n w none, ⟨⟨rfl, rfl⟩, fun b e => by cases e⟩, g3 _ none hf rfl⟩
          · right
            rcases r.exec u with ⟨e1, e2⟩ | ⟨a, e1, e2⟩
            · refine ⟨⟨by omega, by rw [e2]; exact ⟨x, q, hx, hq, hw⟩⟩, .inr ⟨by rw [e2], ?_⟩⟩
              rintro ⟨a, e3, -⟩
              rw [e1] at e3; cases e3
            · refine ⟨⟨by omega, In.step hr e2 ⟨x, q, hx, hq, hw⟩ fun e he => (hno u (by omega)).1 ⟨_, by simp only [netActs, e1, Option.bind_some]; exact he, .inr ⟨e, rfl⟩⟩⟩, ?_⟩
              obtain ⟨p', hp', h⟩ := step_runs e2 hp
              simp only [hp, hp', Option.elim_some]
              rcases h with ⟨h, hne⟩ | ⟨w', x', k', it', pc, rfl, hx', hi', hf, h⟩ | ⟨w', x', k', it', j, d, rfl, hx', hi', hf, h⟩
              · refine .inr ⟨by rw [h], ?_⟩
                rintro ⟨a', e3, e4⟩
                rw [e1] at e3; cases e3
                rcases inner u _ (by omega) e1 e4 with rfl | rfl
                · exact (hne w).1 rfl
                · exact (hne w).2 rfl
              · rw [hx] at hx'; cases hx'
                rw [h]
                obtain ⟨l1, l2⟩ := left_append p.runs k k' pc
                rcases Nat.lt_or_eq_of_le l1 with l1 | l1
                · exact .inl l1
                · refine .inr ⟨l1, ?_⟩
                  rintro ⟨a', e3, e4⟩
                  rw [e1] at e3; cases e3
                  obtain ⟨-, rfl⟩ := e4
                  rw [hinv] at hi'
                  cases hi'
                  have := l2 rfl hf
                  omega
              · rw [hx] at hx'; cases hx'
                rw [h]
                obtain ⟨l1, l2⟩ := left_replied p.runs k k'
                rcases Nat.lt_or_eq_of_le l1 with l1 | l1
                · exact .inl l1
                · refine .inr ⟨l1, ?_⟩
                  rintro ⟨a', e3, e4⟩
                  rw [e1] at e3; cases e3
                  obtain ⟨-, rfl⟩ := e4
                  rw [hinv] at hi'
                  cases hi'
                  have := l2 j d rfl hf
                  omega
        obtain ⟨-, -, h⟩ := main u0 ⟨Nat.le_refl _, h0⟩
        exact h
      · obtain ⟨u, hu, h | h⟩ := r.runs (.worker n w) t
        · obtain ⟨a, h1, h2⟩ := h
          have hs : (step S c (σ u) a).isSome = true := by
            rcases r.exec u with ⟨e1, -⟩ | ⟨a', e1, e2⟩
            · rw [e1] at h1; cases h1
            · rw [e1] at h1; cases h1
              rw [e2]; rfl
          have out : ∀ x, (σ u).net.nodes[n]? = some x → invocation c x w = none := by
            intro x hx
            cases hi : invocation c x w with
            | none => rfl
            | some ki =>
              obtain ⟨q, h3, h4, -⟩ := invocation_some hi
              exact absurd ⟨u, ki.1, hu, x, q, hx, h3, h4⟩ hin
          obtain ⟨x, hx, hcr⟩ := node u hu
          rcases inner u a hu h1 h2 with rfl | rfl
          · simp only [step, State.with, hx] at hs
            cases hp : (σ u).parts[n]? with
            | none => simp [hp] at hs
            | some p => simp only [hp, out x hx] at hs; split at hs <;> simp at hs
          · simp only [step, hx] at hs
            cases hp : (σ u).parts[n]? with
            | none => simp [hp] at hs
            | some p => simp [hp, out x hx] at hs
        · obtain ⟨b, ⟨h1, h2⟩, h3⟩ := (hno u hu).2
          refine h ⟨.net b, ⟨h1, fun b' e => by cases e; exact h2⟩, able u b h3 ?_⟩
          rcases h1 with rfl | ⟨e, rfl⟩
          · rfl
          · obtain ⟨x, hx, hcr⟩ := node u hu
            simp only [bars, hx]
            cases hi : invocation c x w with
            | none => rfl
            | some ki =>
              obtain ⟨q, h3, h4, -⟩ := invocation_some hi
              exact absurd ⟨u, ki.1, hu, x, q, hx, h3, h4⟩ hin
  · intro e t
    obtain ⟨u, h1, h2⟩ := r.net e t
    refine ⟨u, h1, h2.imp ?_ id⟩
    rintro ⟨a, h3, rfl⟩
    exact ⟨_, takes u _ h3, rfl⟩
  · intro e hinf t
    obtain ⟨u, h1, a, h2, rfl⟩ := r.queue e (fun t => by
      obtain ⟨u, h1, b, rfl, h2⟩ := hinf t
      exact ⟨u, h1, _, rfl, able u _ h2 rfl⟩) t
    exact ⟨u, h1, _, takes u _ h2, rfl⟩

end Noise.KWire
