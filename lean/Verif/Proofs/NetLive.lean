import Verif.Spec.NetLive
import Verif.Proofs.NetInv
import Verif.Proofs.NodeOne
import Verif.Proofs.NodeProgress
import Verif.Proofs.LiveCall
/-! # Fair executions of a network: what the nodes do -/
namespace Noise.Node
variable {ε : Type}

/-- A new client is new. -/
theorem new_exact {cfg : Cfg ε} {s s' : State ε} {a : Action ε} (h : step cfg s a = some s') (i : Nat) (y : Conn ε) (hy : s'.conns[i]? = some y) (hl : s.conns.length ≤ i) : ∃ d, y.c = Cl.State.new d := by
  have hno : ∀ (s' : State ε), s'.conns.length = s.conns.length → s'.conns[i]? = some y → ∃ d, y.c = Cl.State.new d := fun s' h1 h2 => by
    have := (List.getElem?_eq_some_iff.1 h2).1; omega
  have hpush : ∀ (d : Cl.Side) (a : Text), s'.conns = s.conns ++ [⟨a, Cl.State.new d, false⟩] → ∃ d, y.c = Cl.State.new d := by
    intro d a hc
    rw [hc, List.getElem?_append_right hl] at hy
    have : i - s.conns.length = 0 := by
      have := (List.getElem?_eq_some_iff.1 hy).1
      simp at this; omega
    rw [this] at hy
    simp at hy
    subst hy
    exact ⟨d, rfl⟩
  rcases step_eff h with h | rfl
  swap
  · exact hno _ rfl hy
  cases h with
  | quiet hp hm he hr => exact hno _ hm.len hy
  | found d e hl hf hp hc he hr => exact hno _ (by rw [hc]) hy
  | added d a hl hf hn hp hc he hd hr hw hacc => exact hpush d a hc
  | evict t e hl hn hg hp hm he0 he heo hd hr hw => exact hno _ hm.len hy
  | evicted t v a he0 hd hp hc he heo hs hr => exact hpush _ a hc
  | removed j x hx hrm hl hp hlen hc he hr => exact hno _ hlen hy
  | released l hl hperm ha hb hp hm he => exact hno _ hm.len hy

/-- What the goroutines of a client, and the network, can do to it, the node lets them do. -/
theorem conn_able {cfg : Cfg ε} {s : State ε} {j : Nat} {x : Conn ε} {act : Cl.Action ε} (hcr : s.crashed = false) (hx : s.conns[j]? = some x) (hm : x.c.main ≠ .remove)
    (ha : act.ofMain = true ∨ act = .arrive ∨ act = .writer) (hs : (Cl.step x.c act).isSome = true) : (step cfg s (.conn j act)).isSome = true := by
  obtain ⟨c, hc⟩ := Option.isSome_iff_exists.1 hs
  have hst : (s.stepConn j act).isSome = true := by simp [State.stepConn, hx, hc]
  unfold Node.step
  rw [hcr]
  simp only [Bool.false_eq_true, if_false, State.connStep, hx]
  cases act <;> (try (simp [Cl.Action.ofMain] at ha; done)) <;> simp only <;> try exact hst
  split
  · next h => exact absurd h hm
  · simp [State.route, hc]
  · exact hst

/-- There is room in the queue. -/
theorem deliver_able {cfg : Cfg ε} {s : State ε} {j : Nat} {x : Conn ε} {m : Message} {q : Wk.State ε} (hcr : s.crashed = false) (hx : s.conns[j]? = some x) (hm : x.c.main = .delivering m) (hn : x.nilChan = false)
    (hq : s.wk = some q) (hc : q.queueClosed = false) (hr : q.items.length - q.head < q.numWorkers) : (step cfg s (.conn j .deliver)).isSome = true := by
  unfold Node.step
  rw [hcr]
  simp [State.connStep, hx, State.deliver, hm, hn, hq, hc, Wk.step, hr, State.stepConn, Cl.step]

/-- A step of a worker that has not been lost. -/
theorem work_wk {cfg : Cfg ε} {s s' : State ε} {w : Nat} (h : step cfg s (.work w) = some s') (hf : ∀ q p, s.wk = some q → q.workers[w]? = some p → p.fine = true) :
    ∃ q q', s.wk = some q ∧ s'.wk = some q' ∧ Wk.step q (.work w) = some q' := by
  unfold Node.step at h
  split at h
  · cases h
  simp only [State.workStep] at h
  split at h
  · next q hq =>
    cases hn : Wk.step q (.work w) with
    | none => rw [hn] at h; split at h <;> simp_all
    | some q' =>
      rw [hn] at h
      split at h
      · next hp => have := hf q _ hq hp; cases this
      · next hp => have := hf q _ hq hp; cases this
      · cases h; exact ⟨q, q', hq, rfl, hn⟩
  · cases h

theorem return_wk {cfg : Cfg ε} {s s' : State ε} {w : Nat} {r : Option ε} (h : step cfg s (.handlerReturn w r) = some s') :
    ∃ q q', s.wk = some q ∧ s'.wk = some q' ∧ Wk.step q (.handlerReturn w r) = some q' := by
  unfold Node.step at h
  split at h
  · cases h
  simp only at h
  split at h
  · next q hq =>
    cases hn : Wk.step q (.handlerReturn w r) with
    | none => rw [hn] at h; cases h
    | some q' => rw [hn] at h; cases h; exact ⟨q, q', hq, rfl, hn⟩
  · cases h

theorem work_able {cfg : Cfg ε} {s : State ε} {w : Nat} {q : Wk.State ε} (hcr : s.crashed = false) (hq : s.wk = some q) (hf : ∀ p, q.workers[w]? = some p → p.fine = true) (h : (Wk.step q (.work w)).isSome = true) :
    (step cfg s (.work w)).isSome = true := by
  unfold Node.step
  rw [hcr]
  simp only [Bool.false_eq_true, if_false, State.workStep, hq]
  split
  · next hp => have := hf _ hp; cases this
  · next hp => have := hf _ hp; cases this
  · simpa using h

theorem return_able {cfg : Cfg ε} {s : State ε} {w : Nat} {r : Option ε} {q : Wk.State ε} (hcr : s.crashed = false) (hq : s.wk = some q) (h : (Wk.step q (.handlerReturn w r)).isSome = true) :
    (step cfg s (.handlerReturn w r)).isSome = true := by
  unfold Node.step
  rw [hcr]
  simpa [hq] using h

/-- Workers stay. -/
theorem wk_stays {cfg : Cfg ε} {s s' : State ε} {a : Action ε} (h : step cfg s a = some s') (hw : s.wk ≠ none) : s'.wk ≠ none := by
  rcases step_wkBy h with h1 | ⟨-, h1⟩ | ⟨w, w1, act, h1, h2, h3, h4⟩
  · rw [h1]; exact hw
  · rw [h1]; simp
  · rw [h2]; simp

end Noise.Node

namespace Noise.Net
open Spec
variable {ε : Type} {cfg : Nat → Node.Cfg ε}

/-! ### One step -/

/-- A step of the network leaves a node alone or is a step of the node. -/
theorem node_step {s s' : State ε} {a : Action ε} (h : step cfg s a = some s') {n : Nat} {X : Node.State ε} (hX : s.nodes[n]? = some X) :
    ∃ X', s'.nodes[n]? = some X' ∧ ((X' = X ∧ ∀ act, a ≠ .node n act) ∨ ∃ act, a = .node n act ∧ Node.step (cfg n) X act = some X') := by
  cases a with
  | node m act =>
    have key : ∃ Y Y', s.nodes[m]? = some Y ∧ Node.step (cfg m) Y act = some Y' ∧ s'.nodes = s.nodes.set m Y' := by
      simp only [step] at h
      split at h
      · next Y hY =>
        split at h
        · next j msg =>
          split at h
          · cases hx : Node.step (cfg m) Y (.conn j (.readMsg msg)) with
            | none => rw [hx] at h; cases h
            | some Y' => rw [hx] at h; cases h; exact ⟨Y, Y', hY, hx, rfl⟩
          · split at h
            · cases hx : Node.step (cfg m) Y (.conn j (.readMsg msg)) with
              | none => rw [hx] at h; cases h
              | some Y' => rw [hx] at h; cases h; exact ⟨Y, Y', hY, hx, rfl⟩
            · cases h
        · cases hx : Node.step (cfg m) Y act with
          | none => rw [hx] at h; cases h
          | some Y' => rw [hx] at h; cases h; exact ⟨Y, Y', hY, hx, rfl⟩
      · cases h
    obtain ⟨Y, Y', h1, h2, h3⟩ := key
    by_cases hm : m = n
    · subst hm
      rw [hX] at h1; cases h1
      exact ⟨Y', by rw [h3, List.getElem?_set_self (List.getElem?_eq_some_iff.1 hX).1], .inr ⟨act, rfl, h2⟩⟩
    · refine ⟨X, by rw [h3, List.getElem?_set_ne hm]; exact hX, .inl ⟨rfl, ?_⟩⟩
      rintro act' e; injection e with e; exact hm e
  | connect o i =>
    have : s'.nodes = s.nodes := by
      simp only [step] at h
      repeat' split at h
      all_goals first | (cases h; done) | (cases h; rfl)
    exact ⟨X, by rw [this]; exact hX, .inl ⟨rfl, by simp⟩⟩
  | connectOut e =>
    have : s'.nodes = s.nodes := by
      simp only [step] at h
      repeat' split at h
      all_goals first | (cases h; done) | (cases h; rfl)
    exact ⟨X, by rw [this]; exact hX, .inl ⟨rfl, by simp⟩⟩

/-- Connections stay. -/
theorem wire_step {s s' : State ε} {a : Action ε} (h : step cfg s a = some s') : (∀ o i, Linked s o i → Linked s' o i) ∧ ∀ e ∈ s.foreign, e ∈ s'.foreign := by
  have same : s'.wires = s.wires → s'.foreign = s.foreign → (∀ o i, Linked s o i → Linked s' o i) ∧ ∀ e ∈ s.foreign, e ∈ s'.foreign := by
    intro h1 h2
    unfold Linked
    rw [h1, h2]
    exact ⟨fun _ _ => id, fun _ => id⟩
  cases a with
  | node m act =>
    simp only [step] at h
    split at h
    · next Y hY =>
      split at h
      · next j msg =>
        split at h
        · cases hx : Node.step (cfg m) Y (.conn j (.readMsg msg)) with
          | none => rw [hx] at h; cases h
          | some Y' => rw [hx] at h; cases h; exact same rfl rfl
        · split at h
          · next ws hws =>
            cases hx : Node.step (cfg m) Y (.conn j (.readMsg msg)) with
            | none => rw [hx] at h; cases h
            | some Y' =>
              rw [hx] at h; cases h
              refine ⟨?_, fun _ => id⟩
              rintro o i ⟨w, hw, h1, h2⟩
              obtain ⟨k, v, v', g1, rfl, g2, g3, -⟩ := readWire_some hws
              obtain ⟨k', hk'⟩ := List.getElem?_of_mem hw
              by_cases hkk : k' = k
              · subst hkk
                rw [g1] at hk'; cases hk'
                exact ⟨v', List.mem_of_getElem? (List.getElem?_set_self (List.getElem?_eq_some_iff.1 g1).1), g2.trans h1, g3.trans h2⟩
              · exact ⟨w, List.mem_of_getElem? ((List.getElem?_set_ne (Ne.symm hkk)).trans hk'), h1, h2⟩
          · cases h
      · cases hx : Node.step (cfg m) Y act with
        | none => rw [hx] at h; cases h
        | some Y' => rw [hx] at h; cases h; exact same rfl rfl
    · cases h
  | connect o i =>
    simp only [step] at h
    repeat' split at h
    all_goals try (cases h; done)
    cases h
    refine ⟨?_, fun _ => id⟩
    rintro o' i' ⟨w, hw, h1⟩
    exact ⟨w, List.mem_append_left _ hw, h1⟩
  | connectOut e =>
    simp only [step] at h
    repeat' split at h
    all_goals try (cases h; done)
    cases h
    exact ⟨fun _ _ => id, fun _ => List.mem_append_left _⟩

/-- What the other end has put on the connection can be read. -/
theorem readable {s : State ε} {l : List Wire} {w : Wire} {e : End} {m : Message} {y : Node.Conn ε} (hd : (ends l).Nodup) (hw : w ∈ l)
    (h : (w.out = e ∧ s.conn w.inn = some y ∧ (Link.wire y.c)[w.readOut]? = some m) ∨ (w.inn = e ∧ s.conn w.out = some y ∧ (Link.wire y.c)[w.readIn]? = some m)) : ∃ ws, readWire s e m l = some ws := by
  induction l with
  | nil => cases hw
  | cons v l ih =>
    have hd' : ([v.out, v.inn] ++ ends l).Nodup := hd
    obtain ⟨hd1, hd2, hd3⟩ := List.nodup_append.1 hd'
    rcases List.mem_cons.1 hw with rfl | hw
    · have hne : w.out ≠ w.inn := by simpa using hd1
      rcases h with ⟨h1, h2, h3⟩ | ⟨h1, h2, h3⟩
      · simp [readWire, h1, h2, h3]
      · have : w.out ≠ e := by rw [← h1]; exact hne
        simp [readWire, this, h1, h2, h3]
    · have hin : e ∈ ends l := by
        obtain ⟨k, hk⟩ := List.getElem?_of_mem hw
        rcases h with ⟨h1, -⟩ | ⟨h1, -⟩ <;> rw [← h1]
        exacts [(ends_mem hk).1, (ends_mem hk).2]
      have h1 : v.out ≠ e := hd3 _ (by simp) _ hin
      have h2 : v.inn ≠ e := hd3 _ (by simp) _ hin
      obtain ⟨ws, hws⟩ := ih hd2 hw
      exact ⟨v :: ws, by simp [readWire, h1, h2, hws]⟩

end Noise.Net
