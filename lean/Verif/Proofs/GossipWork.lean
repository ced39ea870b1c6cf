import Verif.Proofs.GossipWire
import Verif.Proofs.GossipHeard
import Verif.Proofs.NodeProgress
import Mathlib.Data.Finset.Card
import Mathlib.Data.Finset.Range
import Mathlib.Data.Finset.Image
/-! # Gossip on a network of whole nodes: the calls of `Handle` and the workers -/
namespace Noise.Wk
variable {ε : Type}

theorem inside_stays {q q' : State ε} {a : Action ε} (h : step q a = some q') {w k hd : Nat} (hw : q.workers[w]? = some (.inside k hd)) : q'.workers[w]? = some (.inside k hd) ∨ ∃ r, a = .handlerReturn w r := by
  have set : ∀ (v : Nat) (p p' : Pc ε), q.workers[v]? = some p → (∀ k h, p ≠ .inside k h) → (q.workers.set v p')[w]? = some (.inside k hd) := by
    intro v p p' hv hne
    rw [List.getElem?_set_ne]
    · exact hw
    · rintro rfl
      rw [hw] at hv; cases hv
      exact hne _ _ rfl
  cases a with
  | enqueue it =>
    simp only [step] at h
    split at h
    · cases h
    · split at h <;> cases h
      exact .inl hw
  | closeQueue =>
    simp only [step] at h
    split at h <;> cases h
    exact .inl hw
  | work v =>
    left
    simp only [step] at h
    split at h
    · rename_i hv
      split at h
      · cases h; exact set v _ _ hv (by simp)
      · split at h <;> cases h
        exact set v _ _ hv (by simp)
    · rename_i hv
      split at h <;> cases h <;> exact set v _ _ hv (by simp)
    · rename_i hv
      split at h <;> cases h
      exact set v _ _ hv (by simp)
    · rename_i hv
      split at h <;> cases h
      exact set v _ _ hv (by simp)
    · cases h
  | handlerReturn v r =>
    by_cases hv : v = w
    · subst hv; exact .inr ⟨r, rfl⟩
    · left
      simp only [step] at h
      split at h
      · split at h <;> cases h <;> simp only [State.setWorker] <;> rw [List.getElem?_set_ne hv] <;> exact hw
      · cases h
  | send k' h' d =>
    simp only [step] at h
    split at h
    · split at h <;> cases h
      left
      unfold State.ctxSend
      split
      · split <;> exact hw
      · exact hw
    · cases h

theorem finished_new {q q' : State ε} {a : Action ε} (h : step q a = some q') {k hd : Nat} {r : Option ε} (hf : .finished k hd r ∈ q'.log) : .finished k hd r ∈ q.log ∨ ∃ w, a = .handlerReturn w r ∧ q.workers[w]? = some (.inside k hd) := by
  cases a with
  | enqueue it =>
    simp only [step] at h
    split at h
    · cases h
    · split at h <;> cases h
      exact .inl hf
  | closeQueue =>
    simp only [step] at h
    split at h <;> cases h
    exact .inl hf
  | work v =>
    left
    simp only [step] at h
    split at h
    · split at h
      · cases h; simpa [State.setWorker] using hf
      · split at h <;> cases h
        simpa [State.setWorker] using hf
    · split at h <;> cases h <;> simpa [State.setWorker] using hf
    · split at h <;> cases h
      simpa [State.setWorker] using hf
    · split at h <;> cases h
      simpa [State.setWorker] using hf
    · cases h
  | handlerReturn v r' =>
    simp only [step] at h
    split at h
    · rename_i k' h' hv
      split at h <;> cases h <;> simp only [State.setWorker, List.mem_append, List.mem_singleton, Event.finished.injEq] at hf <;> rcases hf with hf | ⟨rfl, rfl, rfl⟩
      · exact .inl hf
      · exact .inr ⟨v, rfl, hv⟩
      · exact .inl hf
      · exact .inr ⟨v, rfl, hv⟩
    · cases h
  | send k' h' d =>
    left
    simp only [step] at h
    split at h
    · split at h <;> cases h
      unfold State.ctxSend at hf
      split at hf
      · split at hf <;> simpa using hf
      · simpa using hf
    · cases h

theorem sendOk_new {q q' : State ε} {a : Action ε} (h : step q a = some q') {k hd : Nat} {n : UInt64} {d : Bytes} (hf : .sendOk k hd n d ∈ q'.log) : .sendOk k hd n d ∈ q.log ∨ a = .send k hd d := by
  cases a with
  | enqueue it =>
    simp only [step] at h
    split at h
    · cases h
    · split at h <;> cases h
      exact .inl hf
  | closeQueue =>
    simp only [step] at h
    split at h <;> cases h
    exact .inl hf
  | work v =>
    left
    simp only [step] at h
    split at h
    · split at h
      · cases h; simpa [State.setWorker] using hf
      · split at h <;> cases h
        simpa [State.setWorker] using hf
    · split at h <;> cases h <;> simpa [State.setWorker] using hf
    · split at h <;> cases h
      simpa [State.setWorker] using hf
    · split at h <;> cases h
      simpa [State.setWorker] using hf
    · cases h
  | handlerReturn v r' =>
    left
    simp only [step] at h
    split at h
    · split at h <;> cases h <;> simpa [State.setWorker] using hf
    · cases h
  | send k' h' d =>
    simp only [step] at h
    split at h
    · split at h <;> cases h
      unfold State.ctxSend at hf
      split at hf
      · split at hf
        · left; simpa using hf
        · simp only [List.mem_append, List.mem_singleton, Event.sendOk.injEq] at hf
          rcases hf with hf | ⟨rfl, rfl, rfl, rfl⟩
          · exact .inl hf
          · exact .inr rfl
      · simp only [List.mem_append, List.mem_singleton, Event.sendOk.injEq] at hf
        rcases hf with hf | ⟨rfl, rfl, rfl, rfl⟩
        · exact .inl hf
        · exact .inr rfl
    · cases h

end Noise.Wk

namespace Noise.Gossip

/-- Calls of `Handle` stay, and once they have returned they have. -/
theorem handlers_keep {c : Cfg} {s s' : State} {a : Action} (hs : step c s a = some s') (hr : ∀ e d, a ≠ .receive e d) :
    s'.handlers.length = s.handlers.length ∧ ∀ (i : Nat) (h : Handler), s.handlers[i]? = some h → ∃ h', s'.handlers[i]? = some h' ∧ h'.data = h.data ∧ h'.sender = h.sender ∧ (h.pc = .done → h'.pc = .done) := by
  have set : ∀ (i : Nat) (h : Handler) (pc : HPc), s.handlers[i]? = some h → h.pc ≠ .done → (s.handlers.set i { h with pc := pc }).length = s.handlers.length ∧
      ∀ (j : Nat) (x : Handler), s.handlers[j]? = some x → ∃ h', (s.handlers.set i { h with pc := pc })[j]? = some h' ∧ h'.data = x.data ∧ h'.sender = x.sender ∧ (x.pc = .done → h'.pc = .done) := by
    intro i h pc hi hne
    refine ⟨List.length_set, fun j x hx => ?_⟩
    by_cases hij : i = j
    · subst hij
      rw [hi] at hx; cases hx
      exact ⟨_, List.getElem?_set_self (List.getElem?_eq_some_iff.1 hi).1, rfl, rfl, fun h => absurd h hne⟩
    · exact ⟨x, by rw [List.getElem?_set_ne hij]; exact hx, rfl, rfl, id⟩
  have same : s.handlers.length = s.handlers.length ∧ ∀ (i : Nat) (h : Handler), s.handlers[i]? = some h → ∃ h', s.handlers[i]? = some h' ∧ h'.data = h.data ∧ h'.sender = h.sender ∧ (h.pc = .done → h'.pc = .done) :=
    ⟨rfl, fun i h hh => ⟨h, hh, rfl, rfl, id⟩⟩
  cases a with
  | receive e d => exact absurd rfl (hr e d)
  | handler i =>
    simp only [step] at hs
    split at hs
    · cases hs
    rename_i h hi
    split at hs
    · rename_i hp; cases hs; exact set i h _ hi (by rw [hp]; simp)
    · rename_i hp; cases hs; exact set i h _ hi (by rw [hp]; simp)
    · rename_i hp; cases hs; exact set i h _ hi (by rw [hp]; simp)
    · rename_i hp
      split at hs <;> cases hs
      exact set i h _ hi (by rw [hp]; simp)
    · rename_i hp
      split at hs
      · split at hs <;> cases hs
        exact set i h _ hi (by rw [hp]; simp)
      · cases hs
    · cases hs
    · cases hs
  | callback i accept =>
    simp only [step] at hs
    split at hs
    · rename_i h hi
      split at hs
      · rename_i hp
        cases hs
        exact set i h _ hi (by rw [hp]; simp)
      · cases hs
    · cases hs
  | push data =>
    simp only [step] at hs
    split at hs <;> cases hs
    exact same
  | pushing k entries =>
    simp only [step] at hs
    split at hs
    · cases hs
    split at hs
    all_goals first
      | (cases hs; done)
      | (cases hs; exact same)
      | (split at hs <;> cases hs; exact same)
  | gor k j =>
    simp only [step] at hs
    split at hs
    · cases hs
    split at hs
    · cases hs
    split at hs
    all_goals first
      | (cases hs; done)
      | (cases hs; exact same)
  | sent k j ok =>
    simp only [step] at hs
    split at hs
    · cases hs
    split at hs
    · cases hs
    split at hs
    · split at hs <;> cases hs <;> exact same
    · cases hs

end Noise.Gossip

namespace Noise.GWire
open Spec
variable {ε : Type}

/-- The calls of `Handle` and the workers they run on. -/
structure Work (c : Cfg ε) (x : Node.State ε) (p : Part ε) : Prop where
  once : (p.runs.map Prod.fst).Nodup
  idx : p.runs.map Prod.snd = List.range p.g.handlers.length
  item : ∀ k i, (k, i) ∈ p.runs → ∃ (q : Wk.State ε) (it : Wk.Item) (h : Gossip.Handler), x.wk = some q ∧ q.items[k]? = some it ∧ p.g.handlers[i]? = some h ∧ decode c.op it.msg = some h.data
  busy : ∀ (k i : Nat) (h : Gossip.Handler), (k, i) ∈ p.runs → p.g.handlers[i]? = some h → h.pc ≠ .done → ∃ (q : Wk.State ε) (w : Nat), x.wk = some q ∧ q.workers[w]? = some (.inside k c.handler)
  fin : ∀ (q : Wk.State ε) (k : Nat) (r : Option ε), x.wk = some q → .finished k c.handler r ∈ q.log → ∃ it, q.items[k]? = some it ∧
    ((decode c.op it.msg = none ∧ r = none) ∨ ∃ (i : Nat) (h : Gossip.Handler), (k, i) ∈ p.runs ∧ p.g.handlers[i]? = some h ∧ h.pc = .done ∧ ∀ e, r = some e → (i, e) ∈ p.errors)

theorem Work.init (c : Cfg ε) : Work c Node.State.new Part.new := by
  constructor <;> simp [Part.new, Gossip.State.new, Node.State.new]

theorem inside_item {cfg : Node.Cfg ε} {x : Node.State ε} (hr : Node.Reachable cfg x) {q : Wk.State ε} (hq : x.wk = some q) {w k h : Nat} (hw : q.workers[w]? = some (.inside k h)) : ∃ it, q.items[k]? = some it := by
  have i := Wk.Inv.reach ((Node.Stage.reach hr).workers q hq)
  have h1 := (i.pc w _ hw).1
  have h2 := i.head
  exact ⟨_, List.getElem?_eq_getElem (by omega)⟩

/-- A step of the node. -/
theorem Work.node {c : Cfg ε} {cfg : Node.Cfg ε} {x x' : Node.State ε} {p : Part ε} {a : Node.Action ε} (v : Work c x p) (hr : Node.Reachable cfg x) (h : Node.step cfg x a = some x')
    (ha : ∀ (w : Nat) (r : Option ε) (q : Wk.State ε) (k : Nat) (it : Wk.Item), a = .handlerReturn w r → x.wk = some q → q.workers[w]? = some (.inside k c.handler) → q.items[k]? = some it →
      (decode c.op it.msg = none ∧ r = none) ∨ ∃ (i : Nat) (h : Gossip.Handler), (k, i) ∈ p.runs ∧ p.g.handlers[i]? = some h ∧ h.pc = .done ∧ ∀ e, r = some e → (i, e) ∈ p.errors) : Work c x' p := by
  have hl := Node.Later.step hr h
  refine ⟨v.once, v.idx, fun k i hk => ?_, fun k i hd hk hi hne => ?_, fun q' k r hq' hf => ?_⟩
  · obtain ⟨q, it, hd, h1, h2, h3, h4⟩ := v.item k i hk
    obtain ⟨q', h5, h6, -⟩ := hl.wk q h1
    exact ⟨q', it, hd, h5, Node.prefix_get h6 h2, h3, h4⟩
  · obtain ⟨q, w, h1, h2⟩ := v.busy k i hd hk hi hne
    rcases Node.step_wkBy h with h3 | ⟨h3, -⟩ | ⟨w0, w1, act, h3, h4, h5, h6⟩
    · exact ⟨q, w, h3.trans h1, h2⟩
    · rw [(Node.Stage.reach hr).init.1 h3] at h1; cases h1
    · rw [h1] at h3; cases h3
      rcases Wk.inside_stays h5 h2 with h7 | ⟨r, rfl⟩
      · exact ⟨w1, w, h4, h7⟩
      · obtain ⟨q0, it, hd', e1, e2, e3, e4⟩ := v.item k i hk
        rw [h1] at e1; cases e1
        rw [hi] at e3; cases e3
        rcases ha w r q k it h6 h1 h2 e2 with ⟨e5, -⟩ | ⟨i', hd2, e5, e6, e7, -⟩
        · rw [e4] at e5; cases e5
        · have : i' = i := by
            obtain ⟨n1, g1⟩ := List.getElem?_of_mem e5
            obtain ⟨n2, g2⟩ := List.getElem?_of_mem hk
            have hinj := v.once
            have : n1 = n2 := by
              have l1 := (List.getElem?_eq_some_iff.1 g1).1
              have l2 := (List.getElem?_eq_some_iff.1 g2).1
              refine (List.Nodup.getElem_inj_iff hinj (hi := by simpa using l1) (hj := by simpa using l2)).1 ?_
              have g1 := (List.getElem?_eq_some_iff.1 g1).2
              have g2 := (List.getElem?_eq_some_iff.1 g2).2
              simp [g1, g2]
            subst this
            rw [g1] at g2; cases g2; rfl
          subst this
          rw [hi] at e6; cases e6
          exact absurd e7 hne
  · rcases Node.step_wkBy h with h3 | ⟨h3, h4⟩ | ⟨w0, w1, act, h3, h4, h5, h6⟩
    · rw [h3] at hq'; exact v.fin q' k r hq' hf
    · rw [hq'] at h4; cases h4
      simp [Wk.State.new] at hf
    · rw [hq'] at h4; cases h4
      rcases Wk.finished_new h5 hf with h7 | ⟨w, rfl, hw⟩
      · obtain ⟨it, h8, h9⟩ := v.fin w0 k r h3 h7
        exact ⟨it, Node.prefix_get (Link.w_mono h5).1 h8, h9⟩
      · obtain ⟨it, hit⟩ := inside_item hr h3 hw
        exact ⟨it, Node.prefix_get (Link.w_mono h5).1 hit, ha w r w0 k it h6 h3 hw hit⟩

/-- A step of gossip other than a new call of `Handle`. -/
theorem Work.gossip {c : Cfg ε} {gc : Gossip.Cfg} {x : Node.State ε} {p p' : Part ε} {a : Gossip.Action} (v : Work c x p) (h : Gossip.step gc p.g a = some p'.g) (ha : ∀ e d, a ≠ .receive e d) (hr : p'.runs = p.runs)
    (he : ∀ e ∈ p.errors, e ∈ p'.errors) : Work c x p' := by
  obtain ⟨h1, h2⟩ := Gossip.handlers_keep h ha
  have back : ∀ (i : Nat) (y : Gossip.Handler), p'.g.handlers[i]? = some y → ∃ z, p.g.handlers[i]? = some z ∧ y.data = z.data ∧ (z.pc = .done → y.pc = .done) := by
    intro i y hy
    have hlt := (List.getElem?_eq_some_iff.1 hy).1
    rw [h1] at hlt
    obtain ⟨y', g1, g2, -, g3⟩ := h2 i _ (List.getElem?_eq_getElem hlt)
    rw [hy] at g1; cases g1
    exact ⟨_, List.getElem?_eq_getElem hlt, g2, g3⟩
  refine ⟨by rw [hr]; exact v.once, by rw [hr, h1]; exact v.idx, fun k i hk => ?_, fun k i y hk hi hne => ?_, fun q k r hq hf => ?_⟩
  · rw [hr] at hk
    obtain ⟨q, it, y, e1, e2, e3, e4⟩ := v.item k i hk
    obtain ⟨y', e5, e6, -⟩ := h2 i y e3
    exact ⟨q, it, y', e1, e2, e5, by rw [e6]; exact e4⟩
  · rw [hr] at hk
    obtain ⟨z, e1, -, e2⟩ := back i y hi
    exact v.busy k i z hk e1 (fun hd => hne (e2 hd))
  · obtain ⟨it, e1, e2⟩ := v.fin q k r hq hf
    refine ⟨it, e1, e2.imp id ?_⟩
    rintro ⟨i, y, e3, e4, e5, e6⟩
    obtain ⟨y', e7, -, -, e8⟩ := h2 i y e4
    exact ⟨i, y', by rw [hr]; exact e3, e7, e8 e5, fun e hee => he _ (e6 e hee)⟩

/-- A new call of `Handle`. -/
theorem Work.enter {c : Cfg ε} {gc : Gossip.Cfg} {x : Node.State ε} {p p' : Part ε} {k w : Nat} {it : Wk.Item} {e : ID} {data : Bytes} (v : Work c x p) (h : Gossip.step gc p.g (.receive e data) = some p'.g)
    (hi : invocation c x w = some (k, it)) (hd : decode c.op it.msg = some data) (hno : k ∉ p.runs.map Prod.fst) (hr : p'.runs = p.runs ++ [(k, p.g.handlers.length)]) (he : p'.errors = p.errors) : Work c x p' := by
  obtain ⟨q, hq, hw, hit⟩ := invocation_some hi
  simp only [Gossip.step] at h
  split at h
  swap
  · cases h
  have hh : p'.g.handlers = p.g.handlers ++ [⟨e, data, .sender⟩] := by rw [← Option.some.inj h]
  have old : ∀ {i : Nat} {y : Gossip.Handler}, p.g.handlers[i]? = some y → p'.g.handlers[i]? = some y := by
    intro i y hy
    rw [hh, List.getElem?_append_left (List.getElem?_eq_some_iff.1 hy).1]; exact hy
  have new : p'.g.handlers[p.g.handlers.length]? = some ⟨e, data, .sender⟩ := by rw [hh]; exact List.getElem?_concat_length
  have lt : ∀ {k i}, (k, i) ∈ p.runs → i < p.g.handlers.length := by
    intro k i hk
    have : i ∈ p.runs.map Prod.snd := List.mem_map.2 ⟨_, hk, rfl⟩
    rw [v.idx] at this
    exact List.mem_range.1 this
  refine ⟨?_, ?_, fun k' i hk => ?_, fun k' i y hk hi' hne => ?_, fun q' k' r hq' hf => ?_⟩
  · rw [hr, List.map_append, List.nodup_append]
    refine ⟨v.once, by simp, fun a ha b hb => ?_⟩
    simp only [List.map_cons, List.map_nil, List.mem_singleton] at hb
    subst hb
    rintro rfl
    exact hno ha
  · rw [hr, List.map_append, v.idx, hh, List.length_append]
    simp [List.range_succ]
  · rw [hr] at hk
    rcases List.mem_append.1 hk with hk | hk
    · obtain ⟨q1, it1, y, e1, e2, e3, e4⟩ := v.item k' i hk
      exact ⟨q1, it1, y, e1, e2, old e3, e4⟩
    · rw [List.mem_singleton] at hk
      cases hk
      exact ⟨q, it, _, hq, hit, new, hd⟩
  · rw [hr] at hk
    rcases List.mem_append.1 hk with hk | hk
    · rw [hh, List.getElem?_append_left (lt hk)] at hi'
      exact v.busy k' i y hk hi' hne
    · rw [List.mem_singleton] at hk
      cases hk
      exact ⟨q, w, hq, hw⟩
  · obtain ⟨it1, e1, e2⟩ := v.fin q' k' r hq' hf
    refine ⟨it1, e1, e2.imp id ?_⟩
    rintro ⟨i, y, e3, e4, e5, e6⟩
    exact ⟨i, y, by rw [hr]; exact List.mem_append_left _ e3, old e4, e5, fun e hee => by rw [he]; exact e6 e hee⟩

/-- There are never more calls of `Handle` than workers. -/
theorem Work.room {c : Cfg ε} {x : Node.State ε} {p : Part ε} {k w : Nat} {it : Wk.Item} {q : Wk.State ε} (v : Work c x p) (hq : x.wk = some q) (hi : invocation c x w = some (k, it)) (hno : k ∉ p.runs.map Prod.fst) :
    Gossip.running p.g.handlers < q.workers.length := by
  obtain ⟨q', hq', hw, -⟩ := invocation_some hi
  rw [hq] at hq'; cases hq'
  -- each running call is on a worker of its own
  have on : ∀ i : Nat, (∃ h, p.g.handlers[i]? = some h ∧ h.pc ≠ .done) → ∃ v k' : Nat, (k', i) ∈ p.runs ∧ q.workers[v]? = some (.inside k' c.handler) := by
    rintro i ⟨h, h1, h2⟩
    have : i ∈ p.runs.map Prod.snd := by rw [v.idx]; exact List.mem_range.2 (List.getElem?_eq_some_iff.1 h1).1
    obtain ⟨⟨k', i'⟩, hm, rfl⟩ := List.mem_map.1 this
    obtain ⟨q2, v', e1, e2⟩ := v.busy k' i' h hm h1 h2
    rw [hq] at e1; cases e1
    exact ⟨v', k', hm, e2⟩
  classical
  let f : Nat → Nat := fun i => if h : ∃ h, p.g.handlers[i]? = some h ∧ h.pc ≠ .done then (on i h).choose else 0
  have hf : ∀ i, (∃ h, p.g.handlers[i]? = some h ∧ h.pc ≠ .done) → ∃ k' : Nat, (k', i) ∈ p.runs ∧ q.workers[f i]? = some (.inside k' c.handler) := by
    intro i hh
    simp only [f, dif_pos hh]
    exact (on i hh).choose_spec
  let S : Finset Nat := (Finset.range p.g.handlers.length).filter fun i => ∃ h, p.g.handlers[i]? = some h ∧ h.pc ≠ .done
  have hS : S.card = Gossip.running p.g.handlers := by
    have key : ∀ l : List Gossip.Handler, ((Finset.range l.length).filter fun i => ∃ h, l[i]? = some h ∧ h.pc ≠ .done).card = Gossip.running l := by
      intro l
      induction l using List.reverseRecOn with
      | nil => rfl
      | append_singleton l a ih =>
        rw [List.length_append, List.length_singleton, Finset.range_add_one, Finset.filter_insert]
        have same : ((Finset.range l.length).filter fun i => ∃ h, (l ++ [a])[i]? = some h ∧ h.pc ≠ .done) = (Finset.range l.length).filter fun i => ∃ h, l[i]? = some h ∧ h.pc ≠ .done := by
          refine Finset.filter_congr fun i hi => ?_
          rw [List.getElem?_append_left (Finset.mem_range.1 hi)]
        rw [same]
        simp only [List.getElem?_concat_length, Option.some.injEq, exists_eq_left']
        have hr : Gossip.running (l ++ [a]) = Gossip.running l + if a.pc ≠ .done then 1 else 0 := by
          simp [Gossip.running, List.countP_append, List.countP_cons]
        rw [hr]
        split
        · rw [Finset.card_insert_of_notMem (by simp), ih]
        · rw [ih]; rfl
    exact key _
  have hsub : S.image f ⊆ (Finset.range q.workers.length).erase w := by
    intro v' hv'
    obtain ⟨i, hi1, rfl⟩ := Finset.mem_image.1 hv'
    obtain ⟨k', e1, e2⟩ := hf i (Finset.mem_filter.1 hi1).2
    refine Finset.mem_erase.2 ⟨fun hfw => ?_, Finset.mem_range.2 (List.getElem?_eq_some_iff.1 e2).1⟩
    rw [hfw, hw] at e2
    cases e2
    exact hno (List.mem_map.2 ⟨_, e1, rfl⟩)
  have hinj : Set.InjOn f S := by
    intro i hi1 j hj1 hij
    obtain ⟨k1, e1, e2⟩ := hf i (Finset.mem_filter.1 hi1).2
    obtain ⟨k2, e3, e4⟩ := hf j (Finset.mem_filter.1 hj1).2
    rw [hij, e4] at e2
    cases e2
    obtain ⟨n1, g1⟩ := List.getElem?_of_mem e1
    obtain ⟨n2, g2⟩ := List.getElem?_of_mem e3
    have : n1 = n2 := by
      have l1 := (List.getElem?_eq_some_iff.1 g1).1
      have l2 := (List.getElem?_eq_some_iff.1 g2).1
      refine (List.Nodup.getElem_inj_iff v.once (hi := by simpa using l1) (hj := by simpa using l2)).1 ?_
      have g1 := (List.getElem?_eq_some_iff.1 g1).2
      have g2 := (List.getElem?_eq_some_iff.1 g2).2
      simp [g1, g2]
    subst this
    rw [g1] at g2; cases g2; rfl
  have h1 := Finset.card_le_card hsub
  rw [Finset.card_image_of_injOn hinj, Finset.card_erase_of_mem (Finset.mem_range.2 (List.getElem?_eq_some_iff.1 hw).1), Finset.card_range, hS] at h1
  have := (List.getElem?_eq_some_iff.1 hw).1
  omega

/-- Everything about the nodes and gossip on them. -/
structure Inv2 (c : Cfg ε) (s : State ε) : Prop where
  work : ∀ (n : Nat) (x : Node.State ε) (p : Part ε), s.net.nodes[n]? = some x → s.parts[n]? = some p → Work c x p
  gossip : ∀ (n : Nat) (p : Part ε), s.parts[n]? = some p → ReachFrom (Gossip.step (c.gossip n)) Gossip.State.new p.g
  heard : ∀ (n : Nat) (p : Part ε), s.parts[n]? = some p → Gossip.Heard (c.key n) (· ∈ p.pushed) p.g

theorem Inv2.init (c : Cfg ε) (N : Nat) : Inv2 c (State.new N) := by
  have hp : ∀ (n : Nat) (p : Part ε), (State.new N : State ε).parts[n]? = some p → p = Part.new := fun n p h => (List.mem_replicate.1 (List.mem_of_getElem? h)).2
  refine ⟨fun n x p hx h => ?_, fun n p h => ?_, fun n p h => ?_⟩
  · rw [hp n p h, (List.mem_replicate.1 (List.mem_of_getElem? hx)).2]
    exact Work.init c
  · rw [hp n p h]; exact .refl _
  · rw [hp n p h]; exact .init _ _

theorem net_node {cfg : Nat → Node.Cfg ε} {s s' : Net.State ε} {b : Net.Action ε} (h : Net.step cfg s b = some s') {n : Nat} {x' : Node.State ε} (hx' : s'.nodes[n]? = some x') :
    s.nodes[n]? = some x' ∨ ∃ x a, s.nodes[n]? = some x ∧ b = .node n a ∧ Node.step (cfg n) x a = some x' := by
  have set : ∀ (m : Nat) (x y : Node.State ε) (a : Node.Action ε) (ws : List Net.Wire), s.nodes[m]? = some x → b = .node m a → Node.step (cfg m) x a = some y → s' = { s.setNode m y with wires := ws } →
      s.nodes[n]? = some x' ∨ ∃ x a, s.nodes[n]? = some x ∧ b = .node n a ∧ Node.step (cfg n) x a = some x' := by
    intro m x y a ws hm hb hst hs
    rw [hs] at hx'
    have hx' : (s.nodes.set m y)[n]? = some x' := hx'
    by_cases hmn : m = n
    · subst hmn
      rw [List.getElem?_set_self (List.getElem?_eq_some_iff.1 hm).1] at hx'
      cases hx'
      exact .inr ⟨x, a, hm, hb, hst⟩
    · rw [List.getElem?_set_ne hmn] at hx'
      exact .inl hx'
  cases b with
  | connect o i =>
    simp only [Net.step] at h
    split at h
    · split at h <;> cases h; exact .inl hx'
    · cases h
  | connectOut e =>
    simp only [Net.step] at h
    split at h
    · split at h <;> cases h; exact .inl hx'
    · cases h
  | node m act =>
    simp only [Net.step] at h
    split at h
    · rename_i x hm
      split at h
      · split at h
        · obtain ⟨y, h1, h2⟩ := Option.map_eq_some_iff.1 h
          exact set m x y _ s.wires hm rfl h1 h2.symm
        · split at h
          · obtain ⟨y, h1, h2⟩ := Option.map_eq_some_iff.1 h
            exact set m x y _ _ hm rfl h1 h2.symm
          · cases h
      · obtain ⟨y, h1, h2⟩ := Option.map_eq_some_iff.1 h
        exact set m x y _ s.wires hm rfl h1 h2.symm
    · cases h

theorem Inv2.net {c : Cfg ε} {s s' : State ε} {b : Net.Action ε} (i : Inv2 c s) (v : Net.Inv c.node s.net) (h : Net.step c.node s.net b = some s'.net)
    (hp : ∀ (n : Nat) (p' : Part ε), s'.parts[n]? = some p' → ∃ p, s.parts[n]? = some p ∧ p'.g = p.g ∧ p'.runs = p.runs ∧ p'.errors = p.errors ∧ p'.pushed = p.pushed)
    (hb : ∀ (n w : Nat) (r : Option ε) (x : Node.State ε) (p : Part ε) (q : Wk.State ε) (k : Nat) (it : Wk.Item), b = .node n (.handlerReturn w r) → s.net.nodes[n]? = some x → s.parts[n]? = some p → x.wk = some q → q.workers[w]? = some (.inside k c.handler) → q.items[k]? = some it →
      (decode c.op it.msg = none ∧ r = none) ∨ ∃ (i : Nat) (h : Gossip.Handler), (k, i) ∈ p.runs ∧ p.g.handlers[i]? = some h ∧ h.pc = .done ∧ ∀ e, r = some e → (i, e) ∈ p.errors) : Inv2 c s' := by
  refine ⟨fun n x' p' hx' hp' => ?_, fun n p' hp' => ?_, fun n p' hp' => ?_⟩
  · obtain ⟨p, h1, h2, h3, h4, -⟩ := hp n p' hp'
    have key : Work c x' p := by
      rcases net_node h hx' with hx | ⟨x, a, hx, rfl, hst⟩
      · exact i.work n x' p hx h1
      · exact (i.work n x p hx h1).node (v.nodes n x hx) hst fun w r q k it ha hq hw hit => hb n w r x p q k it (by rw [ha]) hx h1 hq hw hit
    obtain ⟨a1, a2, a3, a4, a5⟩ := key
    exact ⟨by rw [h3]; exact a1, by rw [h3, h2]; exact a2, by rw [h3, h2]; exact a3, by rw [h3, h2]; exact a4, by rw [h3, h2, h4]; exact a5⟩
  · obtain ⟨p, h1, h2, -⟩ := hp n p' hp'
    rw [h2]; exact i.gossip n p h1
  · obtain ⟨p, h1, h2, -, -, h3⟩ := hp n p' hp'
    rw [h2, h3]; exact i.heard n p h1

theorem Inv2.part {c : Cfg ε} {s : State ε} {n : Nat} {p p' : Part ε} {a : Gossip.Action} (i : Inv2 c s) (hp : s.parts[n]? = some p) (hg : Gossip.step (c.gossip n) p.g a = some p'.g)
    (hw : ∀ x, s.net.nodes[n]? = some x → Work c x p') (hpu : ∀ d ∈ p.pushed, d ∈ p'.pushed) (ha : ∀ d, a = .push d → d ∈ p'.pushed) : Inv2 c { s with parts := s.parts.set n p' } := by
  refine ⟨fun m x r hx hr => ?_, fun m r hr => ?_, fun m r hr => ?_⟩
  · rcases (parts_set hp).1 hr with ⟨rfl, rfl⟩ | ⟨-, hr⟩
    · exact hw x hx
    · exact i.work m x r hx hr
  · rcases (parts_set hp).1 hr with ⟨rfl, rfl⟩ | ⟨-, hr⟩
    · exact (i.gossip m p hp).snoc hg
    · exact i.gossip m r hr
  · rcases (parts_set hp).1 hr with ⟨rfl, rfl⟩ | ⟨-, hr⟩
    · exact ((i.heard m p hp).weaken hpu).step hg ha
    · exact i.heard m r hr

theorem Inv2.step {c : Cfg ε} {s s' : State ε} {a : Action ε} (i : Inv2 c s) (v : Net.Inv c.node s.net) (h : step c s a = some s') : Inv2 c s' := by
  cases a with
  | net b =>
    simp only [GWire.step] at h
    split at h
    · cases h
    · rename_i hbar
      obtain ⟨y, h1, h2⟩ := Option.map_eq_some_iff.1 h
      subst h2
      refine i.net v h1 (fun n p hp => ⟨p, hp, rfl, rfl, rfl, rfl⟩) fun n w r x p q k it hb hx hp hq hw hit => ?_
      subst hb
      have hi : invocation c x w = some (k, it) := by simp [invocation, hq, hw, hit]
      simp only [bars, hx, hi, Bool.or_eq_true, not_or, Bool.not_eq_true, Option.isSome_eq_false_iff, Option.isNone_iff_eq_none] at hbar
      exact .inl hbar
  | push n data =>
    obtain ⟨x, p, p', hx, hp, -, hf, rfl⟩ := with_some h
    obtain ⟨g, h1, h2⟩ := Option.map_eq_some_iff.1 hf
    subst h2
    exact i.part hp (a := .push data) h1 (fun x' hx' => (i.work n x' p hx' hp).gossip (a := .push data) h1 (by simp) rfl (fun _ h => h)) (fun d hd => List.mem_append_left _ hd) (by rintro d ⟨⟩; simp)
  | own n b =>
    obtain ⟨x, p, p', hx, hp, -, hf, rfl⟩ := with_some h
    cases b with
    | receive | callback | push | sent => cases hf
    | handler | pushing | gor =>
      obtain ⟨g, h1, h2⟩ := Option.map_eq_some_iff.1 hf
      subst h2
      exact i.part hp h1 (fun x' hx' => (i.work n x' p hx' hp).gossip h1 (by simp) rfl (fun _ h => h)) (fun d hd => hd) (by simp)
  | callback n j r =>
    obtain ⟨x, p, p', hx, hp, -, hf, rfl⟩ := with_some h
    obtain ⟨g, h1, h2⟩ := Option.map_eq_some_iff.1 hf
    subst h2
    refine i.part hp h1 (fun x' hx' => (i.work n x' p hx' hp).gossip h1 (by simp) rfl (fun e he => ?_)) (fun d hd => hd) (by simp)
    cases r with
    | none => exact he
    | some e' => exact List.mem_append_left _ he
  | enter n w =>
    obtain ⟨x, p, p', hx, hp, -, hf, rfl⟩ := with_some h
    split at hf
    · rename_i k it hi
      split at hf
      · rename_i data y hd hy
        split at hf
        · cases hf
        · rename_i hany
          obtain ⟨g, h1, h2⟩ := Option.map_eq_some_iff.1 hf
          subst h2
          refine i.part hp h1 (fun x' hx' => ?_) (fun d hd => hd) (by simp)
          rw [hx] at hx'; cases hx'
          refine (i.work n x p hx hp).enter h1 hi hd (fun hk => hany ?_) rfl rfl
          obtain ⟨r, hr1, hr2⟩ := List.mem_map.1 hk
          exact List.any_eq_true.2 ⟨r, hr1, by simpa using hr2⟩
      · cases hf
    · cases hf
  | leave n w =>
    simp only [GWire.step] at h
    split at h
    · rename_i x p hx hp
      split at h
      · rename_i k it hi
        split at h
        · rename_i k' j hfind
          split at h
          · rename_i hdone
            obtain ⟨y, h1, h2⟩ := Option.map_eq_some_iff.1 h
            subst h2
            refine i.net v h1 (fun n p hp => ⟨p, hp, rfl, rfl, rfl, rfl⟩) fun n' w' r x' p2 q k2 it2 hb hx' hp' hq hw hit => ?_
            simp only [Net.Action.node.injEq, Node.Action.handlerReturn.injEq] at hb
            obtain ⟨rfl, rfl, rfl⟩ := hb
            rw [hx] at hx'; cases hx'
            rw [hp] at hp'; cases hp'
            obtain ⟨q3, g1, g2, g3⟩ := invocation_some hi
            rw [hq] at g1; cases g1
            rw [hw] at g2; cases g2
            right
            have hm := List.mem_of_find?_eq_some hfind
            have hk := List.find?_some hfind
            simp only [decide_eq_true_eq] at hk
            subst hk
            cases g4 : p.g.handlers[j]? with
            | none => rw [g4] at hdone; cases hdone
            | some hd =>
            rw [g4] at hdone
            refine ⟨j, hd, hm, g4, by simpa using hdone, fun e he => ?_⟩
            obtain ⟨e', g6, g7⟩ := Option.map_eq_some_iff.1 he
            have g8 := List.mem_of_find?_eq_some g6
            have g9 := List.find?_some g6
            simp only [decide_eq_true_eq] at g9
            rw [← g9, ← g7]
            exact g8
          · cases h
        · cases h
      · cases h
    · cases h
  | send n k j =>
    simp only [GWire.step] at h
    split at h
    · rename_i x p hx hp
      split at h
      · split at h
        · cases h
        · obtain ⟨y, h1, h2⟩ := Option.map_eq_some_iff.1 h
          subst h2
          refine i.net v h1 (fun m r hr => ?_) (by rintro n w r x p q k it ⟨⟩)
          rcases (parts_set hp).1 hr with ⟨rfl, rfl⟩ | ⟨-, hr⟩
          · exact ⟨p, hp, rfl, rfl, rfl, rfl⟩
          · exact ⟨r, hr, rfl, rfl, rfl, rfl⟩
      · cases h
    · cases h
  | sent n k j =>
    obtain ⟨x, p, p', hx, hp, -, hf, rfl⟩ := with_some h
    split at hf
    · split at hf
      · split at hf
        · obtain ⟨g, h1, h2⟩ := Option.map_eq_some_iff.1 hf
          subst h2
          exact i.part hp h1 (fun x' hx' => (i.work n x' p hx' hp).gossip h1 (by simp) rfl (fun _ h => h)) (fun d hd => hd) (by simp)
        · cases hf
      · cases hf
    · cases hf

theorem Inv2.reach {c : Cfg ε} {N : Nat} {s : State ε} (h : Reachable c N s) : Inv2 c s :=
  (h.inv (P := fun s => Inv c N s ∧ Inv2 c s) (fun _ _ _ i hs => ⟨i.1.step hs, i.2.step (Net.Inv.reach i.1.net) hs⟩) ⟨Inv.init c N, Inv2.init c N⟩).2

/-- The handler of gossip sends nothing through the contexts of messages. -/
def Mute (c : Cfg ε) (s : Net.State ε) : Prop := ∀ (m : Nat) (x : Node.State ε) (q : Wk.State ε) (k : Nat) (v : UInt64) (d : Bytes), s.nodes[m]? = some x → x.wk = some q → .sendOk k c.handler v d ∉ q.log

theorem Mute.net {c : Cfg ε} {s s' : Net.State ε} {b : Net.Action ε} (hm : Mute c s) (h : Net.step c.node s b = some s') (hb : ∀ m k d, b ≠ .node m (.ctxSend k c.handler d)) : Mute c s' := by
  intro m x' q' k v d hx' hq' hin
  rcases net_node h hx' with hx | ⟨x, a, hx, rfl, hst⟩
  · exact hm m x' q' k v d hx hq' hin
  · rcases Node.step_wkBy hst with h1 | ⟨-, h1⟩ | ⟨w, w1, act, h1, h2, h3, h4⟩
    · rw [h1] at hq'; exact hm m x q' k v d hx hq' hin
    · rw [hq'] at h1; cases h1
      simp [Wk.State.new] at hin
    · rw [hq'] at h2; cases h2
      rcases Wk.sendOk_new h3 hin with h5 | rfl
      · exact hm m x w k v d hx h1 h5
      · exact hb m k d (by rw [show a = .ctxSend k c.handler d from h4])

theorem Mute.reach {c : Cfg ε} {N : Nat} {s : State ε} (h : Reachable c N s) : Mute c s.net := by
  refine h.ind (P := fun s => Mute c s.net) ?_ ?_
  · intro m x q k v d hx hq
    have : x = Node.State.new := by
      rw [show (State.new N : State ε).net.nodes = List.replicate N Node.State.new from rfl] at hx
      exact List.eq_of_mem_replicate (List.mem_of_getElem? hx)
    subst this
    cases hq
  · intro s1 a s2 _ ih hs
    cases a with
    | net b =>
      simp only [GWire.step] at hs
      split at hs
      · cases hs
      · rename_i hbar
        obtain ⟨y, h1, h2⟩ := Option.map_eq_some_iff.1 hs
        subst h2
        refine ih.net h1 ?_
        rintro m k d rfl
        simp [bars] at hbar
    | push | own | callback | enter | sent =>
      obtain ⟨x, p, p', -, -, -, -, rfl⟩ := with_some hs
      exact ih
    | leave n w =>
      simp only [GWire.step] at hs
      split at hs
      · split at hs
        · split at hs
          · split at hs
            · obtain ⟨y, h1, h2⟩ := Option.map_eq_some_iff.1 hs
              subst h2
              exact ih.net h1 (by rintro m k d ⟨⟩)
            · cases hs
          · cases hs
        · cases hs
      · cases hs
    | send n k j =>
      simp only [GWire.step] at hs
      split at hs
      · split at hs
        · split at hs
          · cases hs
          · obtain ⟨y, h1, h2⟩ := Option.map_eq_some_iff.1 hs
            subst h2
            exact ih.net h1 (by rintro m k d ⟨⟩)
        · cases hs
      · cases hs

end Noise.GWire
