import Verif.Spec.KadPing
import Verif.Proofs.KadSearch
import Verif.Proofs.NetAsk
import Verif.Proofs.KadEnd
/-! # The pings of `Ack` in a network of nodes with kademlia -/
namespace Noise.KWire
open Spec
variable {ε : Type}

/-- Kademlia's calls on a node in a step of the network. -/
theorem step_kad {S : Sorter} {c : Cfg ε} {s s' : State ε} {a : Action ε} (hs : step S c s a = some s') {n : Nat} {p : Part} (hp : s.parts[n]? = some p) : ∃ p', s'.parts[n]? = some p' ∧
    ((∃ l : List ID, p'.kad = { p.kad with threads := p.kad.threads ++ l.map fun e => ⟨e, .update⟩ }) ∨ ∃ b, a = .kad n b ∧ Kad.step p.kad b = some p'.kad) := by
  have none_ : ∀ k : Kad.State, k = { k with threads := k.threads ++ ([] : List ID).map fun e => ⟨e, .update⟩ } := by intro k; simp
  have go : ∀ {s1 : State ε} {b : Net.Action ε} {p1 : Part}, s1.go c b = some s' → s1.parts[n]? = some p1 → ∃ p', s'.parts[n]? = some p' ∧ ∃ l : List ID, p'.kad = { p1.kad with threads := p1.kad.threads ++ l.map fun e => ⟨e, .update⟩ } := by
    intro s1 b p1 h1 h2
    rw [(go_some h1).2, List.getElem?_mapIdx, h2]
    refine ⟨_, rfl, ?_⟩
    simp only [called]
    split
    · exact ⟨_, rfl⟩
    · exact ⟨[], none_ _⟩
  have set : ∀ {m : Nat} {p1 p2 : Part}, s.parts[m]? = some p1 → p2.kad = p1.kad → ∃ p', (s.parts.set m p2)[n]? = some p' ∧ p'.kad = p.kad := by
    intro m p1 p2 h1 h2
    by_cases hm : m = n
    · subst hm
      rw [hp] at h1; cases h1
      exact ⟨p2, List.getElem?_set_self (List.getElem?_eq_some_iff.1 hp).1, h2⟩
    · exact ⟨p, by rw [List.getElem?_set_ne hm]; exact hp, rfl⟩
  have same : ∀ {m : Nat} {p1 p2 : Part}, s.parts[m]? = some p1 → p2.kad = p1.kad → ∃ p', (s.parts.set m p2)[n]? = some p' ∧ ∃ l : List ID, p'.kad = { p.kad with threads := p.kad.threads ++ l.map fun e => ⟨e, .update⟩ } := by
    intro m p1 p2 h1 h2
    obtain ⟨p', h3, h4⟩ := set h1 h2
    exact ⟨p', h3, [], by rw [h4]; exact none_ _⟩
  cases a with
  | net b =>
    simp only [step] at hs
    split at hs
    · cases hs
    obtain ⟨p', h1, h2⟩ := go hs hp
    exact ⟨p', h1, .inl h2⟩
  | leave m w r =>
    simp only [step] at hs
    (repeat' split at hs) <;> first | (cases hs; done) | (obtain ⟨p', h1, h2⟩ := go hs hp; exact ⟨p', h1, .inl h2⟩)
  | kad m b =>
    obtain ⟨x, p0, p1, hx, hp0, hf, rfl⟩ := with_some hs
    obtain ⟨k, hk, rfl⟩ := Option.map_eq_some_iff.1 hf
    by_cases hm : m = n
    · subst hm
      rw [hp] at hp0; cases hp0
      exact ⟨_, List.getElem?_set_self (List.getElem?_eq_some_iff.1 hp).1, .inr ⟨b, rfl, hk⟩⟩
    · exact ⟨p, by show (s.parts.set m _)[n]? = _; rw [List.getElem?_set_ne hm]; exact hp, .inl ⟨[], none_ _⟩⟩
  | find m target lookups requests max =>
    obtain ⟨x, p0, p1, hx, hp0, hf, rfl⟩ := with_some hs
    have hr : p1.kad = p0.kad := by
      (repeat' split at hf) <;> first | (cases hf; done) | (cases hf; rfl)
    obtain ⟨p', h1, h2⟩ := same hp0 hr
    exact ⟨p', h1, .inl h2⟩
  | it m f b =>
    obtain ⟨x, p0, p1, hx, hp0, hf, rfl⟩ := with_some hs
    have hr : p1.kad = p0.kad := by
      (repeat' split at hf) <;> first | (cases hf; done) | (obtain ⟨pc, h1, rfl⟩ := Option.map_eq_some_iff.1 hf; rfl)
    obtain ⟨p', h1, h2⟩ := same hp0 hr
    exact ⟨p', h1, .inl h2⟩
  | answer m f i j who =>
    obtain ⟨x, p0, p1, hx, hp0, hf, rfl⟩ := with_some hs
    have hr : p1.kad = p0.kad := by
      (repeat' split at hf) <;> first | (cases hf; done) | (obtain ⟨pc, h1, rfl⟩ := Option.map_eq_some_iff.1 hf; rfl)
    obtain ⟨p', h1, h2⟩ := same hp0 hr
    exact ⟨p', h1, .inl h2⟩
  | handle m w =>
    obtain ⟨x, p0, p1, hx, hp0, hf, rfl⟩ := with_some hs
    have hr : p1.kad = p0.kad := by
      (repeat' split at hf) <;> first | (cases hf; done) | (obtain ⟨pc, h1, rfl⟩ := Option.map_eq_some_iff.1 hf; rfl)
    obtain ⟨p', h1, h2⟩ := same hp0 hr
    exact ⟨p', h1, .inl h2⟩
  | reply m w =>
    simp only [step] at hs
    split at hs
    swap
    · cases hs
    rename_i x p0 hx hp0
    split at hs
    swap
    · cases hs
    rename_i k it hinv
    split at hs
    swap
    · cases hs
    obtain ⟨p1, h1, h2⟩ := set hp0 (p2 := { p0 with runs := p0.runs.map fun r => if r.item = k then ⟨k, .replied⟩ else r }) rfl
    obtain ⟨p', h3, l, h4⟩ := go hs h1
    exact ⟨p', h3, .inl ⟨l, by rw [h4, h2]⟩⟩
  | ask m f i j =>
    simp only [step] at hs
    split at hs
    swap
    · cases hs
    rename_i x p0 hx hp0
    split at hs
    swap
    · cases hs
    rename_i q hq
    split at hs
    swap
    · cases hs
    split at hs
    swap
    · cases hs
    rename_i it hit
    obtain ⟨p1, h1, h2⟩ := set hp0 (p2 := { p0 with finds := p0.finds.set f { q with it := it, asks := q.asks ++ [⟨i, j, x.calls.length⟩] } }) rfl
    obtain ⟨p', h3, l, h4⟩ := go hs h1
    exact ⟨p', h3, .inl ⟨l, by rw [h4, h2]⟩⟩

/-- A node in a step of the network. -/
theorem step_node {S : Sorter} {c : Cfg ε} {s s' : State ε} {a : Action ε} (hs : step S c s a = some s') {n : Nat} {x : Node.State ε} (hx : s.net.nodes[n]? = some x) :
    ∃ x', s'.net.nodes[n]? = some x' ∧ (x' = x ∨ ∃ act, Node.step (c.node n) x act = some x') := by
  rcases step_net hs with h | ⟨b, h⟩
  · exact ⟨x, by rw [h]; exact hx, .inl rfl⟩
  · obtain ⟨x', h1, ⟨h2, -⟩ | ⟨act, -, h2⟩⟩ := Net.node_step h hx
    · exact ⟨x', h1, .inl h2⟩
    · exact ⟨x', h1, .inr ⟨act, h2⟩⟩

/-- Calls on a node stay. -/
theorem step_call {S : Sorter} {c : Cfg ε} {N : Nat} {s s' : State ε} {a : Action ε} (hr : Reachable S c N s) (hs : step S c s a = some s') {n k : Nat} {x : Node.State ε} {d : Node.Call ε} (hx : s.net.nodes[n]? = some x) (hd : x.calls[k]? = some d) :
    ∃ x' d', s'.net.nodes[n]? = some x' ∧ x'.calls[k]? = some d' ∧ d'.kind = d.kind ∧ d'.addr = d.addr ∧ ∀ r, d.pc = .returned r → d'.pc = .returned r := by
  obtain ⟨x', h1, rfl | ⟨act, h2⟩⟩ := step_node hs hx
  · exact ⟨_, d, h1, hd, rfl, rfl, fun _ h => h⟩
  · obtain ⟨d', g1, g2, g3, g4⟩ := Node.call_keeps ((Net.Inv.reach (net_reach hr).1).nodes n x hx) h2 hd
    exact ⟨x', d', h1, g1, g2, g3, g4.returned⟩

end Noise.KWire

namespace Noise.KPing
open Spec
variable {ε : Type}

/-- The step of the network in a step. -/
theorem step_kw {S : Sorter} {c : KWire.Cfg ε} {s s' : State ε} {a : Action ε} (hs : step S c s a = some s') :
    (∃ b, a = .kw b ∧ decided b = false ∧ KWire.step S c s.kw b = some s'.kw ∧ s'.waits = s.waits ∧ s'.reported = s.reported) ∨
    (∃ n i x p id e, a = .ping n i ∧ s.kw.net.nodes[n]? = some x ∧ s.kw.parts[n]? = some p ∧ p.kad.threads[i]? = some ⟨id, .ping e⟩ ∧ (∀ w ∈ s.waits, ¬ (w.node = n ∧ w.thread = i)) ∧
      KWire.step S c s.kw (.net (.node n (.call (.request (request c.ops)) e.address))) = some s'.kw ∧ s'.waits = s.waits ++ [⟨n, i, x.calls.length⟩] ∧ s'.reported = s.reported) ∨
    (∃ n i w x d r, a = .pinged n i ∧ w ∈ s.waits ∧ w.node = n ∧ w.thread = i ∧ s.kw.net.nodes[n]? = some x ∧ x.calls[w.call]? = some d ∧ d.pc = .returned r ∧ KWire.step S c s.kw (.kad n (.pinged i (isPong c.ops r))) = some s'.kw ∧
      s'.waits = s.waits.filter (fun w => ¬ (w.node = n ∧ w.thread = i)) ∧ s'.reported = s.reported) ∨
    ∃ n k x d, a = .failed n k ∧ s.kw.net.nodes[n]? = some x ∧ x.calls[k]? = some d ∧ d.pc = .returned .dialFailed ∧ KWire.step S c s.kw (.kad n (.pingFailed d.addr)) = some s'.kw ∧ s'.waits = s.waits := by
  cases a with
  | kw b =>
    simp only [step] at hs
    split at hs
    · cases hs
    rename_i hd
    obtain ⟨k, h1, rfl⟩ := Option.map_eq_some_iff.1 hs
    exact .inl ⟨b, rfl, by simpa using hd, h1, rfl, rfl⟩
  | ping n i =>
    simp only [step] at hs
    split at hs
    swap
    · cases hs
    rename_i x p hx hp
    split at hs
    swap
    · cases hs
    rename_i id e hth
    split at hs
    · cases hs
    rename_i hany
    obtain ⟨k, h1, rfl⟩ := Option.map_eq_some_iff.1 hs
    refine .inr (.inl ⟨n, i, x, p, id, e, rfl, hx, hp, hth, fun w hw hc => hany (List.any_eq_true.2 ⟨w, hw, by simpa using hc⟩), h1, rfl, rfl⟩)
  | pinged n i =>
    simp only [step] at hs
    split at hs
    swap
    · cases hs
    rename_i w x hw hx
    split at hs
    swap
    · cases hs
    rename_i d hd
    split at hs
    swap
    · cases hs
    rename_i r hr
    obtain ⟨k, h1, rfl⟩ := Option.map_eq_some_iff.1 hs
    have := List.find?_some hw
    simp only [decide_eq_true_eq] at this
    exact .inr (.inr (.inl ⟨n, i, w, x, d, r, rfl, List.mem_of_find?_eq_some hw, this.1, this.2, hx, hd, hr, h1, rfl, rfl⟩))
  | failed n k =>
    simp only [step] at hs
    split at hs
    swap
    · cases hs
    rename_i x hx
    split at hs
    swap
    · cases hs
    rename_i d hd
    split at hs
    swap
    · cases hs
    rename_i hpc
    split at hs
    · cases hs
    obtain ⟨y, h1, rfl⟩ := Option.map_eq_some_iff.1 hs
    exact .inr (.inr (.inr ⟨n, k, x, d, rfl, hx, hd, hpc, h1, rfl⟩))

/-- One of the steps of the network. -/
theorem step_some {S : Sorter} {c : KWire.Cfg ε} {s s' : State ε} {a : Action ε} (hs : step S c s a = some s') : ∃ b, KWire.step S c s.kw b = some s'.kw := by
  rcases step_kw hs with ⟨b, -, -, h, -⟩ | ⟨n, i, x, p, id, e, -, -, -, -, -, h, -⟩ | ⟨n, i, w, x, d, r, -, -, -, -, -, -, -, h, -⟩ | ⟨n, k, x, d, -, -, -, -, h, -⟩ <;> exact ⟨_, h⟩

theorem reach_kw {S : Sorter} {c : KWire.Cfg ε} {N : Nat} {s : State ε} (h : Reachable S c N s) : KWire.Reachable S c N s.kw := by
  obtain ⟨s0, h0, as, hr⟩ := h
  refine ⟨s0.kw, h0.1, ?_⟩
  refine runs_inv (P := fun s => ReachFrom (KWire.step S c) s0.kw s.kw) ?_ hr ⟨[], rfl⟩
  rintro s1 a s2 ⟨bs, hb⟩ hs
  obtain ⟨b, h⟩ := step_some hs
  exact ⟨bs ++ [b], runs_trans hb (runs_one h)⟩

/-- Why a thread is where it is. -/
def Why (c : KWire.Cfg ε) (s : KWire.State ε) (n : Nat) : Kad.Pc → Prop
  | .delete e => PingFailed c s n e.address
  | .deleteAddress a => DialFailed s n a
  | _ => True

/-- The pings that are under way are those of threads that wait for them; and peers are removed for a reason. -/
structure Inv (c : KWire.Cfg ε) (s : State ε) : Prop where
  waits : ∀ w ∈ s.waits, ∃ x p id e d, s.kw.net.nodes[w.node]? = some x ∧ s.kw.parts[w.node]? = some p ∧ p.kad.threads[w.thread]? = some ⟨id, .ping e⟩ ∧ x.calls[w.call]? = some d ∧ d.addr = e.address ∧ d.kind = .request (request c.ops)
  why : ∀ (n : Nat) (p : KWire.Part) th, s.kw.parts[n]? = some p → th ∈ p.kad.threads → Why c s.kw n th.pc

theorem failed_mono {S : Sorter} {c : KWire.Cfg ε} {N : Nat} {s s' : KWire.State ε} {a : KWire.Action ε} (hr : KWire.Reachable S c N s) (hs : KWire.step S c s a = some s') {n : Nat} {addr : Text} :
    (PingFailed c s n addr → PingFailed c s' n addr) ∧ (DialFailed s n addr → DialFailed s' n addr) := by
  constructor
  · rintro ⟨x, d, r, h1, h2, h3, h4, h5, h6⟩
    obtain ⟨k, hk⟩ := List.mem_iff_getElem?.1 h2
    obtain ⟨x', d', g1, g2, g3, g4, g5⟩ := KWire.step_call hr hs h1 hk
    exact ⟨x', d', r, g1, List.mem_of_getElem? g2, g4.trans h3, g3.trans h4, g5 r h5, h6⟩
  · rintro ⟨x, d, h1, h2, h3, h4⟩
    obtain ⟨k, hk⟩ := List.mem_iff_getElem?.1 h2
    obtain ⟨x', d', g1, g2, g3, g4, g5⟩ := KWire.step_call hr hs h1 hk
    exact ⟨x', d', g1, List.mem_of_getElem? g2, g4.trans h3, g5 _ h4⟩

theorem Why.mono {S : Sorter} {c : KWire.Cfg ε} {N : Nat} {s s' : KWire.State ε} {a : KWire.Action ε} (hr : KWire.Reachable S c N s) (hs : KWire.step S c s a = some s') {n : Nat} {pc : Kad.Pc} (h : Why c s n pc) : Why c s' n pc := by
  cases pc with
  | delete e => exact (failed_mono hr hs).1 h
  | deleteAddress a => exact (failed_mono hr hs).2 h
  | _ => trivial

/-- A thread in a step of kademlia. -/
theorem kad_thread {k k' : Kad.State} {b : Kad.Action} (hs : Kad.step k b = some k') :
    (∀ (i : Nat) th, k.threads[i]? = some th → (∃ x, th.pc = .ping x) → (∀ g, b ≠ .pinged i g) → k'.threads[i]? = some th) ∧
    ∀ th ∈ k'.threads, th ∈ k.threads ∨ (∀ e, th.pc ≠ .delete e) ∧ (∀ a, th.pc ≠ .deleteAddress a) ∨ (∃ i id e, b = .pinged i false ∧ k.threads[i]? = some ⟨id, .ping e⟩ ∧ th.pc = .delete e) ∨ ∃ a, b = .pingFailed a ∧ th.pc = .deleteAddress a := by
  have set : ∀ (l : List Kad.Thread) (i : Nat) (th : Kad.Thread), ∀ y ∈ l.set i th, y ∈ l ∨ y = th := fun l i th y hy => List.mem_or_eq_of_mem_set hy
  unfold Kad.step at hs
  split at hs
  · cases hs
  cases b with
  | ack e =>
    cases hs
    refine ⟨fun i th h _ _ => by simp only; rw [List.getElem?_append_left (List.getElem?_eq_some_iff.1 h).1]; exact h, fun th h => ?_⟩
    rcases List.mem_append.1 h with h | h
    · exact .inl h
    · rw [List.mem_singleton.1 h]; exact .inr (.inl ⟨by simp, by simp⟩)
  | pingFailed a =>
    cases hs
    refine ⟨fun i th h _ _ => by simp only; rw [List.getElem?_append_left (List.getElem?_eq_some_iff.1 h).1]; exact h, fun th h => ?_⟩
    rcases List.mem_append.1 h with h | h
    · exact .inl h
    · rw [List.mem_singleton.1 h]; exact .inr (.inr (.inr ⟨a, rfl, rfl⟩))
  | table op => cases hs; exact ⟨fun i th h _ _ => h, fun th h => .inl h⟩
  | pinged j g =>
    simp only at hs
    split at hs
    swap
    · cases hs
    rename_i id x hj
    cases hs
    refine ⟨fun i th h _ hne => ?_, fun th h => ?_⟩
    · have : j ≠ i := fun e => hne g (by rw [e])
      simp only [Kad.State.set]
      rw [List.getElem?_set_ne this]; exact h
    · rcases set _ _ _ th h with h | rfl
      · exact .inl h
      · cases g with
        | true => exact .inr (.inl ⟨by simp, by simp⟩)
        | false => exact .inr (.inr (.inl ⟨j, id, x, rfl, hj, rfl⟩))
  | step j =>
    simp only at hs
    split at hs
    swap
    · cases hs
    rename_i id pc hj
    have key : (∀ x, pc ≠ .ping x) ∧ ((k'.threads = k.threads) ∨ ∃ pc', k'.threads = k.threads.set j ⟨id, pc'⟩ ∧ (∀ e, pc' ≠ .delete e) ∧ ∀ a, pc' ≠ .deleteAddress a) := by
      cases pc with
      | update =>
        refine ⟨by simp, ?_⟩
        simp only [Kad.threadStep] at hs
        split at hs <;> cases hs <;> exact .inr ⟨_, rfl, by simp, by simp⟩
      | last =>
        refine ⟨by simp, ?_⟩
        simp only [Kad.threadStep] at hs
        split at hs
        · cases hs; exact .inr ⟨_, rfl, by simp, by simp⟩
        · cases hs; exact .inl rfl
      | ping x => simp [Kad.threadStep] at hs
      | delete x =>
        refine ⟨by simp, ?_⟩
        simp only [Kad.threadStep] at hs
        split at hs <;> cases hs <;> exact .inr ⟨_, rfl, by simp, by simp⟩
      | emit ev again =>
        refine ⟨by simp, ?_⟩
        simp only [Kad.threadStep] at hs
        cases hs
        refine .inr ⟨_, rfl, ?_, ?_⟩ <;> (cases again <;> simp)
      | deleteAddress a =>
        refine ⟨by simp, ?_⟩
        simp only [Kad.threadStep] at hs
        split at hs <;> cases hs <;> exact .inr ⟨_, rfl, by simp, by simp⟩
      | done => simp [Kad.threadStep] at hs
    obtain ⟨hnp, h1 | ⟨pc', h1, h2, h3⟩⟩ := key
    · exact ⟨fun i th h _ _ => by rw [h1]; exact h, fun th h => .inl (by rw [← h1]; exact h)⟩
    · refine ⟨fun i th h hpx _ => ?_, fun th h => ?_⟩
      · have : j ≠ i := by
          rintro rfl
          rw [hj] at h; cases h
          obtain ⟨x, hx⟩ := hpx
          exact hnp x hx
        rw [h1, List.getElem?_set_ne this]; exact h
      · rw [h1] at h
        rcases set _ _ _ th h with h | rfl
        · exact .inl h
        · exact .inr (.inl ⟨h2, h3⟩)

theorem isPong_of {o : Kad.Opcodes} {r : Node.Result} (h : Pong o r) : isPong o r = true := by
  obtain ⟨m, rfl, h⟩ := h
  have hl : 2 ≤ m.data.length := by
    have := congrArg List.length h
    rw [List.length_take, put16_length] at this
    omega
  have hg : get16 (m.data.take 2) = .ok o.pong := by
    rw [h]
    simpa using get16_put16 o.pong []
  simp only [isPong, decide_eq_true_eq]
  exact ⟨hl, hg⟩

/-- What is in the queue of kademlia's threads after a step. -/
theorem threads_step {S : Sorter} {c : KWire.Cfg ε} {s s' : KWire.State ε} {a : KWire.Action ε} (hs : KWire.step S c s a = some s') {n i : Nat} {p : KWire.Part} {th : Kad.Thread} (hp : s.parts[n]? = some p) (hth : p.kad.threads[i]? = some th)
    (hpx : ∃ x, th.pc = .ping x) (hne : ∀ g, a ≠ .kad n (.pinged i g)) : ∃ p', s'.parts[n]? = some p' ∧ p'.kad.threads[i]? = some th := by
  obtain ⟨p', h1, ⟨l, h2⟩ | ⟨b, rfl, h2⟩⟩ := KWire.step_kad hs hp
  · refine ⟨p', h1, ?_⟩
    rw [h2]
    simp only
    rw [List.getElem?_append_left (List.getElem?_eq_some_iff.1 hth).1]; exact hth
  · exact ⟨p', h1, (kad_thread h2).1 i th hth hpx fun g e => hne g (by rw [e])⟩

theorem Inv.step {S : Sorter} {c : KWire.Cfg ε} {N : Nat} {s s' : State ε} {a : Action ε} (h : Inv c s) (hr : KWire.Reachable S c N s.kw) (hs : KPing.step S c s a = some s') : Inv c s' := by
  -- a ping under way, in a step of the network
  have keep : ∀ {b : KWire.Action ε} {w : Wait}, KWire.step S c s.kw b = some s'.kw → w ∈ s.waits → (∀ g, b ≠ .kad w.node (.pinged w.thread g)) →
      ∃ x p id e d, s'.kw.net.nodes[w.node]? = some x ∧ s'.kw.parts[w.node]? = some p ∧ p.kad.threads[w.thread]? = some ⟨id, .ping e⟩ ∧ x.calls[w.call]? = some d ∧ d.addr = e.address ∧ d.kind = .request (request c.ops) := by
    intro b w hb hw hne
    obtain ⟨x, p, id, e, d, h1, h2, h3, h4, h5, h6⟩ := h.waits w hw
    obtain ⟨x', d', g1, g2, g3, g4, -⟩ := KWire.step_call hr hb h1 h4
    obtain ⟨p', k1, k2⟩ := threads_step hb h2 h3 ⟨e, rfl⟩ hne
    exact ⟨x', p', id, e, d', g1, k1, k2, g2, g4.trans h5, g3.trans h6⟩
  -- the reasons
  have why : ∀ {b : KWire.Action ε}, KWire.step S c s.kw b = some s'.kw → (∀ n i p id e, b = .kad n (.pinged i false) → s.kw.parts[n]? = some p → p.kad.threads[i]? = some ⟨id, .ping e⟩ → PingFailed c s.kw n e.address) →
      (∀ n a, b = .kad n (.pingFailed a) → DialFailed s.kw n a) → ∀ (n : Nat) (p : KWire.Part) th, s'.kw.parts[n]? = some p → th ∈ p.kad.threads → Why c s'.kw n th.pc := by
    intro b hb h1 h2 n p' th hp' hth
    obtain ⟨p, hp⟩ : ∃ p, s.kw.parts[n]? = some p := ⟨_, List.getElem?_eq_getElem (by rw [← KWire.step_length hb]; exact (List.getElem?_eq_some_iff.1 hp').1)⟩
    obtain ⟨p1, g1, g2⟩ := KWire.step_kad hb hp
    rw [hp'] at g1; cases g1
    rcases g2 with ⟨l, g2⟩ | ⟨act, rfl, g2⟩
    · rw [g2] at hth
      rcases List.mem_append.1 hth with hth | hth
      · exact (h.why n p th hp hth).mono hr hb
      · obtain ⟨e, -, rfl⟩ := List.mem_map.1 hth
        trivial
    · rcases (kad_thread g2).2 th hth with k | ⟨k1, k2⟩ | ⟨i, id, e, rfl, k1, k2⟩ | ⟨addr, rfl, k⟩
      · exact (h.why n p th hp k).mono hr hb
      · cases hpc : th.pc with
        | delete e => exact absurd hpc (k1 e)
        | deleteAddress a => exact absurd hpc (k2 a)
        | _ => trivial
      · rw [k2]
        exact (failed_mono hr hb).1 (h1 n i p id e rfl hp k1)
      · rw [k]
        exact (failed_mono hr hb).2 (h2 n addr rfl)
  rcases step_kw hs with ⟨b, rfl, hd, hb, e1, -⟩ | ⟨n, i, x, p, id, e, rfl, hx, hp, hth, hno, hb, e1, -⟩ | ⟨n, i, w, x, d, r, rfl, hw, rfl, rfl, hx, hd, hpc, hb, e1, -⟩ | ⟨n, k, x, d, rfl, hx, hd, hpc, hb, e1⟩
  · refine ⟨fun w hw => keep hb (e1 ▸ hw) (by rintro g rfl; cases hd), why hb (by rintro n i p id e rfl; cases hd) (by rintro n a rfl; cases hd)⟩
  · refine ⟨fun w hw => ?_, why hb (by simp) (by simp)⟩
    rw [e1] at hw
    rcases List.mem_append.1 hw with hw | hw
    · exact keep hb hw (by simp)
    · rw [List.mem_singleton.1 hw]
      obtain ⟨p', k1, k2⟩ := threads_step hb hp hth ⟨e, rfl⟩ (by simp)
      have hn : Net.step c.node s.kw.net (.node n (.call (.request (request c.ops)) e.address)) = some s'.kw.net := by
        simp only [KWire.step] at hb
        split at hb
        · cases hb
        · exact (KWire.go_some hb).1
      simp only [Net.step, hx] at hn
      obtain ⟨x', g1, g2⟩ := Option.map_eq_some_iff.1 hn
      have hx' : s'.kw.net.nodes[n]? = some x' := by
        rw [← g2]
        exact List.getElem?_set_self (List.getElem?_eq_some_iff.1 hx).1
      have : ∃ d, x'.calls[x.calls.length]? = some d ∧ d.addr = e.address ∧ d.kind = .request (request c.ops) := by
        unfold Node.step at g1
        split at g1
        · cases g1
        · cases g1
          exact ⟨_, List.getElem?_concat_length, rfl, rfl⟩
      obtain ⟨d, d1, d2, d3⟩ := this
      exact ⟨x', p', id, e, d, hx', k1, k2, d1, d2, d3⟩
  · refine ⟨fun w' hw' => ?_, why hb ?_ (by simp)⟩
    · rw [e1] at hw'
      obtain ⟨h1, h2⟩ := List.mem_filter.1 hw'
      simp only [decide_eq_true_eq] at h2
      exact keep hb h1 (by
        intro g e
        simp only [KWire.Action.kad.injEq, Kad.Action.pinged.injEq] at e
        exact h2 ⟨e.1.symm, e.2.1.symm⟩)
    · rintro n i p id e hact hp hth
      simp only [KWire.Action.kad.injEq, Kad.Action.pinged.injEq] at hact
      obtain ⟨rfl, rfl, hpong⟩ := hact
      obtain ⟨x1, p1, id1, e2, d1, h1, h2, h3, h4, h5, h6⟩ := h.waits w hw
      rw [hx] at h1; cases h1
      rw [hp] at h2; cases h2
      rw [hth] at h3; cases h3
      rw [hd] at h4; cases h4
      refine ⟨x, d, r, hx, List.mem_of_getElem? hd, h5, ?_, hpc, fun hP => ?_⟩
      · rw [h6]; simp [request, Query.bytes, marshalPing]
      · rw [isPong_of hP] at hpong; cases hpong
  · refine ⟨fun w hw => keep hb (e1 ▸ hw) (by simp), why hb (by simp) ?_⟩
    rintro n' a hact
    simp only [KWire.Action.kad.injEq, Kad.Action.pingFailed.injEq] at hact
    obtain ⟨rfl, rfl⟩ := hact
    exact ⟨x, d, hx, List.mem_of_getElem? hd, rfl, hpc⟩

theorem Inv.reach {S : Sorter} {c : KWire.Cfg ε} {N : Nat} {s : State ε} (h : Reachable S c N s) : Inv c s := by
  obtain ⟨s0, h0, as, hr⟩ := h
  have key : Inv c s ∧ KWire.Reachable S c N s.kw := by
    refine runs_inv (P := fun s => Inv c s ∧ KWire.Reachable S c N s.kw) ?_ hr ⟨⟨?_, ?_⟩, ⟨s0.kw, h0.1, [], rfl⟩⟩
    · rintro s1 a s2 ⟨h1, h2⟩ hs
      obtain ⟨b, hb⟩ := step_some hs
      obtain ⟨k0, g1, bs, g2⟩ := h2
      exact ⟨h1.step ⟨k0, g1, bs, g2⟩ hs, k0, g1, bs ++ [b], runs_trans g2 (runs_one hb)⟩
    · rw [h0.2.1]; simp
    · obtain ⟨ts, -, -, h1⟩ := h0.1
      intro n p th hp hth
      rw [h1] at hp
      simp only [List.getElem?_map] at hp
      obtain ⟨t, -, rfl⟩ := Option.map_eq_some_iff.1 hp
      simp [KWire.Part.new, Kad.State.new] at hth
  exact key.1

/-- Threads that ping somebody have found them in the table. -/
theorem kad_ping {k k' : Kad.State} {b : Kad.Action} (hs : Kad.step k b = some k') {th : Kad.Thread} (hth : th ∈ k'.threads) {e : ID} (hpc : th.pc = .ping e) : th ∈ k.threads ∨ e ∈ k.table.all := by
  unfold Kad.step at hs
  split at hs
  · cases hs
  cases b with
  | ack x =>
    cases hs
    rcases List.mem_append.1 hth with h | h
    · exact .inl h
    · rw [List.mem_singleton.1 h] at hpc; cases hpc
  | pingFailed a =>
    cases hs
    rcases List.mem_append.1 hth with h | h
    · exact .inl h
    · rw [List.mem_singleton.1 h] at hpc; cases hpc
  | table op => cases hs; exact .inl hth
  | pinged j g =>
    simp only at hs
    split at hs
    swap
    · cases hs
    cases hs
    rcases List.mem_or_eq_of_mem_set hth with h | rfl
    · exact .inl h
    · cases g <;> cases hpc
  | step j =>
    simp only at hs
    split at hs
    swap
    · cases hs
    rename_i id pc hj
    have key : ∀ {k1 : Kad.State} {pc' : Kad.Pc}, k'.threads = k1.threads.set j ⟨id, pc'⟩ → k1.threads = k.threads → pc' ≠ .ping e → th ∈ k.threads ∨ e ∈ k.table.all := by
      intro k1 pc' h1 h2 h3
      rw [h1, h2] at hth
      rcases List.mem_or_eq_of_mem_set hth with h | rfl
      · exact .inl h
      · exact absurd hpc h3
    cases pc with
    | update =>
      simp only [Kad.threadStep] at hs
      split at hs <;> cases hs <;> exact key rfl rfl (by simp)
    | last =>
      simp only [Kad.threadStep] at hs
      split at hs
      · rename_i x hl
        cases hs
        rcases List.mem_or_eq_of_mem_set hth with h | rfl
        · exact .inl h
        · cases hpc; exact .inr (KadEnd.last_mem hl)
      · cases hs; exact .inl hth
    | ping x => simp [Kad.threadStep] at hs
    | delete x =>
      simp only [Kad.threadStep] at hs
      split at hs <;> cases hs <;> exact key rfl rfl (by simp)
    | emit ev again =>
      simp only [Kad.threadStep] at hs
      cases hs
      exact key rfl rfl (by cases again <;> simp)
    | deleteAddress a =>
      simp only [Kad.threadStep] at hs
      split at hs <;> cases hs <;> exact key rfl rfl (by simp)
    | done => simp [Kad.threadStep] at hs

theorem delete_gone (t : Table) (k : PublicKey) {e : ID} (h : e ∈ t.all) (h' : e ∉ (t.delete k).1.all) : e.id = k := by
  rcases Table.delete_cases t k with ⟨h1, -⟩ | ⟨x, pre, post, h1, rfl, h2⟩
  · rw [h1] at h'; exact absurd h h'
  · rw [h2] at h'
    rcases List.mem_cons.1 ((Table.perm_remove (Table.bucketIndex_lt t x.id) h1).mem_iff.1 h) with rfl | h3
    · rfl
    · exact absurd h3 h'

theorem deleteByAddress_gone (t : Table) (a : Text) {e : ID} (h : e ∈ t.all) (h' : e ∉ (t.deleteByAddress a).1.all) : e.address = a := by
  rcases Table.deleteByAddress_cases t a with ⟨h1, -⟩ | ⟨j, x, pre, post, hj, h1, rfl, h2⟩
  · rw [h1] at h'; exact absurd h h'
  · rw [h2] at h'
    rcases List.mem_cons.1 ((Table.perm_remove hj h1).mem_iff.1 h) with rfl | h3
    · rfl
    · exact absurd h3 h'

theorem update_keeps (t : Table) (x : ID) {e : ID} (h : e ∈ t.all) : e ∈ (t.update x).1.all := by
  rcases KadEnd.length_update t x with ⟨-, h1⟩ | ⟨-, h1⟩
  · exact h1.mem_iff.2 (List.mem_cons_of_mem _ h)
  · exact h1.mem_iff.2 h

/-- Who takes an identity out of the table. -/
theorem kad_removes {k k' : Kad.State} {b : Kad.Action} (hs : Kad.step k b = some k') {e : ID} (he : e ∈ k.table.all) (he' : e ∉ k'.table.all) :
    b = .table (.delete e.id) ∨ b = .table (.deleteByAddress e.address) ∨ ∃ th ∈ k.threads, (∃ x, th.pc = .delete x ∧ x.id = e.id) ∨ th.pc = .deleteAddress e.address := by
  unfold Kad.step at hs
  split at hs
  · cases hs
  cases b with
  | ack x => cases hs; exact absurd he he'
  | pingFailed a => cases hs; exact absurd he he'
  | table op =>
    cases hs
    cases op with
    | update x => exact absurd (update_keeps _ _ he) he'
    | delete x => rw [delete_gone _ _ he he']; exact .inl rfl
    | deleteByAddress a => rw [deleteByAddress_gone _ _ he he']; exact .inr (.inl rfl)
  | pinged j g =>
    simp only at hs
    split at hs
    · cases hs; exact absurd he he'
    · cases hs
  | step j =>
    simp only at hs
    split at hs
    swap
    · cases hs
    rename_i id pc hj
    refine .inr (.inr ⟨_, List.mem_of_getElem? hj, ?_⟩)
    cases pc with
    | update =>
      exfalso
      have := update_keeps k.table id he
      simp only [Kad.threadStep] at hs
      split at hs <;> (rename_i hu; cases hs; rw [hu] at this; exact he' this)
    | last =>
      exfalso
      simp only [Kad.threadStep] at hs
      split at hs <;> (cases hs; exact he' he)
    | ping x => simp [Kad.threadStep] at hs
    | delete x =>
      refine .inl ⟨x, rfl, ?_⟩
      simp only [Kad.threadStep] at hs
      refine (delete_gone k.table x.id he ?_).symm
      split at hs <;> (rename_i hu; cases hs; rw [hu]; exact he')
    | emit ev again =>
      exfalso
      simp only [Kad.threadStep] at hs
      cases hs; exact he' he
    | deleteAddress a =>
      refine .inr ?_
      simp only [Kad.threadStep] at hs
      have : e.address = a := by
        refine deleteByAddress_gone k.table a he ?_
        split at hs <;> (rename_i hu; cases hs; rw [hu]; exact he')
      rw [this]
    | done => simp [Kad.threadStep] at hs

section
variable {S : Sorter} {c : KWire.Cfg ε} {N : Nat} {σ : Nat → State ε} {α : Nat → Option (Action ε)}

theorem exec_reach (hx : Execution (step S c) σ α) (h0 : Start c N (σ 0)) (t : Nat) : Reachable S c N (σ t) := by
  induction t with
  | zero => exact ⟨_, h0, [], rfl⟩
  | succ t ih =>
    rcases hx t with ⟨-, h⟩ | ⟨a, -, h⟩
    · rw [h]; exact ih
    · obtain ⟨s0, g0, as, g⟩ := ih
      exact ⟨s0, g0, as ++ [a], runs_trans g (runs_one h)⟩

theorem calls_grow (hx : Execution (step S c) σ α) (h0 : Start c N (σ 0)) {u t n k : Nat} (hle : u ≤ t) {x : Node.State ε} {d : Node.Call ε} (hX : (σ u).kw.net.nodes[n]? = some x) (hd : x.calls[k]? = some d) :
    ∃ x' d', (σ t).kw.net.nodes[n]? = some x' ∧ x'.calls[k]? = some d' := by
  induction t, hle using Nat.le_induction with
  | base => exact ⟨x, d, hX, hd⟩
  | succ t hle ih =>
    obtain ⟨x1, d1, h1, h2⟩ := ih
    rcases hx t with ⟨-, h⟩ | ⟨a, -, h⟩
    · rw [h]; exact ⟨x1, d1, h1, h2⟩
    · obtain ⟨b, hb⟩ := step_some h
      obtain ⟨x2, d2, g1, g2, -⟩ := KWire.step_call (reach_kw (exec_reach hx h0 t)) hb h1 h2
      exact ⟨x2, d2, g1, g2⟩

/-- A call that does not exist at this time. -/
def NoCall (σ : Nat → State ε) (n u k : Nat) : Prop := ∃ x, (σ u).kw.net.nodes[n]? = some x ∧ x.calls[k]? = none

/-- The past of the pings that are under way, and of those that have failed. -/
structure Hist (c : KWire.Cfg ε) (σ : Nat → State ε) (t : Nat) : Prop where
  pings : ∀ (n : Nat) (p : KWire.Part) th e, (σ t).kw.parts[n]? = some p → th ∈ p.kad.threads → th.pc = .ping e → ∃ u, u ≤ t ∧ InTable σ n u e
  waits : ∀ w ∈ (σ t).waits, ∀ (p : KWire.Part) id e, (σ t).kw.parts[w.node]? = some p → p.kad.threads[w.thread]? = some ⟨id, .ping e⟩ → ∃ u, u ≤ t ∧ InTable σ w.node u e ∧ NoCall σ w.node u w.call
  deletes : ∀ (n : Nat) (p : KWire.Part) th e, (σ t).kw.parts[n]? = some p → th ∈ p.kad.threads → th.pc = .delete e → ∃ u, u ≤ t ∧ InTable σ n u e ∧ PingedInVain c σ n u t e.address

theorem vain_mono (hx : Execution (step S c) σ α) (h0 : Start c N (σ 0)) {n u t : Nat} {addr : Text} (h : PingedInVain c σ n u t addr) : PingedInVain c σ n u (t + 1) addr := by
  obtain ⟨x, x', k, d, r, h1, h2, h3, h4, h5, h6, h7, h8⟩ := h
  rcases hx t with ⟨-, e⟩ | ⟨a, -, e⟩
  · exact ⟨x, x', k, d, r, h1, h2, by rw [e]; exact h3, h4, h5, h6, h7, h8⟩
  · obtain ⟨b, hb⟩ := step_some e
    obtain ⟨x2, d2, g1, g2, g3, g4, g5⟩ := KWire.step_call (reach_kw (exec_reach hx h0 t)) hb h3 h4
    exact ⟨x, x2, k, d2, r, h1, h2, g1, g2, g4.trans h5, g3.trans h6, g5 r h7, h8⟩

theorem hist (hx : Execution (step S c) σ α) (h0 : Start c N (σ 0)) (t : Nat) : Hist c σ t := by
  induction t with
  | zero =>
    have hnew : ∀ (n : Nat) (p : KWire.Part), (σ 0).kw.parts[n]? = some p → p.kad.threads = [] := by
      obtain ⟨ts, -, -, h1⟩ := h0.1
      intro n p hp
      rw [h1] at hp
      simp only [List.getElem?_map] at hp
      obtain ⟨t, -, rfl⟩ := Option.map_eq_some_iff.1 hp
      rfl
    refine ⟨?_, ?_, ?_⟩
    · intro n p th e hp hth; rw [hnew n p hp] at hth; cases hth
    · rw [h0.2.1]; intro w hw; cases hw
    · intro n p th e hp hth; rw [hnew n p hp] at hth; cases hth
  | succ t ih =>
    rcases hx t with ⟨-, e⟩ | ⟨a, -, hs⟩
    · refine ⟨?_, ?_, ?_⟩
      · intro n p th x hp hth hpc
        rw [e] at hp
        obtain ⟨u, h1, h2⟩ := ih.pings n p th x hp hth hpc
        exact ⟨u, by omega, h2⟩
      · intro w hw p id x hp hth
        rw [e] at hp hw
        obtain ⟨u, h1, h2⟩ := ih.waits w hw p id x hp hth
        exact ⟨u, by omega, h2⟩
      · intro n p th x hp hth hpc
        rw [e] at hp
        obtain ⟨u, h1, h2, h3⟩ := ih.deletes n p th x hp hth hpc
        exact ⟨u, by omega, h2, vain_mono hx h0 h3⟩
    have hr := exec_reach hx h0 t
    have hi := Inv.reach hr
    obtain ⟨b0, hb0⟩ := step_some hs
    have back : ∀ {n : Nat} {p' : KWire.Part}, (σ (t + 1)).kw.parts[n]? = some p' → ∃ p, (σ t).kw.parts[n]? = some p := fun h =>
      ⟨_, List.getElem?_eq_getElem (by rw [← KWire.step_length hb0]; exact (List.getElem?_eq_some_iff.1 h).1)⟩
    have old : ∀ {b : KWire.Action ε} {w : Wait}, KWire.step S c (σ t).kw b = some (σ (t + 1)).kw → w ∈ (σ t).waits → (∀ g, b ≠ .kad w.node (.pinged w.thread g)) → ∀ (p : KWire.Part) id e, (σ (t + 1)).kw.parts[w.node]? = some p →
        p.kad.threads[w.thread]? = some ⟨id, .ping e⟩ → ∃ u, u ≤ t + 1 ∧ InTable σ w.node u e ∧ NoCall σ w.node u w.call := by
      intro b w hb hw hne p id e hp hth
      obtain ⟨x1, p1, id1, e1, d1, g1, g2, g3, -⟩ := hi.waits w hw
      obtain ⟨p2, k1, k2⟩ := threads_step hb g2 g3 ⟨e1, rfl⟩ hne
      rw [hp] at k1; cases k1
      rw [hth] at k2; cases k2
      obtain ⟨u, h1, h2⟩ := ih.waits w hw p1 _ _ g2 g3
      exact ⟨u, by omega, h2⟩
    refine ⟨?_, ?_, ?_⟩
    · intro n p' th e hp' hth hpc
      obtain ⟨p, hp⟩ := back hp'
      obtain ⟨p1, g1, g2⟩ := KWire.step_kad hb0 hp
      rw [hp'] at g1; cases g1
      have go : th ∈ p.kad.threads ∨ e ∈ p.kad.table.all := by
        rcases g2 with ⟨l, g2⟩ | ⟨act, -, g2⟩
        · rw [g2] at hth
          rcases List.mem_append.1 hth with h | h
          · exact .inl h
          · obtain ⟨y, -, rfl⟩ := List.mem_map.1 h; cases hpc
        · exact kad_ping g2 hth hpc
      rcases go with h | h
      · obtain ⟨u, h1, h2⟩ := ih.pings n p th e hp h hpc
        exact ⟨u, by omega, h2⟩
      · exact ⟨t, by omega, p, hp, h⟩
    · intro w hw p' id e hp' hth
      rcases step_kw hs with ⟨b, rfl, hd, hb, e1, -⟩ | ⟨n, i, x, p, id0, e0, rfl, hX, hp, hth0, hno, hb, e1, -⟩ | ⟨n, i, w0, x, d, r, rfl, hw0, rfl, rfl, hX, hd, hpc, hb, e1, -⟩ | ⟨n, k, x, d, rfl, hX, hd, hpc, hb, e1⟩
      · exact old hb (e1 ▸ hw) (by rintro g rfl; cases hd) p' id e hp' hth
      · rw [e1] at hw
        rcases List.mem_append.1 hw with hw | hw
        · exact old hb hw (by simp) p' id e hp' hth
        · rw [List.mem_singleton.1 hw] at hp' hth ⊢
          obtain ⟨p2, k1, k2⟩ := threads_step hb hp hth0 ⟨e0, rfl⟩ (by simp)
          simp only at hp' hth ⊢
          rw [hp'] at k1; cases k1
          rw [hth] at k2; cases k2
          obtain ⟨u, h1, h2⟩ := ih.pings n p _ e hp (List.mem_of_getElem? hth0) rfl
          have ⟨pu, hpu, _⟩ := h2
          obtain ⟨xu, hxu⟩ : ∃ xu, (σ u).kw.net.nodes[n]? = some xu := ⟨_, List.getElem?_eq_getElem (by
            rw [KWire.reach_len (reach_kw (exec_reach hx h0 u)), ← (KWire.net_reach (reach_kw (exec_reach hx h0 u))).2]
            exact (List.getElem?_eq_some_iff.1 hpu).1)⟩
          refine ⟨u, by omega, h2, xu, hxu, ?_⟩
          cases hc : xu.calls[x.calls.length]? with
          | none => rfl
          | some d =>
            obtain ⟨x', d', f1, f2⟩ := calls_grow hx h0 h1 hxu hc
            rw [hX] at f1; cases f1
            simp at f2
      · rw [e1] at hw
        obtain ⟨h1, h2⟩ := List.mem_filter.1 hw
        simp only [decide_eq_true_eq] at h2
        exact old hb h1 (by
          intro g e
          simp only [KWire.Action.kad.injEq, Kad.Action.pinged.injEq] at e
          exact h2 ⟨e.1.symm, e.2.1.symm⟩) p' id e hp' hth
      · exact old hb (e1 ▸ hw) (by simp) p' id e hp' hth
    · intro n p' th e hp' hth hpc
      obtain ⟨p, hp⟩ := back hp'
      have stays : th ∈ p.kad.threads → ∃ u, u ≤ t + 1 ∧ InTable σ n u e ∧ PingedInVain c σ n u (t + 1) e.address := by
        intro h
        obtain ⟨u, h1, h2, h3⟩ := ih.deletes n p th e hp h hpc
        exact ⟨u, by omega, h2, vain_mono hx h0 h3⟩
      have go : ∀ {b : KWire.Action ε}, KWire.step S c (σ t).kw b = some (σ (t + 1)).kw → th ∈ p.kad.threads ∨ ∃ i id, b = .kad n (.pinged i false) ∧ p.kad.threads[i]? = some ⟨id, .ping e⟩ := by
        intro b hb
        obtain ⟨p1, g1, g2⟩ := KWire.step_kad hb hp
        rw [hp'] at g1; cases g1
        rcases g2 with ⟨l, g2⟩ | ⟨act, rfl, g2⟩
        · rw [g2] at hth
          rcases List.mem_append.1 hth with h | h
          · exact .inl h
          · obtain ⟨y, -, rfl⟩ := List.mem_map.1 h; cases hpc
        · rcases (kad_thread g2).2 th hth with h | ⟨h, -⟩ | ⟨i, id, e1, rfl, h1, h2⟩ | ⟨a, -, h⟩
          · exact .inl h
          · exact absurd hpc (h e)
          · rw [hpc] at h2; cases h2
            exact .inr ⟨i, id, rfl, h1⟩
          · rw [hpc] at h; cases h
      rcases step_kw hs with ⟨b, rfl, hd, hb, e1, -⟩ | ⟨n1, i, x, p1, id0, e0, rfl, hX, hp1, hth0, hno, hb, e1, -⟩ | ⟨n1, i, w, x, d, r, rfl, hw, rfl, rfl, hX, hd, hpc1, hb, e1, -⟩ | ⟨n1, k, x, d, rfl, hX, hd, hpc1, hb, e1⟩
      · rcases go hb with h | ⟨i, id, rfl, -⟩
        · exact stays h
        · cases hd
      · rcases go hb with h | ⟨i, id, h, -⟩
        · exact stays h
        · cases h
      · rcases go hb with h | ⟨i, id, h, h1⟩
        · exact stays h
        · simp only [KWire.Action.kad.injEq, Kad.Action.pinged.injEq] at h
          obtain ⟨rfl, rfl, hng⟩ := h
          obtain ⟨x1, p1, id1, e2, d1, g1, g2, g3, g4, g5, g6⟩ := hi.waits w hw
          rw [hX] at g1; cases g1
          rw [hp] at g2; cases g2
          rw [h1] at g3; cases g3
          rw [hd] at g4; cases g4
          obtain ⟨u, k1, k2, xu, k3, k4⟩ := ih.waits w hw p id e hp h1
          refine ⟨u, by omega, k2, vain_mono hx h0 ⟨xu, x, w.call, d, r, k3, k4, hX, hd, g5, ?_, hpc1, fun hP => ?_⟩⟩
          · rw [g6]; simp [request, Query.bytes, marshalPing]
          · rw [isPong_of hP] at hng; cases hng
      · rcases go hb with h | ⟨i, id, h, -⟩
        · exact stays h
        · cases h

theorem kwOf_step {s s' : State ε} {a : Action ε} (hs : step S c s a = some s') : ∃ b, kwOf c s a = some b ∧ KWire.step S c s.kw b = some s'.kw := by
  cases a with
  | kw b =>
    simp only [step] at hs
    split at hs
    · cases hs
    obtain ⟨k, h1, rfl⟩ := Option.map_eq_some_iff.1 hs
    exact ⟨b, rfl, h1⟩
  | ping n i =>
    simp only [step] at hs
    split at hs
    swap
    · cases hs
    rename_i x p hx hp
    split at hs
    swap
    · cases hs
    rename_i id e hth
    split at hs
    · cases hs
    obtain ⟨k, h1, rfl⟩ := Option.map_eq_some_iff.1 hs
    exact ⟨_, by simp only [kwOf, hp, hth], h1⟩
  | pinged n i =>
    simp only [step] at hs
    split at hs
    swap
    · cases hs
    rename_i w x hw hx
    split at hs
    swap
    · cases hs
    rename_i d hd
    split at hs
    swap
    · cases hs
    rename_i r hr
    obtain ⟨k, h1, rfl⟩ := Option.map_eq_some_iff.1 hs
    exact ⟨_, by simp only [kwOf, hw, hx, hd, hr], h1⟩
  | failed n k =>
    simp only [step] at hs
    split at hs
    swap
    · cases hs
    rename_i x hx
    split at hs
    swap
    · cases hs
    rename_i d hd
    split at hs
    swap
    · cases hs
    split at hs
    · cases hs
    obtain ⟨y, h1, rfl⟩ := Option.map_eq_some_iff.1 hs
    exact ⟨_, by simp only [kwOf, hx, hd, Option.map_some], h1⟩

theorem exec_kw (hx : Execution (step S c) σ α) : Execution (KWire.step S c) (fun t => (σ t).kw) (kwActs c σ α) := by
  intro t
  rcases hx t with ⟨e1, e2⟩ | ⟨a, e1, e2⟩
  · exact .inl ⟨by simp only [kwActs, e1, Option.bind_none], by simp only [e2]⟩
  · obtain ⟨b, h1, h2⟩ := kwOf_step e2
    exact .inr ⟨b, by simp only [kwActs, e1, Option.bind_some]; exact h1, h2⟩

/-- While a ping is under way, the call of `Ack` that has made it waits. -/
theorem ping_waits (hx : Execution (step S c) σ α) {n i t0 : Nat} (ha : α t0 = some (.ping n i)) {id e : ID} (hth : ThreadAt σ n i t0 ⟨id, .ping e⟩) :
    ∃ x x' d, (σ t0).kw.net.nodes[n]? = some x ∧ (σ (t0 + 1)).kw.net.nodes[n]? = some x' ∧ x'.calls[x.calls.length]? = some d ∧ d.pc = .get ∧ d.left = (c.node n).attempts ∧ d.kind = .request (Query.bytes c.ops .ping) ∧ d.addr = e.address ∧
      ∀ t, t0 + 1 ≤ t → (∀ u, t0 < u → u < t → α u ≠ some (.pinged n i)) → ThreadAt σ n i t ⟨id, .ping e⟩ ∧ (⟨n, i, x.calls.length⟩ ∈ (σ t).waits ∧ ∀ w ∈ (σ t).waits, w.node = n ∧ w.thread = i → w.call = x.calls.length) := by
  have hs0 : step S c (σ t0) (.ping n i) = some (σ (t0 + 1)) := by
    rcases hx t0 with ⟨h, -⟩ | ⟨a, h, hs⟩
    · rw [ha] at h; cases h
    · rw [ha] at h; cases h; exact hs
  obtain ⟨p0, hp0, hth0⟩ := hth
  obtain ⟨x, hX, hb0, hw0, huniq⟩ : ∃ x, (σ t0).kw.net.nodes[n]? = some x ∧ KWire.step S c (σ t0).kw (.net (.node n (.call (.request (request c.ops)) e.address))) = some (σ (t0 + 1)).kw ∧
      (σ (t0 + 1)).waits = (σ t0).waits ++ [⟨n, i, x.calls.length⟩] ∧ ∀ w ∈ (σ t0).waits, ¬ (w.node = n ∧ w.thread = i) := by
    rcases step_kw hs0 with ⟨b, h, -⟩ | ⟨m, j, x, q, id1, e1, h, h1, h2, h3, h4, h5, h6, -⟩ | ⟨m, j, w, x, d, r, h, -⟩ | ⟨m, k, x, d, h, -⟩ <;> cases h
    rw [hp0] at h2; cases h2
    rw [hth0] at h3; cases h3
    exact ⟨x, h1, h5, h6, h4⟩
  obtain ⟨x', d, hX', hd, hdpc, hdl, hdk, hda⟩ : ∃ x' d, (σ (t0 + 1)).kw.net.nodes[n]? = some x' ∧ x'.calls[x.calls.length]? = some d ∧ d.pc = .get ∧ d.left = (c.node n).attempts ∧ d.kind = .request (Query.bytes c.ops .ping) ∧ d.addr = e.address := by
    have hn : Net.step c.node (σ t0).kw.net (.node n (.call (.request (request c.ops)) e.address)) = some (σ (t0 + 1)).kw.net := by
      simp only [KWire.step] at hb0
      split at hb0
      · cases hb0
      · exact (KWire.go_some hb0).1
    simp only [Net.step, hX] at hn
    obtain ⟨x', g1, g2⟩ := Option.map_eq_some_iff.1 hn
    refine ⟨x', ?_⟩
    unfold Node.step at g1
    split at g1
    · cases g1
    · cases g1
      refine ⟨_, by rw [← g2]; exact List.getElem?_set_self (List.getElem?_eq_some_iff.1 hX).1, List.getElem?_concat_length, rfl, rfl, ?_, rfl⟩
      simp [request, Query.bytes, marshalPing]
  refine ⟨x, x', d, hX, hX', hd, hdpc, hdl, hdk, hda, ?_⟩
  intro t hle
  induction t, hle using Nat.le_induction with
  | base =>
    intro _
    obtain ⟨p1, g1, g2⟩ := threads_step hb0 hp0 hth0 ⟨e, rfl⟩ (by simp)
    refine ⟨⟨p1, g1, g2⟩, by rw [hw0]; simp, ?_⟩
    rw [hw0]
    intro w hw hc
    rcases List.mem_append.1 hw with hw | hw
    · exact absurd hc (huniq w hw)
    · rw [List.mem_singleton.1 hw]
  | succ t hle ih =>
    intro hno
    obtain ⟨⟨p1, g1, g2⟩, g3, g4⟩ := ih fun u h1 h2 => hno u h1 (by omega)
    have hnt := hno t (by omega) (by omega)
    rcases hx t with ⟨-, h⟩ | ⟨a, h, hs⟩
    · refine ⟨⟨p1, by rw [h]; exact g1, g2⟩, by rw [h]; exact g3, by rw [h]; exact g4⟩
    rcases step_kw hs with ⟨b, rfl, hdec, hb, e1, -⟩ | ⟨m, j, y, q, id1, e2, rfl, hy, hq, hq1, hno1, hb, e1, -⟩ | ⟨m, j, w, y, d1, res, rfl, hw, rfl, rfl, hy, hd1, hpc1, hb, e1, -⟩ | ⟨m, k, y, d1, rfl, hy, hd1, hpc1, hb, e1⟩
    · obtain ⟨p2, f1, f2⟩ := threads_step hb g1 g2 ⟨e, rfl⟩ (by rintro g rfl; cases hdec)
      exact ⟨⟨p2, f1, f2⟩, by rw [e1]; exact g3, by rw [e1]; exact g4⟩
    · obtain ⟨p2, f1, f2⟩ := threads_step hb g1 g2 ⟨e, rfl⟩ (by simp)
      refine ⟨⟨p2, f1, f2⟩, by rw [e1]; exact List.mem_append_left _ g3, ?_⟩
      rw [e1]
      intro w hw hc
      rcases List.mem_append.1 hw with hw | hw
      · exact g4 w hw hc
      · rw [List.mem_singleton.1 hw] at hc
        obtain ⟨rfl, rfl⟩ := hc
        exact absurd ⟨rfl, rfl⟩ (hno1 _ g3)
    · have hne : ¬ (n = w.node ∧ i = w.thread) := by
        rintro ⟨rfl, rfl⟩; exact hnt h
      obtain ⟨p2, f1, f2⟩ := threads_step hb g1 g2 ⟨e, rfl⟩ (by
        intro g h
        simp only [KWire.Action.kad.injEq, Kad.Action.pinged.injEq] at h
        exact hne ⟨h.1.symm, h.2.1.symm⟩)
      refine ⟨⟨p2, f1, f2⟩, ?_, ?_⟩
      · rw [e1]; exact List.mem_filter.2 ⟨g3, by simpa only [decide_eq_true_eq] using hne⟩
      · rw [e1]; exact fun w' hw' => g4 w' (List.mem_filter.1 hw').1
    · obtain ⟨p2, f1, f2⟩ := threads_step hb g1 g2 ⟨e, rfl⟩ (by simp)
      exact ⟨⟨p2, f1, f2⟩, by rw [e1]; exact g3, by rw [e1]; exact g4⟩

theorem pong_iff {o : Kad.Opcodes} {r : Node.Result} : isPong o r = true ↔ Pong o r := by
  refine ⟨fun h => ?_, isPong_of⟩
  cases r with
  | response m =>
    simp only [isPong, decide_eq_true_eq] at h
    refine ⟨m, rfl, ?_⟩
    have hl : (m.data.take 2).length = 2 := by rw [List.length_take]; omega
    obtain ⟨w, hw, e⟩ := get16_eq (m.data.take 2) (by omega)
    rw [h.2] at hw
    cases hw
    have := put16_of_take (b := m.data.take 2) (by omega) e
    rw [this, List.take_take]; rfl
  | _ => simp [isPong] at h

/-- A thread in a step of another one. -/
theorem kad_other {k k' : Kad.State} {b : Kad.Action} (hs : Kad.step k b = some k') {i : Nat} {th : Kad.Thread} (hth : k.threads[i]? = some th) (hp : ∀ g, b ≠ .pinged i g) (hb : b ≠ .step i) : k'.threads[i]? = some th := by
  unfold Kad.step at hs
  split at hs
  · cases hs
  cases b with
  | ack x => cases hs; simp only; rw [List.getElem?_append_left (List.getElem?_eq_some_iff.1 hth).1]; exact hth
  | pingFailed a => cases hs; simp only; rw [List.getElem?_append_left (List.getElem?_eq_some_iff.1 hth).1]; exact hth
  | table op => cases hs; exact hth
  | pinged j g =>
    have hj : j ≠ i := fun e => hp g (by rw [e])
    simp only at hs
    split at hs
    · cases hs
      simp only [Kad.State.set]
      rw [List.getElem?_set_ne hj]; exact hth
    · cases hs
  | step j =>
    have hj : j ≠ i := fun e => hb (by rw [e])
    simp only at hs
    split at hs
    swap
    · cases hs
    rename_i id pc _
    cases pc <;> simp only [Kad.threadStep] at hs <;> (try split at hs) <;> cases hs <;> first | exact hth | (simp only [Kad.State.set]; rw [List.getElem?_set_ne hj]; exact hth)

theorem delete_absent {t : Table} (hi : t.Inv) (k : PublicKey) : ∀ e ∈ (t.delete k).1.all, e.id ≠ k := by
  rintro e he rfl
  have hm := ((hi.delete e.id).mem_all_iff e).1 he
  rw [Table.bucketIndex_congr (Table.delete_self t e.id) e.id] at hm
  rcases Table.delete_cases t e.id with ⟨h1, h2⟩ | ⟨x, pre, post, h1, hx, h2⟩
  · rw [h1] at hm; exact h2 e hm rfl
  · rw [h2] at hm
    have hm : e ∈ pre ++ post := by simpa [Table.setBucket] using hm
    have hn := hi.nodup (t.bucketIndex e.id)
    rw [h1, List.map_append, List.map_cons, List.nodup_middle] at hn
    refine (List.nodup_cons.1 hn).1 ?_
    rw [hx, ← List.map_append]
    exact List.mem_map_of_mem hm

theorem table_inv {s : KWire.State ε} (hr : KWire.Reachable S c N s) : ∀ (n : Nat) (p : KWire.Part), s.parts[n]? = some p → p.kad.table.Inv := by
  obtain ⟨s0, ⟨ts, h1, h2, rfl⟩, as, hr⟩ := hr
  refine runs_inv (P := fun s : KWire.State ε => ∀ (n : Nat) (p : KWire.Part), s.parts[n]? = some p → p.kad.table.Inv) ?_ hr ?_
  · intro s a s' ih hs n p' hp'
    obtain ⟨p, hp⟩ : ∃ p, s.parts[n]? = some p := ⟨_, List.getElem?_eq_getElem (by rw [← KWire.step_length hs]; exact (List.getElem?_eq_some_iff.1 hp').1)⟩
    obtain ⟨p1, g1, ⟨l, g2⟩ | ⟨b, -, g2⟩⟩ := KWire.step_kad hs hp
    · rw [hp'] at g1; cases g1
      rw [g2]; exact ih n p hp
    · rw [hp'] at g1; cases g1
      exact Kad.run_inv (runs_one g2) (ih n p hp)
  · intro n p hp
    simp only [List.getElem?_map] at hp
    obtain ⟨t, ht, rfl⟩ := Option.map_eq_some_iff.1 hp
    obtain ⟨t0, h3, h4, -⟩ := Table.newTable_some (c.id n)
    rw [h2 n t ht] at h3; cases h3
    exact h4

end

end Noise.KPing
