import Verif.Proofs.GossipSpread
/-! # C145: gossip spreads -/
namespace Noise
open Spec Net
variable {ε : Type}

theorem GWire.spreads {c : GWire.Cfg ε} {N : Nat} {σ : Nat → GWire.State ε} {α : Nat → Option (GWire.Action ε)} {β : Nat → Option (Net.Action ε)}
    (r : Net.FairRun c.node N (fun t => (σ t).net) β) (hk : ∀ a b, a < N → b < N → c.key a = c.key b → a = b) (hg : ∀ t, OnlyGossip c (σ t)) {T : Nat} {data : Bytes} (hfresh : ∀ n, ¬ Pushes (σ T) n data)
    {n m : Nat} (path : Relation.ReflTransGen (KeepsInformed c N σ α β T) n m) {t : Nat} (hp : Pushes (σ t) n data) : ∃ t', Pushes (σ t') m data := by
  induction path with
  | refl => exact ⟨t, hp⟩
  | tail _ h ih =>
    obtain ⟨o, i, addr, rfl, rfl, v⟩ := h
    obtain ⟨t1, h1⟩ := ih
    obtain ⟨t2, h2 | h2⟩ := GWire.hop r v hg hk (hfresh _) h1
    · exact GWire.told_pushes v.runs.exec v.runs.start r v.link v.workers.2 v.handler v.accepts hg hk h2
    · exact ⟨t2, h2⟩

/-- What is pushed on a node was reported to its application or pushed by it. -/
theorem GWire.pushes_has {c : GWire.Cfg ε} {N : Nat} {s : GWire.State ε} (hr : GWire.Reachable c N s) {n : Nat} {data : Bytes} (h : Pushes s n data) : Has s n data := by
  obtain ⟨p, q, h1, h2, rfl⟩ := h
  rcases ((GWire.Inv2.reach hr).heard n p h1).pushes q h2 with h | ⟨e, h, h3⟩
  · exact ⟨p, h1, .inr h⟩
  · exact ⟨p, h1, .inl ⟨e.1, by rw [← h3]; exact h⟩⟩

/-- **C145 (gossip spreads).** In every fair execution of a network of nodes with different keys, in which nobody but gossip sends gossip messages: let there be a path from node `n` to node `m` of nodes that, from some time on, each keep the next informed. Whatever is pushed on `n`, and was not
pushed anywhere before that time, is reported to the application of `m` in the end, unless this application has pushed it itself. -/
theorem C145_gossip_spreads (c : GWire.Cfg ε) (N : Nat) (σ : Nat → GWire.State ε) (α : Nat → Option (GWire.Action ε)) (β : Nat → Option (Net.Action ε)) (h0 : GWire.Reachable c N (σ 0)) (hx : Execution (GWire.step c) σ α)
    (r : Net.FairRun c.node N (fun t => (σ t).net) β) (hk : ∀ a b, a < N → b < N → c.key a = c.key b → a = b) (hg : ∀ t, OnlyGossip c (σ t)) (T : Nat) (data : Bytes) (hfresh : ∀ n, ¬ Pushes (σ T) n data)
    (n m : Nat) (path : Relation.ReflTransGen (KeepsInformed c N σ α β T) n m) (t : Nat) (hp : Pushes (σ t) n data) : ∃ t', Has (σ t') m data := by
  obtain ⟨t', h⟩ := GWire.spreads r hk hg hfresh path hp
  exact ⟨t', GWire.pushes_has (h0.trans (Fair.reach hx t')) h⟩

/-- **C145 (gossip reaches everybody).** So if there is such a path from `n` to every node, there is a time at which the applications of all nodes have the data. -/
theorem C145_reaches_everybody (c : GWire.Cfg ε) (N : Nat) (σ : Nat → GWire.State ε) (α : Nat → Option (GWire.Action ε)) (β : Nat → Option (Net.Action ε)) (h0 : GWire.Reachable c N (σ 0)) (hx : Execution (GWire.step c) σ α)
    (r : Net.FairRun c.node N (fun t => (σ t).net) β) (hk : ∀ a b, a < N → b < N → c.key a = c.key b → a = b) (hg : ∀ t, OnlyGossip c (σ t)) (T : Nat) (data : Bytes) (hfresh : ∀ n, ¬ Pushes (σ T) n data)
    (n : Nat) (paths : ∀ m, m < N → Relation.ReflTransGen (KeepsInformed c N σ α β T) n m) (t : Nat) (hp : Pushes (σ t) n data) : ∃ t', ∀ m, m < N → Has (σ t') m data := by
  have key : ∀ M, M ≤ N → ∃ t', ∀ m, m < M → Pushes (σ t') m data := by
    intro M
    induction M with
    | zero => exact fun _ => ⟨0, fun m h => by omega⟩
    | succ M ih =>
      intro hM
      obtain ⟨t1, h1⟩ := ih (by omega)
      obtain ⟨t2, h2⟩ := GWire.spreads r hk hg hfresh (paths M (by omega)) hp
      refine ⟨max t1 t2, fun m hm => ?_⟩
      by_cases h : m = M
      · rw [h]; exact GWire.pushes_later hx (Nat.le_max_right _ _) h2
      · exact GWire.pushes_later hx (Nat.le_max_left _ _) (h1 m (by omega))
  obtain ⟨t', h⟩ := key N (Nat.le_refl _)
  exact ⟨t', fun m hm => GWire.pushes_has (h0.trans (Fair.reach hx t')) (h m hm)⟩

/-! ### Non-vacuity: node 0 keeps node 1 informed -/

/-- No handler has replied to anything. -/
def noReply (x : Node.State Unit) : Bool := match x.wk with
  | none => true
  | some q => q.log.all fun
    | .sendOk .. => false
    | _ => true

/-- As `OnlyGossip` says, and more: nobody replies to anything, and nobody but gossip calls `Send`. -/
def onlyGossip (s : GWire.State Unit) : Bool :=
  s.net.foreign.isEmpty && s.net.nodes.all noReply
    && (List.range s.net.nodes.length).all (fun n => match s.net.nodes[n]?, s.parts[n]? with
      | some x, some p => (List.range x.calls.length).all fun k => match (x.calls[k]?).map Node.Call.kind with
        | some (.send _) => p.asks.any fun a => a.call = k
        | _ => true
      | _, _ => false)
    && s.net.wires.all (fun w => match (s.net.conn w.inn).bind fun x => x.c.id with
      | some id => decide (id.id = gossipers.key w.out.node)
      | none => true)

theorem onlyGossip_sound {s : GWire.State Unit} (h : onlyGossip s = true) : OnlyGossip gossipers s := by
  simp only [onlyGossip, Bool.and_eq_true, List.all_eq_true, List.isEmpty_iff, List.mem_range] at h
  obtain ⟨⟨⟨h1, h2⟩, h3⟩, h4⟩ := h
  refine ⟨h1, ?_, ?_, ?_⟩
  · intro n j x data hx hm
    have := h2 x (List.mem_of_getElem? hx)
    unfold answeredOn at hm
    unfold noReply at this
    split at hm
    · cases hm
    rename_i q hq
    simp only [hq] at this
    obtain ⟨e, he, hm⟩ := List.mem_filterMap.1 hm
    have := List.all_eq_true.1 this e he
    cases e with
    | sendOk => cases this
    | _ => cases hm
  · intro n k x p d data hx hp hd hk
    have := h3 n (List.getElem?_eq_some_iff.1 hx).1
    simp only [hx, hp] at this
    have := List.all_eq_true.1 this k (List.mem_range.2 (List.getElem?_eq_some_iff.1 hd).1)
    simp only [hd, Option.map_some, hk] at this
    obtain ⟨a, h5, h6⟩ := List.any_eq_true.1 this
    exact ⟨a, h5, of_decide_eq_true h6⟩
  · rintro o i x id ⟨w, hw, rfl, rfl⟩ hx hid
    have := h4 w hw
    simp only [hx, Option.bind_some, hid] at this
    exact of_decide_eq_true this

/-- Whatever node 0 reads in its table is node 1. -/
def readsOk (t : Nat) : Bool := match liveRun[t]? with
  | some (.own 0 (.pushing k l)) => match (livePlay t).parts[0]? with
    | some p => match p.g.pushes[k]? with
      | some q => decide (q.pc ≠ .entries) || decide (gid 1 ∈ l)
      | none => true
    | none => true
  | _ => true

/-- Node 0 keeps node 1 informed, before it pushes anything. -/
theorem livePlay_informs : Informs gossipers 2 livePlay (fun t => liveRun[t]?) liveNet 28 ⟨0, 0⟩ ⟨1, 0⟩ (gid 1).address ∧ (∀ t, OnlyGossip gossipers (livePlay t)) ∧ ∀ n, ¬ Pushes (livePlay 28) n [7] := by
  obtain ⟨r, u, hend⟩ := livePlay_fair
  obtain ⟨hrun, -, hin⟩ := gplay_runs (as := liveRun) (by decide +kernel) (by decide +kernel)
  have hconn : ((livePlay 28).net.conn ⟨0, 0⟩).map (fun x => x.addr) = some (gid 1).address := by decide +kernel
  have hreads : ((List.range (liveRun.length + 1)).all readsOk) = true := by decide +kernel
  have hg : ((List.range (liveRun.length + 1)).all fun t => onlyGossip (livePlay t)) = true := by decide +kernel
  have herr : ((List.range (liveRun.length + 1)).all fun t => (livePlay t).parts.all fun p => p.errors.isEmpty) = true := by decide +kernel
  have hfresh : ((livePlay 28).parts.all fun p => p.g.pushes.isEmpty) = true := by decide +kernel
  have hok : (runs (GWire.step gossipers) (GWire.State.new 2) liveRun).isSome = true := by decide +kernel
  obtain ⟨s, h1⟩ := Option.isSome_iff_exists.1 hok
  obtain ⟨hx, hfin⟩ : Execution (GWire.step gossipers) livePlay (fun t => liveRun[t]?) ∧ ∀ t, liveRun.length ≤ t → livePlay t = s := Fair.play_exec h1
  have always : ∀ (P : GWire.State Unit → Bool), ((List.range (liveRun.length + 1)).all fun t => P (livePlay t)) = true → ∀ t, P (livePlay t) = true := by
    intro P hP t
    by_cases ht : t ≤ liveRun.length
    · exact List.all_eq_true.1 hP t (List.mem_range.2 (by omega))
    · have := List.all_eq_true.1 hP liveRun.length (List.mem_range.2 (by omega))
      rw [hfin _ (Nat.le_refl _)] at this
      rw [hfin t (by omega)]; exact this
  obtain ⟨x, hx0, ha⟩ := Option.map_eq_some_iff.1 hconn
  refine ⟨⟨hrun, u, ⟨x, hx0, ha⟩, ?_, ⟨[(gid 1).address], by decide, ?_⟩, fun t p a _ _ => hend 0 a.call, ?_, by decide, by decide, by decide⟩, fun t => onlyGossip_sound (always _ hg t), ?_⟩
  · rintro t k l - ⟨e1, p, q, e2, e3, e4⟩
    have e2 : (livePlay t).parts[0]? = some p := e2
    have e1 : liveRun[t]? = some (.own 0 (.pushing k l)) := e1
    have := List.all_eq_true.1 hreads t (List.mem_range.2 (by have := (List.getElem?_eq_some_iff.1 e1).1; omega))
    simp only [readsOk, e1, e2, e3, e4, ne_eq, not_true_eq_false, decide_false, Bool.false_or, decide_eq_true_eq] at this
    exact ⟨gid 1, this, rfl, rfl⟩
  · exact fun t k d ⟨X, hX, hk⟩ => hin t k d (by rw [nodeAt]; have hX' : (livePlay t).net.nodes[0]? = some X := hX; rw [hX']; exact hk)
  · intro t p hp
    have := always (fun s => s.parts.all fun p => p.errors.isEmpty) herr t
    exact List.isEmpty_iff.1 (List.all_eq_true.1 this p (List.mem_of_getElem? hp))
  · rintro n ⟨p, q, h1, h2, -⟩
    have := List.isEmpty_iff.1 (List.all_eq_true.1 hfresh p (List.mem_of_getElem? h1))
    rw [this] at h2; cases h2

/-- The hypotheses of C145 are met: the applications of both nodes come to have the data. -/
example : ∃ t', ∀ m, m < 2 → Has (livePlay t') m [7] := by
  obtain ⟨r, -, -⟩ := livePlay_fair
  obtain ⟨v, hg, hfresh⟩ := livePlay_informs
  have hp : ((livePlay 29).parts[0]?).map (fun p => p.g.pushes.any fun q => decide (q.data = [7])) = some true := by decide +kernel
  obtain ⟨p, hp, h⟩ := Option.map_eq_some_iff.1 hp
  obtain ⟨q, h1, h2⟩ := List.any_eq_true.1 h
  refine C145_reaches_everybody gossipers 2 livePlay _ liveNet v.runs.start v.runs.exec r ?_ hg 28 [7] hfresh 0 ?_ 29 ⟨p, q, hp, h1, of_decide_eq_true h2⟩
  · intro a b ha hb h
    have h3 : a = 0 ∨ a = 1 := by omega
    have h4 : b = 0 ∨ b = 1 := by omega
    rcases h3 with rfl | rfl <;> rcases h4 with rfl | rfl <;> first | rfl | (exact absurd h (by decide))
  · intro m hm
    have : m = 0 ∨ m = 1 := by omega
    rcases this with rfl | rfl
    · exact .refl
    · exact .single ⟨⟨0, 0⟩, ⟨1, 0⟩, (gid 1).address, rfl, rfl, v⟩

end Noise
