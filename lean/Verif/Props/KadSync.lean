import Verif.Proofs.KadSync
import Verif.Props.KadNode
import Verif.Props.Iterator
import Verif.Props.Kad
/-! # Property C137: whoever one is connected to is known to the overlay -/
namespace Noise
open Spec KadSync
variable {ε : Type}

/-- **C137.** When a connection is ready with an authenticated peer `e` (so when `Ping`, `Send` or `Request` have got it, C117, or a handler runs for it), `e` has already been offered to the routing table. In every schedule of any number of
connections, messages, pings, failed dials and calls of the application, there was a moment, before the connection was ready, at which `e` was the first in its bucket; or else its bucket was full of others at one moment, a peer `x` was
the last in that bucket at a later one, and after that, still before the connection was ready, `x` answered a ping. -/
theorem C137_known_when_ready (t : Table) (as : List (KadNode.Action ε)) (s : KadSync.State ε) (hr : runs KadSync.step (State.new t) as = some s) (i : Nat) (c : Cl.State ε) (e : ID)
    (hc : s.node.conns[i]? = some c) (hready : c.ready = true) (hid : c.id = some e) (hz : e.id ≠ zeroPublicKey) :
    (Once KadSync.step (State.new t) as fun s _ => (∃ c, s.node.conns[i]? = some c ∧ c.ready = false ∧ c.id = some e) ∧ (s.node.kad.table.bucket e.id).head?.map ID.id = some e.id) ∨
    (Once KadSync.step (State.new t) as fun s ys => (∃ c, s.node.conns[i]? = some c ∧ c.ready = false ∧ c.id = some e) ∧
      ((∀ x ∈ s.node.kad.table.bucket e.id, x.id ≠ e.id) ∧ 16 ≤ (s.node.kad.table.bucket e.id).length) ∧ ∃ x,
      Once KadSync.step s ys fun s ys => (s.node.kad.table.bucket e.id).getLast? = some x ∧
      Once KadSync.step s ys fun s ys => (∃ c, s.node.conns[i]? = some c ∧ c.ready = false ∧ c.id = some e) ∧
        ∃ k rest, ys = .pinged k true :: rest ∧ s.node.kad.threads[k]? = some ⟨e, .ping x⟩) :=
  (KadSync.Inv.run hr).ready i c e hc hready hid hz

/-- Nobody is removed from the table on account of this: no dial fails, no ping goes unanswered, and the application removes nobody. -/
def noRemoval : KadNode.Action ε → Prop
  | .dialFailed _ | .pinged _ false | .userTable (.delete _) | .userTable (.deleteByAddress _) => False
  | _ => True

namespace KadSync

/-- No call is about to remove somebody. -/
def NoDel (k : Kad.State) : Prop := ∀ th ∈ k.threads, (∀ x, th.pc ≠ .delete x) ∧ ∀ a, th.pc ≠ .deleteAddress a

theorem NoDel.set {k : Kad.State} (h : NoDel k) (t : Table) (l : List Kad.Event) (i : Nat) (id : ID) (pc : Kad.Pc) (h1 : ∀ x, pc ≠ .delete x) (h2 : ∀ a, pc ≠ .deleteAddress a) :
    NoDel ({ k with table := t, log := l }.set i id pc) := by
  intro th hth
  rcases List.mem_or_eq_of_mem_set hth with hth | rfl
  · exact h th hth
  · exact ⟨h1, h2⟩

/-- The table stays as it is or is updated. -/
def Upd (t t' : Table) : Prop := t' = t ∨ ∃ e, t' = (t.update e).1

theorem quiet_kad {k k' : Kad.State} {a : Kad.Action} (h : NoDel k) (hs : Kad.step k a = some k') (h1 : ∀ b, a ≠ .pingFailed b) (h2 : ∀ j, a ≠ .pinged j false) (h3 : ∀ op, a = .table op → ∃ e, op = .update e) :
    NoDel k' ∧ Upd k.table k'.table := by
  simp only [Kad.step] at hs
  split at hs
  · cases hs
  cases a with
  | ack e =>
    cases hs
    refine ⟨?_, Or.inl rfl⟩
    intro th hth
    rcases List.mem_append.1 hth with hth | hth
    · exact h th hth
    · rw [List.mem_singleton] at hth; subst hth; exact ⟨by simp, by simp⟩
  | pingFailed b => exact absurd rfl (h1 b)
  | table op =>
    obtain ⟨e, rfl⟩ := h3 op rfl
    cases hs
    exact ⟨h, Or.inr ⟨e, rfl⟩⟩
  | pinged i pong =>
    simp only at hs
    split at hs
    · cases pong
      · exact absurd rfl (h2 i)
      · cases hs
        exact ⟨h.set k.table k.log _ _ _ (by simp) (by simp), Or.inl rfl⟩
    · cases hs
  | step i =>
    simp only at hs
    split at hs
    · rename_i id pc hi
      have hm := h _ (List.mem_of_getElem? hi)
      cases pc with
      | update =>
        simp only [Kad.threadStep] at hs
        have hu : Upd k.table (k.table.update id).1 := Or.inr ⟨id, rfl⟩
        split at hs <;> rename_i t hu' <;> cases hs
        all_goals
          rw [hu'] at hu
          exact ⟨h.set _ k.log _ _ _ (by simp) (by simp), hu⟩
      | last =>
        simp only [Kad.threadStep] at hs
        split at hs <;> cases hs
        · exact ⟨h.set k.table k.log _ _ _ (by simp) (by simp), Or.inl rfl⟩
        · exact ⟨h, Or.inl rfl⟩
      | ping x => cases hs
      | delete x => exact absurd rfl (hm.1 x)
      | emit ev ag =>
        simp only [Kad.threadStep] at hs
        cases hs
        refine ⟨h.set k.table _ _ _ _ ?_ ?_, Or.inl rfl⟩ <;> cases ag <;> simp
      | deleteAddress b => exact absurd rfl (hm.2 b)
      | done => cases hs
    · cases hs

theorem quiet_step {s s' : State ε} {a : KadNode.Action ε} (h : NoDel s.node.kad) (hq : noRemoval a) (hs : step s a = some s') : NoDel s'.node.kad ∧ Upd s.node.kad.table s'.node.kad.table := by
  have hn := step_node hs
  simp only [KadNode.step] at hn
  split at hn
  · cases hn
  cases a with
  | connect side => simp only [Option.some.injEq] at hn; rw [← hn]; exact ⟨h, Or.inl rfl⟩
  | conn i act =>
    simp only at hn
    split at hn
    · obtain ⟨c', _, hn⟩ := Option.map_eq_some_iff.1 hn
      rw [← hn]
      refine ⟨?_, Or.inl rfl⟩
      intro th hth
      rcases List.mem_append.1 hth with hth | hth
      · exact h th hth
      · obtain ⟨e, _, rfl⟩ := List.mem_map.1 hth; exact ⟨by simp, by simp⟩
    · cases hn
  | dialFailed b => exact hq.elim
  | step j =>
    obtain ⟨k, hk, hn⟩ := Option.map_eq_some_iff.1 hn
    rw [← hn]
    exact quiet_kad h hk (by simp) (by simp) (by simp)
  | pinged j b =>
    obtain ⟨k, hk, hn⟩ := Option.map_eq_some_iff.1 hn
    rw [← hn]
    refine quiet_kad h hk (by simp) (fun j' hj => ?_) (by simp)
    cases hj; exact hq
  | userAck e =>
    obtain ⟨k, hk, hn⟩ := Option.map_eq_some_iff.1 hn
    rw [← hn]
    exact quiet_kad h hk (by simp) (by simp) (by simp)
  | userTable op =>
    obtain ⟨k, hk, hn⟩ := Option.map_eq_some_iff.1 hn
    rw [← hn]
    refine quiet_kad h hk (by simp) (by simp) fun op' ho => ?_
    cases ho
    cases op with
    | update e => exact ⟨e, rfl⟩
    | delete _ => exact hq.elim
    | deleteByAddress _ => exact hq.elim

/-- Nobody has been removed. -/
def Grows (t t' : Table) : Prop := ∀ k, (t.recorded k = true → t'.recorded k = true) ∧ (t.bucket k).length ≤ (t'.bucket k).length

theorem Grows.of_upd {t t' : Table} (h : Upd t t') : Grows t t' := by
  rcases h with rfl | ⟨e, rfl⟩
  · exact fun k => ⟨id, Nat.le_refl _⟩
  intro k
  have hi : (t.update e).1.bucketIndex k = t.bucketIndex k := Table.bucketIndex_congr (Table.update_self t e) _
  unfold Table.recorded Table.bucket
  rw [hi]
  rcases Table.update_cases t e with ⟨hu, _⟩ | ⟨x, pre, post, he, _, hu⟩ | ⟨_, _, _, hu⟩ | ⟨_, _, _, hu⟩
  · rw [hu]; exact ⟨id, Nat.le_refl _⟩
  · rw [hu]
    simp only [Table.setBucket]
    by_cases hk : t.bucketIndex k = t.bucketIndex e.id
    · rw [if_pos hk, hk, he]
      refine ⟨?_, by simp [Nat.add_assoc]⟩
      simp only [List.any_append, List.any_cons, Bool.or_eq_true]
      tauto
    · rw [if_neg hk]; exact ⟨id, Nat.le_refl _⟩
  · rw [hu]
    simp only [Table.setBucket]
    by_cases hk : t.bucketIndex k = t.bucketIndex e.id
    · rw [if_pos hk, hk]
      refine ⟨?_, by simp⟩
      simp only [List.any_cons, Bool.or_eq_true]
      exact Or.inr
    · rw [if_neg hk]; exact ⟨id, Nat.le_refl _⟩
  · rw [hu]; exact ⟨id, Nat.le_refl _⟩

theorem quiet_run {s s' : State ε} {as : List (KadNode.Action ε)} (h : NoDel s.node.kad) (hq : ∀ a ∈ as, noRemoval a) (hr : runs step s as = some s') : NoDel s'.node.kad ∧ Grows s.node.kad.table s'.node.kad.table := by
  refine runs_inv' (P := fun x => NoDel x.node.kad ∧ Grows s.node.kad.table x.node.kad.table) (Q := noRemoval) ?_ hq hr ⟨h, Grows.of_upd (Or.inl rfl)⟩
  rintro x a x' ⟨h1, h2⟩ hqa hst
  obtain ⟨h3, h4⟩ := quiet_step h1 hqa hst
  refine ⟨h3, fun k => ?_⟩
  have h5 := Grows.of_upd h4 k
  exact ⟨fun h => h5.1 ((h2 k).1 h), Nat.le_trans (h2 k).2 h5.2⟩

/-- What has been at some moment of a quiet execution. -/
theorem quiet_once {s0 s : State ε} {as : List (KadNode.Action ε)} {P : State ε → List (KadNode.Action ε) → Prop} (h0 : NoDel s0.node.kad) (hq : ∀ a ∈ as, noRemoval a) (hr : runs step s0 as = some s)
    (h : Once step s0 as P) : ∃ x ys, P x ys ∧ Grows x.node.kad.table s.node.kad.table := by
  obtain ⟨xs, ys, x, rfl, h1, h2⟩ := h
  rw [runs_append, h1] at hr
  exact ⟨x, ys, h2, (quiet_run (quiet_run h0 (fun a ha => hq a (List.mem_append_left _ ha)) h1).1 (fun a ha => hq a (List.mem_append_right _ ha)) hr).2⟩

/-- The table of the overlay is one that the methods of the table can lead to. -/
theorem table_reach {self : ID} {t : Table} (ht : Table.Reachable self t) {s s' : State ε} (hs0 : s.node.kad.table = t) {as : List (KadNode.Action ε)} (hr : runs step s as = some s') (h : NoDel s.node.kad) (hq : ∀ a ∈ as, noRemoval a) :
    Table.Reachable self s'.node.kad.table := by
  have : NoDel s'.node.kad ∧ Table.Reachable self s'.node.kad.table := by
    refine runs_inv' (P := fun x => NoDel x.node.kad ∧ Table.Reachable self x.node.kad.table) (Q := noRemoval) ?_ hq hr ⟨h, hs0 ▸ ht⟩
    rintro x a x' ⟨h1, h2⟩ hqa hst
    obtain ⟨h3, h4⟩ := quiet_step h1 hqa hst
    refine ⟨h3, ?_⟩
    rcases h4 with h4 | ⟨e, h4⟩
    · rw [h4]; exact h2
    · rw [h4]; exact h2.apply (.update e)
  exact this.2

end KadSync

/-- **C137, consequence.** If nobody has been removed from the table (no dial has failed, no ping has gone unanswered, and the application has removed nobody), then every peer of a connection that is, or has been, ready is recorded in the
routing table, unless its bucket is full. -/
theorem C137_connected_recorded (self : ID) (t : Table) (_ht : newTable self = some t) (as : List (KadNode.Action ε)) (hq : ∀ a ∈ as, noRemoval a) (s : KadSync.State ε) (hr : runs KadSync.step (State.new t) as = some s)
    (i : Nat) (c : Cl.State ε) (e : ID) (hc : s.node.conns[i]? = some c) (hready : c.ready = true) (hid : c.id = some e) (hz : e.id ≠ zeroPublicKey) (hfull : (s.node.kad.table.bucket e.id).length < 16) :
    s.node.kad.table.recorded e.id = true := by
  have h0 : NoDel (State.new (ε := ε) t).node.kad := by intro th hth; cases hth
  rcases C137_known_when_ready t as s hr i c e hc hready hid hz with h | h
  · obtain ⟨x, ys, ⟨_, h1⟩, h2⟩ := quiet_once h0 hq hr h
    refine (h2 e.id).1 ?_
    unfold Table.recorded
    unfold Table.bucket at h1
    cases hb : x.node.kad.table.entries (x.node.kad.table.bucketIndex e.id) with
    | nil => rw [hb] at h1; cases h1
    | cons y l => rw [hb] at h1; simp only [List.head?_cons, Option.map_some, Option.some.injEq] at h1; simp [h1]
  · obtain ⟨x, ys, ⟨_, ⟨_, h1⟩, _⟩, h2⟩ := quiet_once h0 hq hr h
    have := (h2 e.id).2
    omega

/-- **C137, bootstrapping.** A node pings some peers and then calls `Discover` or `Find`. If nobody has been removed from the table and the table holds at most 16 peers when the search begins, then by the time it returns every peer with
which a connection had been set up has been asked and its request has ended. -/
theorem C137_bootstrap (S : Sorter) (self : ID) (t : Table) (ht : newTable self = some t) (as : List (KadNode.Action ε)) (hq : ∀ a ∈ as, noRemoval a) (s : KadSync.State ε) (hr : runs KadSync.step (State.new t) as = some s)
    (hsmall : (s.node.kad.table.all.filter fun x => x.id ≠ self.id).length ≤ 16)
    (i : Nat) (c : Cl.State ε) (e : ID) (hc : s.node.conns[i]? = some c) (hready : c.ready = true) (hid : c.id = some e) (hz : e.id ≠ zeroPublicKey) (hself : e.id ≠ self.id) (hfull : (s.node.kad.table.bucket e.id).length < 16)
    (cfg : Iter.Cfg) (hcfg : cfg.self = self.id) (hR : 0 < cfg.requests) (n : Nat) (peers : List ID) (hp : s.node.kad.table.peers S = .ok peers) (s0 s1 : Iter.State) (hinit : Iter.init cfg n peers = .ok s0)
    (bs : List Iter.Action) (hrun : runs (Iter.step S cfg) s0 bs = some s1) (r : Res (List ID)) (hret : s1.returned = some r) :
    ∃ rep ∈ s1.shared.replies, rep.peer.id = e.id := by
  have hrec := C137_connected_recorded self t ht as hq s hr i c e hc hready hid hz hfull
  have hreach : Table.Reachable self s.node.kad.table := table_reach ⟨t, [], ht, rfl⟩ (s := State.new t) rfl hr (by intro th hth; cases hth) hq
  have h0 : Starts S cfg n peers s0 := ⟨self, _, hreach, hcfg.symm, hp, hinit⟩
  have hpk : e.id ∈ peers.map ID.id := by
    obtain ⟨l, h5, h6, h7, _, h9⟩ := C51_find_closest S self _ hreach self.id bucketSize
    rw [Table.peers, hreach.inv.2] at hp
    have : (Res.ok l : Res (List ID)) = .ok peers := by rw [← h5, ← hp]
    cases this
    unfold Table.recorded at hrec
    obtain ⟨x, hx, hxe⟩ := List.any_eq_true.1 hrec
    have hxe : x.id = e.id := by simpa using hxe
    have hxall : x ∈ s.node.kad.table.all := (Table.mem_all _ _).2 ⟨_, Table.bucketIndex_lt _ _, hx⟩
    have hlen : peers.length = (s.node.kad.table.all.filter fun x => x.id ≠ self.id).length := by rw [h9]; simp only [bucketSize]; omega
    have hsub : peers ⊆ s.node.kad.table.all.filter fun x => x.id ≠ self.id := by
      intro y hy
      have := h7 y hy
      exact List.mem_filter.2 ⟨this.1, by simpa using this.2⟩
    have hperm := List.Subperm.perm_of_length_le (List.subperm_of_subset h6.of_map hsub) (by omega)
    have : x ∈ peers := hperm.mem_iff.2 (List.mem_filter.2 ⟨hxall, by simpa [hxe] using hself⟩)
    exact hxe ▸ List.mem_map_of_mem this
  have h := h0.run hrun
  obtain ⟨hcl, _, _⟩ := h.ret r hret
  obtain ⟨f1, _, f3, f4⟩ := h.finished hcl
  obtain ⟨x, hx, hxe⟩ := List.mem_map.1 hpk
  have hb : Iter.base cfg peers e.id = 0 := by
    have : e.id ≠ cfg.self := by rw [hcfg]; exact hself
    simp only [Iter.base, Iter.ind, this, false_or]
    rw [if_neg]
    rintro ⟨_, h2⟩; exact h2 hpk
  have hv : e.id ∈ s1.shared.visited := Iter.runs_visited hrun e.id (by
    unfold Iter.init at hinit
    split at hinit <;> cases hinit
    exact List.mem_append_left _ hpk)
  have h1 := f3 hR e.id
  rw [hb] at h1
  have h2 : Iter.ind (e.id ∈ s1.shared.visited) = 1 := by simp [Iter.ind, hv]
  obtain ⟨⟨e', k⟩, q1, q2⟩ := List.mem_map.1 (List.count_pos_iff.1 (show 0 < (s1.shared.asked.map (·.1.id)).count e.id by omega))
  have h3 := f1 (fun x => decide (x = e'))
  have h4 : 0 < s1.shared.asked.countP (fun x => decide (x.1 = e')) := List.countP_pos_iff.2 ⟨_, q1, by simp⟩
  rw [← h3] at h4
  obtain ⟨rep, h5, h6⟩ := List.countP_pos_iff.1 h4
  exact ⟨rep, h5, by rw [of_decide_eq_true h6]; exact q2⟩

/-! ## Examples -/

/-- A connection is accepted and its peer proves the ID `e`. -/
def meets (i : Nat) (e : ID) : List (KadNode.Action Unit) := [.connect .inbound, .conn i .main, .conn i .arrive, .conn i .arrive, .conn i .hsKey, .conn i (.hsOK e), .conn i .main]

/-- The connection is not ready while `Ack` runs: only when it has returned does the connection go on. -/
example : (runs KadSync.step (State.new ktable) (meets 0 kpeer ++ [.conn 0 .main])).isNone = true ∧ (runs KadSync.step (State.new ktable) (meets 0 kpeer ++ [.step 0, .conn 0 .main])).isNone = true ∧
    (runs KadSync.step (State.new ktable) (meets 0 kpeer ++ [.step 0, .step 0, .conn 0 .main])).map (fun s => (s.node.conns.map (·.ready), s.node.conns.map (·.id), decide (kpeer ∈ s.node.kad.table.all))) =
      some ([true], [some kpeer], true) := by decide +kernel

/-- Both alternatives of `C137_known_when_ready` occur: sixteen peers are recorded; the seventeenth finds its bucket full, the first of the sixteen is pinged and answers, and the connection is ready although its peer is not recorded. -/
example : (runs KadSync.step (State.new exFresh) (((List.range 16).map fun i => meets i (exPeer i) ++ [.step i, .step i, .conn i .main]).flatten ++
      meets 16 (exPeer 16) ++ [.step 16, .step 16, .pinged 16 true, .step 16, .conn 16 .main])).map (fun s => (s.node.conns.map (·.ready), s.node.kad.table.recorded (exPeer 15).id, s.node.kad.table.recorded (exPeer 16).id)) =
    some (List.replicate 17 true, true, false) := by decide +kernel

/-- The hypotheses of `C137_connected_recorded` and `C137_bootstrap` are met: the node accepts a connection, and then searches. -/
example : (∀ a ∈ meets 0 kpeer ++ [.step 0, .step 0, .conn 0 .main], noRemoval a) ∧
    (runs KadSync.step (State.new ktable) (meets 0 kpeer ++ [.step 0, .step 0, .conn 0 .main])).map (fun s => (decide ((s.node.kad.table.all.filter fun x => x.id ≠ kself.id).length ≤ 16),
      decide ((s.node.kad.table.bucket kpeer.id).length < 16), s.node.kad.table.peers insertionSorter)) = some (true, true, .ok [kpeer]) ∧
    ∃ s0, Iter.init ⟨kself.id, kself.id, 1, 16⟩ 1 [kpeer] = .ok s0 ∧
      (runs (Iter.step insertionSorter ⟨kself.id, kself.id, 1, 16⟩) s0 [.lookup 0 .main, .lookup 0 .main, .lookup 0 (.worker 0), .lookup 0 (.answer 0 kpeer.id (some [])), .lookup 0 (.worker 0), .collect, .lookup 0 (.worker 0),
        .lookup 0 .main, .lookup 0 .main, .lookup 0 .main, .lookup 0 .main, .lookup 0 (.worker 0), .lookup 0 .main, .close, .finish]).map Iter.State.returned = some (some (.ok [kpeer])) := by
  refine ⟨?_, by decide +kernel, _, rfl, by decide +kernel⟩
  intro a ha
  simp only [meets, List.mem_append, List.mem_cons, List.not_mem_nil, or_false] at ha
  rcases ha with (rfl | rfl | rfl | rfl | rfl | rfl | rfl) | rfl | rfl | rfl <;> trivial

end Noise
