import Verif.Proofs.Iterator
import Verif.Props.Table
/-! # Properties C58-C61 and C75: lookups (kademlia/iterator.go) -/
namespace Noise
open Spec Iter

/-- A search starts: the initial peers are those of a routing table of the node, dealt out to `n` lookups. -/
def Starts (S : Sorter) (c : Cfg) (n : Nat) (peers : List ID) (s : Iter.State) : Prop :=
  ∃ self t, Table.Reachable self t ∧ self.id = c.self ∧ t.peers S = .ok peers ∧ Iter.init c n peers = .ok s

theorem Starts.inv {S : Sorter} {c : Cfg} {n : Nat} {peers : List ID} {s : Iter.State} (h : Starts S c n peers s) : Iter.Inv S c peers s := by
  obtain ⟨self, t, h1, h2, h3, h4⟩ := h
  obtain ⟨l, h5, h6, h7, _, _⟩ := C51_find_closest S self t h1 self.id bucketSize
  rw [Table.peers, h1.inv.2] at h3
  have : (Res.ok l : Res (List ID)) = .ok peers := by rw [← h5, ← h3]
  cases this
  refine Iter.Inv.init S h6 ?_ h4
  intro hm
  obtain ⟨e, he, he'⟩ := List.mem_map.1 hm
  exact (h7 e he).2 (he'.trans h2.symm)

theorem Starts.run {S : Sorter} {c : Cfg} {n : Nat} {peers : List ID} {s0 s : Iter.State} (h : Starts S c n peers s0) {as : List Iter.Action}
    (hr : runs (Iter.step S c) s0 as = some s) : Iter.Inv S c peers s := runs_inv (fun _ _ _ hp hs => Iter.Inv.step hp hs) hr h.inv

/-- Each key is asked at most once, and never the node's own. -/
theorem Starts.asked {S : Sorter} {c : Cfg} {peers : List ID} {s : Iter.State} (h : Iter.Inv S c peers s) :
    (s.shared.asked.map (·.1.id)).Nodup ∧ c.self ∉ s.shared.asked.map (·.1.id) := by
  constructor
  · rw [List.nodup_iff_count]
    intro k
    have := h.keys k
    have h1 : ind (k ∈ s.shared.visited) ≤ 1 := by unfold ind; split <;> omega
    omega
  · intro hm
    have h1 := List.count_pos_iff.2 hm
    have h2 := h.keys c.self
    have h3 : base c peers c.self = 1 := by simp [base, ind]
    have h4 : ind (c.self ∈ s.shared.visited) ≤ 1 := by unfold ind; split <;> omega
    omega

theorem nodup_of_key {l : List ID} (h : ∀ k, l.countP (fun e => decide (e.id = k)) ≤ 1) : (l.map ID.id).Nodup := by
  rw [List.nodup_iff_count]
  intro k
  have := h k
  rw [List.count, List.countP_map]
  have he : ((fun x => x == k) ∘ ID.id) = fun e : ID => decide (e.id = k) := by funext e; exact Bool.eq_iff_iff.2 (by simp [Subtype.ext_iff])
  rw [he]; exact this

theorem asked_key_le {S : Sorter} {c : Cfg} {peers : List ID} {s : Iter.State} (h : Iter.Inv S c peers s) (k : PublicKey) : s.shared.asked.countP (fun x => decide (x.1.id = k)) ≤ 1 := by
  have h1 := List.nodup_iff_count.1 (Starts.asked h).1 k
  rw [List.count, List.countP_map] at h1
  have he : ((fun x => x == k) ∘ fun x : ID × PublicKey => x.1.id) = fun x : ID × PublicKey => decide (x.1.id = k) := by funext e; exact Bool.eq_iff_iff.2 (by simp [Subtype.ext_iff])
  rw [he] at h1; exact h1

theorem countP_okP_le (p : ID → Bool) (l : List Reply) : l.countP (okP p) ≤ l.countP (fun r => p r.peer) :=
  List.countP_mono_left (fun r _ h => by simp only [okP, Bool.and_eq_true] at h; exact h.2)

/-- What is collected when the search ends: whoever answered. -/
theorem collected_iff {S : Sorter} {c : Cfg} {peers : List ID} {s : Iter.State} (h : Iter.Inv S c peers s) {r : Res (List ID)} (hr : s.returned = some r) :
    (∀ e, e ∈ s.collected ↔ ∃ rep ∈ s.shared.replies, rep.peer = e ∧ rep.answer.isSome = true) ∧ (s.collected.map ID.id).Nodup := by
  obtain ⟨h1, h2, _⟩ := h.ret r hr
  obtain ⟨h3, h4, _, _⟩ := h.finished h1
  rw [h2] at h4
  simp only [List.countP_nil, Nat.add_zero] at h4
  constructor
  · intro e
    have h5 := h4 (fun x => decide (x = e))
    constructor
    · intro he
      have h6 : 0 < s.collected.countP (fun x => decide (x = e)) := List.countP_pos_iff.2 ⟨e, he, by simp⟩
      rw [h5] at h6
      obtain ⟨rep, hrep, hok⟩ := List.countP_pos_iff.1 h6
      simp only [okP, Bool.and_eq_true, decide_eq_true_eq] at hok
      exact ⟨rep, hrep, hok.2, hok.1⟩
    · rintro ⟨rep, hrep, hp, ha⟩
      have h6 : 0 < s.shared.replies.countP (okP fun x => decide (x = e)) := List.countP_pos_iff.2 ⟨rep, hrep, by simp [okP, ha, hp]⟩
      rw [← h5] at h6
      obtain ⟨x, hx, hx'⟩ := List.countP_pos_iff.1 h6
      simp only [decide_eq_true_eq] at hx'
      exact hx' ▸ hx
  · refine nodup_of_key fun k => ?_
    rw [h4]
    refine Nat.le_trans (countP_okP_le _ _) ?_
    rw [h3 (fun e => decide (e.id = k))]
    exact asked_key_le h k

/-- **C58.** What `Find` returns, under every schedule and whatever the peers answer: at most the configured number of identities, with different keys, nearest to the target
first; each was asked during this search and somebody at its address answered; the node itself is not among them; and whoever answered but is not returned is at least as
far from the target as everybody returned, whose number then is the configured one. A negative configured number panics. -/
theorem C58_results (S : Sorter) (c : Cfg) (n : Nat) (peers : List ID) (s0 s : Iter.State) (as : List Iter.Action) (h0 : Starts S c n peers s0)
    (hr : runs (Iter.step S c) s0 as = some s) (r : Res (List ID)) (hret : s.returned = some r) :
    (c.max < 0 → r = .panic) ∧
    (0 ≤ c.max → ∃ l, r = .ok l ∧ (l.length : Int) ≤ c.max ∧ (l.map ID.id).Nodup ∧ (l.Pairwise fun x y => dist x.id.1 c.target.1 ≤ dist y.id.1 c.target.1) ∧
      (∀ e ∈ l, e.id ≠ c.self ∧ ∃ rep ∈ s.shared.replies, rep.peer = e ∧ rep.answer.isSome = true) ∧
      ∀ rep ∈ s.shared.replies, rep.answer.isSome = true → rep.peer ∈ l ∨ ((l.length : Int) = c.max ∧ ∀ x ∈ l, dist x.id.1 c.target.1 ≤ dist rep.peer.id.1 c.target.1)) := by
  have h := h0.run hr
  obtain ⟨hm, hn⟩ := collected_iff h hret
  have hp := sort_perm S c.target s.collected
  have hso := sort_sorted S c.target s.collected
  obtain ⟨_, _, rfl⟩ := h.ret r hret
  generalize sortByDistance S c.target s.collected = q at hp hso
  have hqn : (q.map ID.id).Nodup := (hp.map ID.id).nodup_iff.2 hn
  have hmem : ∀ e ∈ q, e.id ≠ c.self ∧ ∃ rep ∈ s.shared.replies, rep.peer = e ∧ rep.answer.isSome = true := by
    intro e he
    obtain ⟨rep, h1, h2, h3⟩ := (hm e).1 (hp.mem_iff.1 he)
    refine ⟨?_, rep, h1, h2, h3⟩
    intro hs
    obtain ⟨k, hk⟩ := h.asked_of_reply h1
    exact (Starts.asked h).2 (List.mem_map.2 ⟨_, hk, by rw [h2]; exact hs⟩)
  have hall : ∀ rep ∈ s.shared.replies, rep.answer.isSome = true → rep.peer ∈ q := fun rep h1 h2 => hp.mem_iff.2 ((hm _).2 ⟨rep, h1, rfl, h2⟩)
  constructor
  · intro hneg
    rw [truncate, if_pos (by omega), if_pos hneg]
  · intro hpos
    by_cases hl : (q.length : Int) > c.max
    · refine ⟨q.take c.max.toNat, by rw [truncate, if_pos hl, if_neg (by omega)], ?_, ?_, ?_, ?_, ?_⟩
      · rw [List.length_take]; omega
      · exact hqn.sublist ((List.take_sublist _ _).map _)
      · exact hso.sublist (List.take_sublist _ _)
      · exact fun e he => hmem e (List.mem_of_mem_take he)
      · intro rep h1 h2
        have hq := hall rep h1 h2
        rw [← List.take_append_drop c.max.toNat q] at hq hso
        rcases List.mem_append.1 hq with hq | hq
        · exact Or.inl hq
        · refine Or.inr ⟨by rw [List.length_take]; omega, fun x hx => ?_⟩
          exact (List.pairwise_append.1 hso).2.2 x hx _ hq
    · exact ⟨q, by rw [truncate, if_neg hl], by omega, hqn, hso, hmem, fun rep h1 h2 => Or.inl (hall rep h1 h2)⟩

/-! A network for the examples: the node `1` knows `2` and `3`; `2` names `4`, the node itself and the target `9`; `4` names nobody; `3` does not answer. -/

def lkPeer (i : UInt8) : ID := newID (keyOf [i]) [] (UInt16.ofNat i.toNat)
def lkTable : Table := [lkPeer 2, lkPeer 3].foldl (fun t e => t.apply (.update e)) ((newTable (lkPeer 1)).getD ⟨fun _ => [], ID.zero, 0⟩)
def lkCfg : Cfg := ⟨keyOf [1], keyOf [9], 1, 16⟩
def lkPeers : List ID := match lkTable.peers insertionSorter with | .ok l => l | _ => []
def lkStart : Iter.State := match Iter.init lkCfg 2 lkPeers with | .ok s => s | _ => ⟨⟨[], [], [], []⟩, [], false, [], none⟩

theorem lk_starts : Starts insertionSorter lkCfg 2 lkPeers lkStart :=
  ⟨lkPeer 1, lkTable, ⟨_, [.update (lkPeer 2), .update (lkPeer 3)], rfl, rfl⟩, by decide +kernel, by decide +kernel, by decide +kernel⟩

/-- A complete search: `who` answers in place of `2`. -/
def lkRun (who : PublicKey) : List Iter.Action :=
  let m i := Iter.Action.lookup i .main
  let w i := Iter.Action.lookup i (.worker 0)
  [m 0, m 0, m 1, m 1, w 0, w 1, .lookup 0 (.answer 0 who none), .lookup 1 (.answer 0 who (some [lkPeer 4, lkPeer 1, lkPeer 9])), w 1, .collect, w 1, m 1, m 1, m 1, m 1, w 1,
    .lookup 1 (.answer 0 (keyOf [4]) (some [])), w 1, w 1, m 1, m 1, m 1, m 1, w 1, m 1, w 0, m 0, m 0, m 0, m 0, w 0, m 0, .close, .collect, .finish]

theorem view_of {α β : Type} {o : Option α} {f : α → β} {v : β} (h : o.map f = some v) : ∃ s, o = some s ∧ f s = v := by
  cases o with
  | none => cases h
  | some s => exact ⟨s, rfl, Option.some.inj h⟩

/-- The example network is searched to the end. -/
example : (runs (Iter.step insertionSorter lkCfg) lkStart (lkRun (keyOf [2]))).map (fun s => (lkPeers, s.returned, s.shared.asked.map (·.1))) =
    some ([lkPeer 3, lkPeer 2], some (.ok [lkPeer 2, lkPeer 4]), [lkPeer 3, lkPeer 2, lkPeer 4]) := by decide +kernel

/-! ## C59 -/

theorem init_measure (c : Cfg) (n : Nat) (peers : List ID) (s : Iter.State) (h : Iter.init c n peers = .ok s) (U : List PublicKey) :
    gMeasure U s ≤ 10 * U.length + 9 * peers.length + n * (c.requests + 4) + 2 := by
  unfold Iter.init at h
  split at h <;> cases h
  rename_i hc
  have h1 : ∀ m, ((List.replicate m Worker.idle).map wWeight).sum = m := by
    intro m; induction m with
    | zero => rfl
    | succ m ih => rw [List.replicate_succ, List.map_cons, List.sum_cons, ih]; simp [wWeight]; omega
  have h2 : ∀ b, lMeasure (Lookup.new c.requests b) = 9 * b.length + (c.requests + 4) := by
    intro b; simp only [lMeasure, Lookup.new, List.length_nil, h1, mWeight]; omega
  have h3 : ∀ l : List (List ID), ((l.map (Lookup.new c.requests)).map lMeasure).sum = (l.map fun b => 9 * b.length).sum + l.length * (c.requests + 4) := by
    intro l; induction l with
    | nil => simp
    | cons b l ih => simp only [List.map_cons, List.sum_cons, ih, h2, List.length_cons, Nat.add_mul]; omega
  have h4 : ((deal n 0 peers (List.replicate n [])).map fun b => 9 * b.length).sum = 9 * peers.length := by
    by_cases h0 : n = 0
    · have hp : peers = [] := Classical.byContradiction fun hp => hc ⟨h0, hp⟩
      subst h0 hp; rfl
    · rw [deal_sum (f := fun b => 9 * b.length) (g := fun _ => 9) (by intro b e; simp; omega) n (by omega) peers 0 _ (by simp),
        sum_zero _ (List.replicate n []) (fun x hx => by rw [(List.mem_replicate.1 hx).2]; rfl)]
      simp only [List.map_const', List.sum_replicate_nat]; omega
  have h5 : unv U (peers.map ID.id ++ [c.self, c.target]) ≤ U.length := List.length_filter_le _ _
  simp only [gMeasure, h3, h4, deal_length, List.length_replicate, List.length_nil]
  have h6 : ind (false = false) = 1 := rfl
  have h7 : ind ((none : Option (Res (List ID))) = none) = 1 := rfl
  simp only [ind, if_true]
  omega

/-- **C59.** Under every schedule: each key is asked at most once. If the answers received mention only keys from a finite set `U`, the search has made at most
`10 |U| + 9 |peers| + n (r + 4) + 2` steps (`n` lookups with `r` requests each), so it cannot go on forever. As long as `Find` has not returned, a step of the program is
possible, unless it waits for the answer to a request. So once requests end — they have a timeout — `Find` returns. -/
theorem C59_terminates (S : Sorter) (c : Cfg) (n : Nat) (peers : List ID) (s0 s : Iter.State) (as : List Iter.Action) (h0 : Starts S c n peers s0)
    (hr : runs (Iter.step S c) s0 as = some s) :
    (s.shared.asked.map (·.1.id)).Nodup ∧
    (∀ U : List PublicKey, (∀ rep ∈ s.shared.replies, ∀ res, rep.answer = some res → ∀ e ∈ res, e.id ∈ U) → as.length ≤ 10 * U.length + 9 * peers.length + n * (c.requests + 4) + 2) ∧
    (s.returned = none → (∃ a s', (∀ i j who ans, a ≠ .lookup i (.answer j who ans)) ∧ Iter.step S c s a = some s') ∨ ∃ l ∈ s.lookups, ∃ id, Worker.request id ∈ l.workers) := by
  have h := h0.run hr
  refine ⟨(Starts.asked h).1, ?_, ?_⟩
  · intro U hU
    have h1 := runs_measure U h0.inv hr hU
    obtain ⟨_, _, _, _, _, h2⟩ := h0
    have h3 := init_measure c n peers s0 h2 U
    omega
  · intro hn
    cases hch : s.shared.chan with
    | cons x r => exact Or.inl ⟨.collect, _, by simp, by simp only [Iter.step, hch]; rfl⟩
    | nil =>
      by_cases hall : s.lookups.all (fun x => decide (x.main = .done)) = true
      · cases hc : s.closed with
        | false => exact Or.inl ⟨.close, _, by simp, by simp only [Iter.step]; rw [if_pos ⟨hc, hall⟩]⟩
        | true => exact Or.inl ⟨.finish, _, by simp, by simp only [Iter.step]; rw [if_pos ⟨hc, hch, hn⟩]⟩
      · obtain ⟨l, hl, hne⟩ : ∃ l ∈ s.lookups, l.main ≠ .done := by
          refine Classical.byContradiction fun hcon => hall (List.all_eq_true.2 fun w hw => ?_)
          simp only [decide_eq_true_eq]
          exact Classical.byContradiction fun hne => hcon ⟨w, hw, hne⟩
        rcases lookup_progress (h.loc l hl) hne hch with ⟨a, ⟨sh', l'⟩, ha, hst⟩ | h'
        · obtain ⟨i, hi⟩ := List.mem_iff_getElem?.1 hl
          refine Or.inl ⟨.lookup i a, { s with shared := sh', lookups := s.lookups.set i l' }, ?_, by simp only [Iter.step, hi, hst]⟩
          intro i' j who ans he
          cases he
          cases ha
        · exact Or.inr ⟨l, hl, h'⟩

/-! ## C60 -/

/-- **C60 (completeness).** Suppose each peer gives a definite answer (`ans`, `none`: none), and no two discoverable identities share a key. Then a search with at least one
request per lookup that has returned has asked exactly the discoverable identities — its initial peers and whoever is named by somebody discoverable, except the node
itself and the target — and returns the nearest of those that answer. -/
theorem C60_complete (S : Sorter) (c : Cfg) (n : Nat) (peers : List ID) (s0 s : Iter.State) (as : List Iter.Action) (h0 : Starts S c n peers s0)
    (hR : 0 < c.requests) (hr : runs (Iter.step S c) s0 as = some s) (r : Res (List ID)) (hret : s.returned = some r)
    (ans : ID → Option (List ID)) (hans : ∀ rep ∈ s.shared.replies, rep.answer = ans rep.peer)
    (huniq : ∀ e e', Discovered c.self c.target peers (fun p l => ans p = some l) e → Discovered c.self c.target peers (fun p l => ans p = some l) e' → e.id = e'.id → e = e') :
    (∀ e, (∃ k, (e, k) ∈ s.shared.asked) ↔ Discovered c.self c.target peers (fun p l => ans p = some l) e) ∧
    ∃ l, r = truncate c.max l ∧ (l.map ID.id).Nodup ∧ (l.Pairwise fun x y => dist x.id.1 c.target.1 ≤ dist y.id.1 c.target.1) ∧
      ∀ e, e ∈ l ↔ Discovered c.self c.target peers (fun p l => ans p = some l) e ∧ (ans e).isSome = true := by
  have h := h0.run hr
  obtain ⟨hm, hn⟩ := collected_iff h hret
  obtain ⟨hcl, _, rfl⟩ := h.ret r hret
  obtain ⟨f1, _, f3, f4⟩ := h.finished hcl
  have hD : ∀ e k, (e, k) ∈ s.shared.asked → Discovered c.self c.target peers (fun p l => ans p = some l) e := by
    intro e k hk
    refine Disc.mono ?_ (h.disc e (Or.inl ⟨k, hk⟩))
    rintro p res ⟨rep, h1, rfl, h2⟩
    rw [← hans rep h1]; exact h2
  -- a visited key of a discoverable identity has been asked
  have hkey : ∀ e, Discovered c.self c.target peers (fun p l => ans p = some l) e → e.id ∈ s.shared.visited → base c peers e.id = 0 → ∃ k, (e, k) ∈ s.shared.asked := by
    intro e he hv hb
    have h1 := f3 hR e.id
    rw [hb] at h1
    have h2 : ind (e.id ∈ s.shared.visited) = 1 := by simp [ind, hv]
    obtain ⟨⟨e', k⟩, hx, hx'⟩ := List.mem_map.1 (List.count_pos_iff.1 (show 0 < (s.shared.asked.map (·.1.id)).count e.id by omega))
    obtain rfl := huniq e' e (hD e' k hx) he hx'
    exact ⟨k, hx⟩
  have hrep : ∀ e k, (e, k) ∈ s.shared.asked → ∃ rep ∈ s.shared.replies, rep.peer = e := by
    intro e k hk
    have h1 := f1 (fun x => decide (x = e))
    have h2 : 0 < s.shared.asked.countP (fun x => decide (x.1 = e)) := List.countP_pos_iff.2 ⟨_, hk, by simp⟩
    rw [← h1] at h2
    obtain ⟨rep, h3, h4⟩ := List.countP_pos_iff.1 h2
    exact ⟨rep, h3, by simpa using h4⟩
  have hpeer : c.self ∉ peers.map ID.id := by
    intro hms
    obtain ⟨self, t, q1, q2, q3, _⟩ := h0
    obtain ⟨l, h5, _, h7, _, _⟩ := C51_find_closest S self t q1 self.id bucketSize
    rw [Table.peers, q1.inv.2] at q3
    have : (Res.ok l : Res (List ID)) = .ok peers := by rw [← h5, ← q3]
    cases this
    obtain ⟨e, he, he'⟩ := List.mem_map.1 hms
    exact (h7 e he).2 (he'.trans q2.symm)
  have hA : ∀ e, Discovered c.self c.target peers (fun p l => ans p = some l) e → ∃ k, (e, k) ∈ s.shared.asked := by
    intro e he
    induction he with
    | @peer e hp =>
      have hb : base c peers e.id = 0 := by
        have : e.id ≠ c.self := fun hc => hpeer (hc ▸ List.mem_map_of_mem hp)
        simp only [base, ind, this, false_or]
        rw [if_neg]
        rintro ⟨_, h2⟩; exact h2 (List.mem_map_of_mem hp)
      refine hkey e (.peer hp) ?_ hb
      exact runs_visited hr e.id (by
        obtain ⟨_, _, _, _, _, q4⟩ := h0
        unfold Iter.init at q4
        split at q4 <;> cases q4
        exact List.mem_append_left _ (List.mem_map_of_mem hp))
    | @answer p e res hp ha he h1 h2 ih =>
      obtain ⟨k, hk⟩ := ih
      obtain ⟨rep, h3, rfl⟩ := hrep p k hk
      refine hkey e (.answer hp ha he h1 h2) (f4 rep h3 res ((hans rep h3).trans ha) e he) ?_
      simp [base, ind, h1, h2]
  have hp := sort_perm S c.target s.collected
  refine ⟨fun e => ⟨fun ⟨k, hk⟩ => hD e k hk, hA e⟩, _, rfl, (hp.map ID.id).nodup_iff.2 hn, sort_sorted S c.target s.collected, ?_⟩
  intro e
  rw [hp.mem_iff, hm]
  constructor
  · rintro ⟨rep, h1, rfl, h2⟩
    obtain ⟨k, hk⟩ := h.asked_of_reply h1
    exact ⟨hD _ k hk, by rw [← hans rep h1]; exact h2⟩
  · rintro ⟨h1, h2⟩
    obtain ⟨k, hk⟩ := hA e h1
    obtain ⟨rep, h3, rfl⟩ := hrep e k hk
    exact ⟨rep, h3, rfl, by rw [hans rep h3]; exact h2⟩

/-- **C60 (schedule-independence).** Two searches from the same initial peers for the same target, with the same answers, return the same, whatever the schedules, the
numbers of lookups and of requests, and the sorting algorithm. -/
theorem C60_deterministic (S S' : Sorter) (c c' : Cfg) (n n' : Nat) (peers : List ID) (s0 s s0' s' : Iter.State) (as as' : List Iter.Action)
    (h0 : Starts S c n peers s0) (h0' : Starts S' c' n' peers s0') (hself : c.self = c'.self) (htarget : c.target = c'.target) (hmax : c.max = c'.max)
    (hR : 0 < c.requests) (hR' : 0 < c'.requests) (hr : runs (Iter.step S c) s0 as = some s) (hr' : runs (Iter.step S' c') s0' as' = some s')
    (r r' : Res (List ID)) (hret : s.returned = some r) (hret' : s'.returned = some r')
    (ans : ID → Option (List ID)) (hans : ∀ rep ∈ s.shared.replies, rep.answer = ans rep.peer) (hans' : ∀ rep ∈ s'.shared.replies, rep.answer = ans rep.peer)
    (huniq : ∀ e e', Discovered c.self c.target peers (fun p l => ans p = some l) e → Discovered c.self c.target peers (fun p l => ans p = some l) e' → e.id = e'.id → e = e') :
    r = r' := by
  obtain ⟨_, l, h1, h2, h3, h4⟩ := C60_complete S c n peers s0 s as h0 hR hr r hret ans hans huniq
  rw [hself, htarget] at huniq
  obtain ⟨_, l', h1', h2', h3', h4'⟩ := C60_complete S' c' n' peers s0' s' as' h0' hR' hr' r' hret' ans hans' huniq
  rw [← hself, ← htarget] at h4'
  rw [← htarget] at h3'
  have hp : l.Perm l' := (List.perm_ext_iff_of_nodup h2.of_map h2'.of_map).2 fun e => by rw [h4, h4']
  rw [h1, h1', hmax, sorted_unique hp h2 h3 h3']

/-- The answers of the example network. -/
def lkAns (e : ID) : Option (List ID) := if e = lkPeer 2 then some [lkPeer 4, lkPeer 1, lkPeer 9] else if e = lkPeer 4 then some [] else none

/-- The hypotheses of C60 hold for the example network and the complete search above. -/
example : (∃ s, runs (Iter.step insertionSorter lkCfg) lkStart (lkRun (keyOf [2])) = some s ∧ ∀ rep ∈ s.shared.replies, rep.answer = lkAns rep.peer) ∧
    ∀ e e', Discovered lkCfg.self lkCfg.target lkPeers (fun p l => lkAns p = some l) e → Discovered lkCfg.self lkCfg.target lkPeers (fun p l => lkAns p = some l) e' → e.id = e'.id → e = e' := by
  constructor
  · obtain ⟨s, h1, h2⟩ := view_of (o := runs (Iter.step insertionSorter lkCfg) lkStart (lkRun (keyOf [2]))) (f := fun s => s.shared.replies.all fun rep => decide (rep.answer = lkAns rep.peer))
      (v := true) (by decide +kernel)
    simp only [List.all_eq_true, decide_eq_true_eq] at h2
    exact ⟨s, h1, h2⟩
  · have key : ∀ e, Discovered lkCfg.self lkCfg.target lkPeers (fun p l => lkAns p = some l) e → e ∈ [lkPeer 3, lkPeer 2, lkPeer 4] := by
      intro e he
      induction he with
      | @peer e hp =>
        have : lkPeers = [lkPeer 3, lkPeer 2] := by decide +kernel
        rw [this] at hp
        simp only [List.mem_cons, List.not_mem_nil, or_false] at hp ⊢
        rcases hp with h | h <;> simp [h]
      | @answer p e res _ ha he h1 h2 ih =>
        simp only [lkAns] at ha
        split at ha
        · cases ha
          simp only [List.mem_cons, List.not_mem_nil, or_false] at he
          rcases he with rfl | rfl | rfl
          · simp
          · exact absurd (by decide +kernel) h1
          · exact absurd (by decide +kernel) h2
        · split at ha
          · cases ha; cases he
          · cases ha
    intro e e' he he' hid
    have h1 := key e he
    have h2 := key e' he'
    revert hid
    simp only [List.mem_cons, List.not_mem_nil, or_false] at h1 h2
    rcases h1 with rfl | rfl | rfl <;> rcases h2 with rfl | rfl | rfl <;> decide +kernel

/-! ## C61 -/

/-- **C61 is false of the code (1)**: no peer is ever asked for the target. Each is asked for the nodes nearest to itself. -/
theorem C61_asks_for_itself_refuted (S : Sorter) (c : Cfg) (n : Nat) (peers : List ID) (s0 s : Iter.State) (as : List Iter.Action) (h0 : Starts S c n peers s0)
    (hr : runs (Iter.step S c) s0 as = some s) : ∀ p k, (p, k) ∈ s.shared.asked → k = p.id := fun p k hk => (h0.run hr).tgt (p, k) hk

/-- **C61 is false of the code (2)**: unless the target is one of the peers the search starts from, it is never asked and never returned, whatever the answers say about it;
and there is a search in which a peer names the target, and it is not found. -/
theorem C61_target_not_found_refuted :
    (∀ (S : Sorter) (c : Cfg) (n : Nat) (peers : List ID) (s0 s : Iter.State) (as : List Iter.Action), Starts S c n peers s0 → runs (Iter.step S c) s0 as = some s → c.target ∉ peers.map ID.id →
      (∀ p k, (p, k) ∈ s.shared.asked → p.id ≠ c.target) ∧ ∀ l, s.returned = some (.ok l) → ∀ e ∈ l, e.id ≠ c.target) ∧
    ∃ c peers s0 s as, Starts insertionSorter c 2 peers s0 ∧ runs (Iter.step insertionSorter c) s0 as = some s ∧
      (∃ rep ∈ s.shared.replies, ∃ l, rep.answer = some l ∧ ∃ e ∈ l, e.id = c.target) ∧ s.returned = some (.ok [lkPeer 2, lkPeer 4]) ∧ c.target = keyOf [9] := by
  constructor
  · intro S c n peers s0 s as h0 hr ht
    have h := h0.run hr
    have hb : base c peers c.target = 1 := if_pos (Or.inr ⟨rfl, ht⟩)
    have ha : ∀ p k, (p, k) ∈ s.shared.asked → p.id ≠ c.target := by
      intro p k hk hpt
      have h1 := h.keys c.target
      have h2 : 0 < (s.shared.asked.map (·.1.id)).count c.target := List.count_pos_iff.2 (List.mem_map.2 ⟨_, hk, hpt⟩)
      have h4 : ind (c.target ∈ s.shared.visited) ≤ 1 := by unfold ind; split <;> omega
      omega
    refine ⟨ha, fun l hl e he hpt => ?_⟩
    have hc := C58_results S c n peers s0 s as h0 hr _ hl
    have hpos : 0 ≤ c.max := by
      refine Classical.byContradiction fun hneg => ?_
      have := hc.1 (by omega); cases this
    obtain ⟨l', h1, _, _, _, h5, _⟩ := hc.2 hpos
    cases h1
    obtain ⟨_, rep, hrep, rfl, _⟩ := h5 e he
    obtain ⟨k, hk⟩ := h.asked_of_reply hrep
    exact ha _ k hk hpt
  · obtain ⟨s, h1, h2⟩ := view_of (o := runs (Iter.step insertionSorter lkCfg) lkStart (lkRun (keyOf [2])))
      (f := fun s => (decide (⟨lkPeer 2, keyOf [2], some [lkPeer 4, lkPeer 1, lkPeer 9]⟩ ∈ s.shared.replies), s.returned)) (v := (true, some (.ok [lkPeer 2, lkPeer 4]))) (by decide +kernel)
    simp only [Prod.mk.injEq, decide_eq_true_eq] at h2
    exact ⟨lkCfg, lkPeers, lkStart, s, lkRun (keyOf [2]), lk_starts, h1, ⟨_, h2.1, _, rfl, lkPeer 9, by decide +kernel, by decide +kernel⟩, h2.2, rfl⟩

/-- **C61, what holds** (missing: targets the node does not know yet, and that peers are asked for the target): a target among the initial peers is asked by every search
that has returned, and is returned if it answers and the number of results is positive. -/
theorem C61_known_target_partial (S : Sorter) (c : Cfg) (n : Nat) (peers : List ID) (s0 s : Iter.State) (as : List Iter.Action) (h0 : Starts S c n peers s0)
    (hR : 0 < c.requests) (hr : runs (Iter.step S c) s0 as = some s) (r : Res (List ID)) (hret : s.returned = some r) (e : ID) (he : e ∈ peers) (ht : e.id = c.target) :
    ∃ rep ∈ s.shared.replies, rep.peer.id = c.target ∧ (rep.answer.isSome = true → 0 < c.max → ∃ l, r = .ok l ∧ l.head? = some rep.peer) := by
  have h := h0.run hr
  obtain ⟨hcl, _, hrr⟩ := h.ret r hret
  obtain ⟨f1, _, f3, _⟩ := h.finished hcl
  have hm : c.target ∈ peers.map ID.id := ht ▸ List.mem_map_of_mem he
  have hself : c.target ≠ c.self := by
    intro hc
    obtain ⟨self, t, q1, q2, q3, _⟩ := h0
    obtain ⟨l, h5, _, h7, _, _⟩ := C51_find_closest S self t q1 self.id bucketSize
    rw [Table.peers, q1.inv.2] at q3
    have : (Res.ok l : Res (List ID)) = .ok peers := by rw [← h5, ← q3]
    cases this
    exact (h7 e he).2 (ht.trans (hc.trans q2.symm))
  have hb : base c peers c.target = 0 := by simp [base, ind, hself, hm]
  have h1 := f3 hR c.target
  rw [hb, show ind (c.target ∈ s.shared.visited) = 1 by simp [ind, h.vis.2]] at h1
  obtain ⟨⟨e', k⟩, hx, hx'⟩ := List.mem_map.1 (List.count_pos_iff.1 (show 0 < (s.shared.asked.map (·.1.id)).count c.target by omega))
  have h2 := f1 (fun x => decide (x = e'))
  have h3 : 0 < s.shared.asked.countP (fun x => decide (x.1 = e')) := List.countP_pos_iff.2 ⟨_, hx, by simp⟩
  rw [← h2] at h3
  obtain ⟨rep, h4, h5⟩ := List.countP_pos_iff.1 h3
  simp only [decide_eq_true_eq] at h5
  subst h5
  refine ⟨rep, h4, hx', fun ha hpos => ?_⟩
  obtain ⟨l, hl, hlen, hn, hso, hmem, hall⟩ := (C58_results S c n peers s0 s as h0 hr r hret).2 (by omega)
  refine ⟨l, hl, ?_⟩
  have hzero : dist rep.peer.id.1 c.target.1 = 0 := by rw [show rep.peer.id = c.target from hx']; exact dist_self _
  have heq : ∀ x ∈ l, dist x.id.1 c.target.1 = 0 → x = rep.peer := by
    intro x hxl hd
    obtain ⟨_, rep', hr', rfl, _⟩ := hmem x hxl
    have hkey : rep'.peer.id = rep.peer.id := Subtype.ext (dist_inj (t := c.target.1) (by rw [rep'.peer.id.2, rep.peer.id.2]) (hd.trans hzero.symm))
    obtain ⟨k1, hk1⟩ := h.asked_of_reply hr'
    obtain ⟨k2, hk2⟩ := h.asked_of_reply h4
    have := List.inj_on_of_nodup_map (Starts.asked h).1 hk1 hk2 hkey
    exact congrArg Prod.fst this
  cases l with
  | nil =>
    rcases hall rep h4 ha with h' | ⟨h', _⟩
    · cases h'
    · simp at h'; omega
  | cons x l =>
    simp only [List.head?_cons]
    congr 1
    apply heq x List.mem_cons_self
    rcases hall rep h4 ha with h' | ⟨_, h'⟩
    · rcases List.mem_cons.1 h' with rfl | h'
      · exact hzero
      · have := (List.pairwise_cons.1 hso).1 _ h'; omega
    · have := h' x List.mem_cons_self; omega

/-- Such a search: `2` is looked for, and names nobody. -/
def lkCfg2 : Cfg := { lkCfg with target := keyOf [2] }
def lkStart2 : Iter.State := match Iter.init lkCfg2 2 lkPeers with | .ok s => s | _ => lkStart
example : let m i := Iter.Action.lookup i .main
    let w i := Iter.Action.lookup i (.worker 0)
    (runs (Iter.step insertionSorter lkCfg2) lkStart2 [m 0, m 0, m 1, m 1, w 0, w 1, .lookup 0 (.answer 0 (keyOf [3]) none), .lookup 1 (.answer 0 (keyOf [2]) (some [])), w 1, .collect, w 1,
      m 1, m 1, m 1, m 1, w 1, m 1, w 0, m 0, m 0, m 0, m 0, w 0, m 0, .close, .finish]).map Iter.State.returned = some (some (.ok [lkPeer 2])) ∧
    lkPeer 2 ∈ lkPeers ∧ (lkPeer 2).id = lkCfg2.target := by decide +kernel

/-! ## C75 -/

/-- **C75 is false of the code**: the answer of whoever listens at an identity's address counts as the answer of that identity. Here node `7` answers in place of node `2`,
and `Find` returns the identity of node `2`. -/
theorem C75_impostor_refuted : ∃ c peers s0 s as l e, Starts insertionSorter c 2 peers s0 ∧ runs (Iter.step insertionSorter c) s0 as = some s ∧ s.returned = some (.ok l) ∧ e ∈ l ∧
    ∀ rep ∈ s.shared.replies, rep.who ≠ e.id := by
  obtain ⟨s, h1, h2⟩ := view_of (o := runs (Iter.step insertionSorter lkCfg) lkStart (lkRun (keyOf [7])))
    (f := fun s => (s.shared.replies.all fun rep => decide (rep.who ≠ (lkPeer 2).id), s.returned)) (v := (true, some (.ok [lkPeer 2, lkPeer 4]))) (by decide +kernel)
  simp only [Prod.mk.injEq, List.all_eq_true, decide_eq_true_eq] at h2
  exact ⟨lkCfg, lkPeers, lkStart, s, lkRun (keyOf [7]), [lkPeer 2, lkPeer 4], lkPeer 2, lk_starts, h1, h2.2, by decide +kernel, h2.1⟩

/-- **C75, what holds** (missing: addresses at which somebody else answers): if every answer came from the owner of the identity that was asked, every identity returned
answered itself. -/
theorem C75_owners_partial (S : Sorter) (c : Cfg) (n : Nat) (peers : List ID) (s0 s : Iter.State) (as : List Iter.Action) (h0 : Starts S c n peers s0)
    (hr : runs (Iter.step S c) s0 as = some s) (l : List ID) (hret : s.returned = some (.ok l)) (hown : ∀ rep ∈ s.shared.replies, rep.answer.isSome = true → rep.who = rep.peer.id) :
    ∀ e ∈ l, ∃ rep ∈ s.shared.replies, rep.who = e.id ∧ rep.answer.isSome = true := by
  intro e he
  have hc := C58_results S c n peers s0 s as h0 hr _ hret
  have hpos : 0 ≤ c.max := by
    refine Classical.byContradiction fun hneg => ?_
    have := hc.1 (by omega); cases this
  obtain ⟨l', h1, _, _, _, h5, _⟩ := hc.2 hpos
  cases h1
  obtain ⟨_, rep, hrep, rfl, ha⟩ := h5 e he
  exact ⟨rep, hrep, hown rep hrep ha, ha⟩

end Noise
