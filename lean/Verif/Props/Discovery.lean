import Verif.Props.Iterator
/-! # Property C121: how much of the network a lookup discovers (kademlia/iterator.go, table.go, protocol.go:215-236)

The answers of the peers are here those of correct nodes: what `FindClosest` finds in their routing tables (C57). -/
namespace Noise
open Spec Iter

/-- `p` answers with `l` out of the routing table `t` when it is asked for the peers nearest to itself, as lookups do (`C61_asks_for_itself_refuted`, protocol.go:232). -/
def AnswersFrom (S : Sorter) (p : ID) (t : Table) (l : List ID) : Prop := Table.Reachable p t ∧ t.findClosest S p.id 16 = .ok l

/-- A correct node with more than 16 peers tells a lookup about the 16 that are nearest to itself, and about nobody else. -/
theorem answers_nearest {S : Sorter} {p : ID} {t : Table} {l : List ID} (h : AnswersFrom S p t l) (N : List ID) (hN : N.Nodup) (hlen : 16 ≤ N.length)
    (hin : ∀ x ∈ N, x ∈ t.all ∧ x.id ≠ p.id) (y : ID) (hfar : ∀ x ∈ N, dist x.id.1 p.id.1 < dist y.id.1 p.id.1) : y ∉ l := by
  obtain ⟨ht, hl⟩ := h
  obtain ⟨l', h1, h2, _, _, h5⟩ := C51_find_closest S p t ht p.id 16
  have : l' = l := Res.ok.inj (h1.symm.trans hl)
  subst this
  intro hy
  have hp : t.peers S = .ok l' := by rw [Table.peers, ht.inv.2]; exact hl
  have hsub : ∀ x ∈ N, x ∈ l' := by
    intro x hx
    by_contra hc
    have := C52_peers_partial S p t ht l' hp x (hin x hx).1 (hin x hx).2 hc y hy
    have := hfar x hx
    omega
  have hyN : y ∉ N := fun hc => by have := hfar y hc; omega
  have h6 : (y :: N).Nodup := List.nodup_cons.2 ⟨hyN, hN⟩
  have h7 := (List.subperm_of_subset h6 (l₂ := l') (by
    intro x hx
    rcases List.mem_cons.1 hx with rfl | hx
    · exact hy
    · exact hsub x hx)).length_le
  simp only [List.length_cons] at h7
  omega

/-- **C121 is false of the code**: whoever is in the middle of a crowd is not heard outside of it. Let `K` be a set of identities such that every peer in it that answers has 16 peers from `K` in its routing table that are nearer to
it than all peers outside of `K` that it has there (the tables may change during the search). A search that starts from peers in `K` never leaves it: nobody else is asked or returned, whatever the tables contain, and whatever is looked for. -/
theorem C121_cluster_refuted (S : Sorter) (c : Cfg) (n : Nat) (peers : List ID) (s0 s : Iter.State) (as : List Iter.Action) (h0 : Starts S c n peers s0)
    (hr : runs (Iter.step S c) s0 as = some s) (K : ID → Prop) (hpeers : ∀ e ∈ peers, K e)
    (hK : ∀ rep ∈ s.shared.replies, K rep.peer → ∀ l, rep.answer = some l → ∃ t, AnswersFrom S rep.peer t l ∧
      ∃ N : List ID, N.Nodup ∧ N.length = 16 ∧ ∀ x ∈ N, x ∈ t.all ∧ x.id ≠ rep.peer.id ∧ ∀ y ∈ t.all, ¬ K y → dist x.id.1 rep.peer.id.1 < dist y.id.1 rep.peer.id.1) :
    (∀ p k, (p, k) ∈ s.shared.asked → K p) ∧ ∀ l, s.returned = some (.ok l) → ∀ e ∈ l, K e := by
  have h := h0.run hr
  have hA : ∀ p k, (p, k) ∈ s.shared.asked → K p := by
    intro p k hk
    have hd := h.disc p (Or.inl ⟨k, hk⟩)
    clear hk
    induction hd with
    | peer hp => exact hpeers _ hp
    | @answer p e res _ ha he _ _ ih =>
      obtain ⟨rep, h1, rfl, h2⟩ := ha
      obtain ⟨t, ht, N, hN, hlen, hin⟩ := hK rep h1 ih res h2
      by_contra hc
      have hall : e ∈ t.all := by
        obtain ⟨l', h3, _, h4, _, _⟩ := C51_find_closest S rep.peer t ht.1 rep.peer.id 16
        obtain rfl : l' = res := Res.ok.inj (h3.symm.trans ht.2)
        exact (h4 e he).1
      exact answers_nearest ht N hN (by omega) (fun x hx => ⟨(hin x hx).1, (hin x hx).2.1⟩) e (fun x hx => (hin x hx).2.2 e hall hc) he
  refine ⟨hA, ?_⟩
  intro l hl e he
  obtain ⟨hm, _⟩ := collected_iff h hl
  have : e ∈ s.collected := by
    have hp := sort_perm S c.target s.collected
    obtain ⟨_, _, h3⟩ := h.ret _ hl
    refine hp.mem_iff.1 ?_
    unfold truncate at h3
    split at h3
    · split at h3
      · cases h3
      · cases h3; exact List.mem_of_mem_take he
    · cases h3; exact he
  obtain ⟨rep, h1, rfl, _⟩ := (hm e).1 this
  obtain ⟨k, hk⟩ := h.asked_of_reply h1
  exact hA _ k hk

/-- **C121, what holds** (missing: tables with more than 16 other peers). Suppose every peer that is asked and is to lead further (`know p ≠ []`) answers, out of a routing table with at most 16 other peers, that contains `know p`;
and no key is announced under two addresses. Then a search that has returned has asked everybody who can be reached through what the peers know, the node itself and the target excepted. -/
theorem C121_small_tables_partial (S : Sorter) (c : Cfg) (n : Nat) (peers : List ID) (s0 s : Iter.State) (as : List Iter.Action) (h0 : Starts S c n peers s0)
    (hR : 0 < c.requests) (hr : runs (Iter.step S c) s0 as = some s) (r : Res (List ID)) (hret : s.returned = some r)
    (know : ID → List ID)
    (hknow : ∀ rep ∈ s.shared.replies, know rep.peer ≠ [] → ∃ l t, rep.answer = some l ∧ AnswersFrom S rep.peer t l ∧ (t.all.filter fun e => e.id ≠ rep.peer.id).length ≤ 16 ∧
      ∀ e ∈ know rep.peer, e ∈ t.all ∧ e.id ≠ rep.peer.id)
    (huniq : ∀ e e', (e ∈ peers ∨ ∃ rep ∈ s.shared.replies, ∃ l, rep.answer = some l ∧ e ∈ l) → (e' ∈ peers ∨ ∃ rep ∈ s.shared.replies, ∃ l, rep.answer = some l ∧ e' ∈ l) → e.id = e'.id → e = e') :
    ∀ e, Discovered c.self c.target peers (fun p l => l = know p) e → ∃ rep ∈ s.shared.replies, rep.peer = e := by
  have h := h0.run hr
  obtain ⟨hcl, _, _⟩ := h.ret r hret
  obtain ⟨f1, _, f3, f4⟩ := h.finished hcl
  have hrep : ∀ e k, (e, k) ∈ s.shared.asked → ∃ rep ∈ s.shared.replies, rep.peer = e := by
    intro e k hk
    have h1 := f1 (fun x => decide (x = e))
    have h2 : 0 < s.shared.asked.countP (fun x => decide (x.1 = e)) := List.countP_pos_iff.2 ⟨_, hk, by simp⟩
    rw [← h1] at h2
    obtain ⟨rep, h3, h4⟩ := List.countP_pos_iff.1 h2
    exact ⟨rep, h3, by simpa using h4⟩
  have hnamed : ∀ e k, (e, k) ∈ s.shared.asked → e ∈ peers ∨ ∃ rep ∈ s.shared.replies, ∃ l, rep.answer = some l ∧ e ∈ l := by
    intro e k hk
    cases h.disc e (Or.inl ⟨k, hk⟩) with
    | peer hp => exact Or.inl hp
    | answer _ ha he _ _ =>
      obtain ⟨rep, h1, _, h2⟩ := ha
      exact Or.inr ⟨rep, h1, _, h2, he⟩
  have hkey : ∀ e, (e ∈ peers ∨ ∃ rep ∈ s.shared.replies, ∃ l, rep.answer = some l ∧ e ∈ l) → e.id ∈ s.shared.visited → base c peers e.id = 0 → ∃ rep ∈ s.shared.replies, rep.peer = e := by
    intro e he hv hb
    have h1 := f3 hR e.id
    rw [hb] at h1
    have h2 : ind (e.id ∈ s.shared.visited) = 1 := by simp [ind, hv]
    obtain ⟨⟨e', k⟩, hx, hx'⟩ := List.mem_map.1 (List.count_pos_iff.1 (show 0 < (s.shared.asked.map (·.1.id)).count e.id by omega))
    obtain rfl := huniq e' e (hnamed e' k hx) he hx'
    exact hrep _ k hx
  intro e he
  induction he with
  | @peer e hp =>
    have hpeer : c.self ∉ peers.map ID.id := by
      intro hms
      obtain ⟨self, t, q1, q2, q3, _⟩ := h0
      obtain ⟨l, h5, _, h7, _, _⟩ := C51_find_closest S self t q1 self.id bucketSize
      rw [Table.peers, q1.inv.2] at q3
      have : (Res.ok l : Res (List ID)) = .ok peers := by rw [← h5, ← q3]
      cases this
      obtain ⟨e, he, he'⟩ := List.mem_map.1 hms
      exact (h7 e he).2 (he'.trans q2.symm)
    have hb : base c peers e.id = 0 := by
      have : e.id ≠ c.self := fun hc => hpeer (hc ▸ List.mem_map_of_mem hp)
      simp only [base, ind, this, false_or]
      rw [if_neg]
      rintro ⟨_, h2⟩; exact h2 (List.mem_map_of_mem hp)
    refine hkey e (Or.inl hp) ?_ hb
    exact runs_visited hr e.id (by
      obtain ⟨_, _, _, _, _, q4⟩ := h0
      unfold Iter.init at q4
      split at q4 <;> cases q4
      exact List.mem_append_left _ (List.mem_map_of_mem hp))
  | @answer p e res hp ha he h1 h2 ih =>
    subst ha
    obtain ⟨rep, h3, rfl⟩ := ih
    obtain ⟨l, t, h4, h5, h6, h7⟩ := hknow rep h3 (List.ne_nil_of_mem he)
    have hel : e ∈ l := by
      obtain ⟨l', q1, q2, q3, _, q5⟩ := C51_find_closest S rep.peer t h5.1 rep.peer.id 16
      have hll : l' = l := Res.ok.inj (q1.symm.trans h5.2)
      rw [← hll]
      rw [Nat.min_eq_right h6] at q5
      have hsub : List.Subperm l' (t.all.filter fun e => e.id ≠ rep.peer.id) :=
        List.subperm_of_subset q2.of_map (fun x hx => List.mem_filter.2 ⟨(q3 x hx).1, by simpa using (q3 x hx).2⟩)
      exact (hsub.perm_of_length_le (by omega)).mem_iff.2 (List.mem_filter.2 ⟨(h7 e he).1, by simpa using (h7 e he).2⟩)
    exact hkey e (Or.inr ⟨rep, h3, l, h4, hel⟩) (f4 rep h3 l h4 e hel) (by simp [base, ind, h1, h2])

/-! ## A network in which it happens -/

/-- The members of the crowd, the searching node and a peer that everybody in the crowd knows. -/
def crowd (i : Nat) : ID := newID (keyOf [0, UInt8.ofNat (i + 1)]) [] (UInt16.ofNat (i + 1))
def seeker : ID := newID (keyOf [0x80]) [] 100
def outsider : ID := newID (keyOf [0xc0]) [] 101

/-- Everybody in the crowd of 17 knows the others, the outsider and the seeker. -/
def crowdTable (i : Nat) : Table := (((List.range 17).map fun j => TableOp.update (crowd j)) ++ [TableOp.update outsider, TableOp.update seeker]).foldl Table.apply ((newTable (crowd i)).getD ⟨fun _ => [], ID.zero, 0⟩)

def crowdAnswer (i : Nat) : Option (List ID) := match (crowdTable i).findClosest insertionSorter (crowd i).id 16 with
  | .ok l => some l
  | _ => none

def crowdCfg : Cfg := ⟨seeker.id, seeker.id, 1, 16⟩

def crowdAsk (i : Nat) : List Iter.Action :=
  [.lookup 0 .main, .lookup 0 .main, .lookup 0 (.worker 0), .lookup 0 (.answer 0 (crowd i).id (crowdAnswer i)), .lookup 0 (.worker 0), .collect, .lookup 0 (.worker 0), .lookup 0 .main, .lookup 0 .main]

/-- The order in which the peers are asked: nearest to `crowd 0` first. -/
def crowdOrder : List Nat := [0, 2, 1, 4, 3, 6, 5, 8, 7, 10, 9, 12, 11, 14, 13, 16, 15]

def crowdRun : List Iter.Action :=
  (crowdOrder.map crowdAsk).flatten ++ [.lookup 0 .main, .lookup 0 .main, .lookup 0 (.worker 0), .lookup 0 .main, .close, .finish]


/-- The routing table of the seeker. -/
def seekerTable : Table := ((newTable seeker).getD ⟨fun _ => [], ID.zero, 0⟩).apply (.update (crowd 0))

def crowdStart : Iter.State := match Iter.init crowdCfg 1 [crowd 0] with
  | .ok s => s
  | _ => ⟨⟨[], [], [], []⟩, [], false, [], none⟩

theorem crowd_starts : Starts insertionSorter crowdCfg 1 [crowd 0] crowdStart :=
  ⟨seeker, seekerTable, ⟨_, [.update (crowd 0)], rfl, rfl⟩, rfl, by decide +kernel, rfl⟩

theorem crowd_table (i : Nat) : Table.Reachable (crowd i) (crowdTable i) := by
  obtain ⟨t0, h, _⟩ := Table.newTable_some (crowd i)
  exact ⟨t0, ((List.range 17).map fun j => TableOp.update (crowd j)) ++ [TableOp.update outsider, TableOp.update seeker], h, by rw [crowdTable, h]; rfl⟩

theorem crowd_answers : ∀ i < 17, ∃ l, (crowdTable i).findClosest insertionSorter (crowd i).id 16 = .ok l ∧ crowdAnswer i = some l := by
  intro i _
  obtain ⟨l, h, _⟩ := C51_find_closest insertionSorter (crowd i) (crowdTable i) (crowd_table i) (crowd i).id 16
  refine ⟨l, h, ?_⟩
  unfold crowdAnswer
  generalize (crowdTable i).findClosest insertionSorter (crowd i).id 16 = r at h
  subst h
  rfl

/-- The 16 others of the crowd. -/
def crowdOthers (i : Nat) : List ID := ((List.range 17).filter (· ≠ i)).map crowd

theorem crowd_near : ∀ i < 17, (crowdOthers i).Nodup ∧ (crowdOthers i).length = 16 ∧ outsider ∈ (crowdTable i).all ∧ ∀ x ∈ crowdOthers i, x ∈ (crowdTable i).all ∧ x.id ≠ (crowd i).id ∧
    ∀ y ∈ (crowdTable i).all, y ∉ (List.range 17).map crowd → dist x.id.1 (crowd i).id.1 < dist y.id.1 (crowd i).id.1 := by
  decide +kernel

theorem crowd_run : (runs (Iter.step insertionSorter crowdCfg) crowdStart crowdRun).map (fun s => (s.returned.isSome, s.shared.replies.map fun r => (r.peer, r.answer))) =
    some (true, crowdOrder.map fun i => (crowd i, crowdAnswer i)) := by decide +kernel

/-- **C121, witness.** In a network of 19 correct nodes, 17 of which know everybody, a node asks all of these 17, and all answer: but it does not get to know the one that is not among them. The hypotheses of `C121_cluster_refuted` hold, so this
is so in every schedule. -/
theorem C121_cluster_witness : ∃ s : Iter.State, Starts insertionSorter crowdCfg 1 [crowd 0] crowdStart ∧ runs (Iter.step insertionSorter crowdCfg) crowdStart crowdRun = some s ∧ s.returned.isSome = true ∧
    (∀ i < 17, ∃ rep ∈ s.shared.replies, rep.peer = crowd i) ∧
    (∀ rep ∈ s.shared.replies, ∃ i < 17, ∃ l, rep.peer = crowd i ∧ rep.answer = some l ∧ AnswersFrom insertionSorter rep.peer (crowdTable i) l ∧ outsider ∈ (crowdTable i).all ∧
      ∃ N : List ID, N.Nodup ∧ N.length = 16 ∧ ∀ x ∈ N, x ∈ (crowdTable i).all ∧ x.id ≠ rep.peer.id ∧ ∀ y ∈ (crowdTable i).all, y ∉ (List.range 17).map crowd → dist x.id.1 rep.peer.id.1 < dist y.id.1 rep.peer.id.1) ∧
    (∀ p k, (p, k) ∈ s.shared.asked → p ≠ outsider) ∧ ∀ l, s.returned = some (.ok l) → outsider ∉ l := by
  obtain ⟨s, hs, hv⟩ := Option.map_eq_some_iff.1 crowd_run
  obtain ⟨h1, h2⟩ := Prod.mk.inj hv
  have hrep : ∀ rep ∈ s.shared.replies, ∃ i < 17, ∃ l, rep.peer = crowd i ∧ rep.answer = some l ∧ AnswersFrom insertionSorter rep.peer (crowdTable i) l ∧ outsider ∈ (crowdTable i).all ∧
      ∃ N : List ID, N.Nodup ∧ N.length = 16 ∧ ∀ x ∈ N, x ∈ (crowdTable i).all ∧ x.id ≠ rep.peer.id ∧ ∀ y ∈ (crowdTable i).all, y ∉ (List.range 17).map crowd → dist x.id.1 rep.peer.id.1 < dist y.id.1 rep.peer.id.1 := by
    intro rep hr
    have := List.mem_map_of_mem (f := fun r : Reply => (r.peer, r.answer)) hr
    rw [h2] at this
    obtain ⟨i, hi, he⟩ := List.mem_map.1 this
    obtain ⟨e1, e2⟩ := Prod.mk.inj he
    have hi : i < 17 := (by decide : ∀ i ∈ crowdOrder, i < 17) i hi
    obtain ⟨l, a1, a2⟩ := crowd_answers i hi
    obtain ⟨n1, n2, n3, n4⟩ := crowd_near i hi
    exact ⟨i, hi, l, e1.symm, by rw [← e2, a2], by rw [← e1]; exact ⟨crowd_table i, a1⟩, n3, _, n1, n2, by rw [← e1]; exact n4⟩
  have hK := C121_cluster_refuted insertionSorter crowdCfg 1 [crowd 0] crowdStart s crowdRun crowd_starts hs (fun e => e ∈ (List.range 17).map crowd) (by decide +kernel) (by
    intro rep hr _ l hl
    obtain ⟨i, _, l', _, q2, q3, _, N, q5⟩ := hrep rep hr
    obtain rfl : l' = l := Option.some.inj (q2.symm.trans hl)
    exact ⟨_, q3, N, q5⟩)
  have hout : outsider ∉ (List.range 17).map crowd := by decide +kernel
  refine ⟨s, crowd_starts, hs, h1, ?_, hrep, fun p k hk he => hout (he ▸ hK.1 p k hk), fun l hl hm => hout (hK.2 l hl _ hm)⟩
  intro i hi
  have : (crowd i, crowdAnswer i) ∈ s.shared.replies.map fun r => (r.peer, r.answer) := by
    rw [h2]; exact List.mem_map.2 ⟨i, (by decide : ∀ i < 17, i ∈ crowdOrder) i hi, rfl⟩
  obtain ⟨rep, hr, he⟩ := List.mem_map.1 this
  exact ⟨rep, hr, (Prod.mk.inj he).1⟩

/-! ## A network in which everybody is found: `crowd 0` knows `crowd 1`, who knows `outsider`, who does not answer -/

def chainTable (i : Nat) (e : ID) : Table := ((newTable (crowd i)).getD ⟨fun _ => [], ID.zero, 0⟩).apply (.update e)

def chainKnow (e : ID) : List ID := if e = crowd 0 then [crowd 1] else if e = crowd 1 then [outsider] else []

def chainAsk (a : ID) (r : Option (List ID)) : List Iter.Action :=
  [.lookup 0 .main, .lookup 0 .main, .lookup 0 (.worker 0), .lookup 0 (.answer 0 a.id r)] ++ (if r.isSome then [.lookup 0 (.worker 0), .collect] else []) ++ [.lookup 0 (.worker 0), .lookup 0 .main, .lookup 0 .main]

def chainRun : List Iter.Action :=
  chainAsk (crowd 0) (some [crowd 1]) ++ chainAsk (crowd 1) (some [outsider]) ++ chainAsk outsider none ++
    [.lookup 0 .main, .lookup 0 .main, .lookup 0 (.worker 0), .lookup 0 .main, .close, .finish]

/-- The hypotheses of `C121_small_tables_partial` hold for it, and the outsider is among those that can be reached. -/
example : ∃ s : Iter.State, runs (Iter.step insertionSorter crowdCfg) crowdStart chainRun = some s ∧ s.returned = some (.ok [crowd 0, crowd 1]) ∧
    (∀ rep ∈ s.shared.replies, chainKnow rep.peer ≠ [] → ∃ l t, rep.answer = some l ∧ AnswersFrom insertionSorter rep.peer t l ∧ (t.all.filter fun e => e.id ≠ rep.peer.id).length ≤ 16 ∧
      ∀ e ∈ chainKnow rep.peer, e ∈ t.all ∧ e.id ≠ rep.peer.id) ∧
    (∀ e e', (e ∈ [crowd 0] ∨ ∃ rep ∈ s.shared.replies, ∃ l, rep.answer = some l ∧ e ∈ l) → (e' ∈ [crowd 0] ∨ ∃ rep ∈ s.shared.replies, ∃ l, rep.answer = some l ∧ e' ∈ l) → e.id = e'.id → e = e') ∧
    Discovered crowdCfg.self crowdCfg.target [crowd 0] (fun p l => l = chainKnow p) outsider := by
  have hrun : (runs (Iter.step insertionSorter crowdCfg) crowdStart chainRun).map (fun s => (s.returned, s.shared.replies)) =
    some (some (.ok [crowd 0, crowd 1]), [⟨crowd 0, (crowd 0).id, some [crowd 1]⟩, ⟨crowd 1, (crowd 1).id, some [outsider]⟩, ⟨outsider, outsider.id, none⟩]) := by decide +kernel
  obtain ⟨s, hs, hv⟩ := Option.map_eq_some_iff.1 hrun
  obtain ⟨h1, h2⟩ := Prod.mk.inj hv
  have hnamed : ∀ e, (e ∈ [crowd 0] ∨ ∃ rep ∈ s.shared.replies, ∃ l, rep.answer = some l ∧ e ∈ l) → e ∈ [crowd 0, crowd 1, outsider] := by
    rintro e (h | ⟨rep, h3, l, h4, h5⟩)
    · exact List.mem_cons.2 (Or.inl (List.mem_singleton.1 h))
    · rw [h2] at h3
      simp only [List.mem_cons, List.not_mem_nil, or_false] at h3
      rcases h3 with rfl | rfl | rfl <;> cases h4
      · rw [List.mem_singleton.1 h5]; simp
      · rw [List.mem_singleton.1 h5]; simp
  refine ⟨s, hs, h1, ?_, ?_, ?_⟩
  · intro rep hr hk
    rw [h2] at hr
    simp only [List.mem_cons, List.not_mem_nil, or_false] at hr
    rcases hr with rfl | rfl | rfl
    · exact ⟨_, chainTable 0 (crowd 1), rfl, ⟨⟨_, [.update (crowd 1)], rfl, rfl⟩, by decide +kernel⟩, by decide +kernel, by decide +kernel⟩
    · exact ⟨_, chainTable 1 outsider, rfl, ⟨⟨_, [.update outsider], rfl, rfl⟩, by decide +kernel⟩, by decide +kernel, by decide +kernel⟩
    · exact absurd (by decide +kernel) hk
  · intro e e' he he' hid
    have : ∀ e ∈ [crowd 0, crowd 1, outsider], ∀ e' ∈ [crowd 0, crowd 1, outsider], e.id = e'.id → e = e' := by decide +kernel
    exact this e (hnamed e he) e' (hnamed e' he') hid
  · refine .answer (p := crowd 1) (res := [outsider]) (.answer (p := crowd 0) (res := [crowd 1]) (.peer (by simp)) ?_ (by simp) ?_ ?_) ?_ (by simp) ?_ ?_ <;> decide +kernel

end Noise
