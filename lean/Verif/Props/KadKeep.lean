import Verif.Proofs.KadNode
import Verif.Props.Kad
/-! # Property C106: who answers stays in the routing table -/
set_option linter.unusedSimpArgs false
namespace Noise
open Spec Kad

/-- In state `s`, action `a` is not evidence against the peer `e`: whoever is pinged at the address of `e` answers, dialling that address does not fail, and the application does not remove `e` itself. -/
def NotAgainst (e : ID) (s : Kad.State) : Kad.Action → Prop
  | .pinged i pong => pong = true ∨ ∀ th, s.threads[i]? = some th → ∀ x, th.pc = .ping x → x.address ≠ e.address
  | .pingFailed a => a ≠ e.address
  | .table (.delete k) => k ≠ e.id
  | .table (.deleteByAddress a) => a ≠ e.address
  | _ => True

/-- Every action of the run satisfies `P` in the state in which it happens. -/
def Along (P : Kad.State → Kad.Action → Prop) : Kad.State → List Kad.Action → Prop
  | _, [] => True
  | s, a :: as => P s a ∧ ∀ s', Kad.step s a = some s' → Along P s' as

namespace KadKeep

theorem keep_update {t : Table} (e x : ID) (h : e ∈ t.all) : e ∈ (t.update x).1.all := by
  rcases Table.update_cases t x with ⟨h1, _⟩ | ⟨y, pre, post, h1, _, h2⟩ | ⟨_, _, _, h2⟩ | ⟨_, _, _, h2⟩
  · rw [h1]; exact h
  · rw [h2]; exact (Table.perm_move (Table.bucketIndex_lt _ _) h1).mem_iff.2 h
  · rw [h2]; exact (Table.perm_add (Table.bucketIndex_lt _ _) x).mem_iff.2 (List.mem_cons_of_mem _ h)
  · rw [h2]; exact h

theorem keep_delete {t : Table} (e : ID) (k : PublicKey) (h : e ∈ t.all) (hk : k ≠ e.id) : e ∈ (t.delete k).1.all := by
  rcases Table.delete_cases t k with ⟨h1, _⟩ | ⟨y, pre, post, h1, hy, h2⟩
  · rw [h1]; exact h
  · rw [h2]
    rcases List.mem_cons.1 ((Table.perm_remove (Table.bucketIndex_lt t k) h1).mem_iff.1 h) with rfl | h
    · exact absurd hy.symm hk
    · exact h

theorem keep_deleteByAddress {t : Table} (e : ID) (a : Text) (h : e ∈ t.all) (ha : a ≠ e.address) : e ∈ (t.deleteByAddress a).1.all := by
  rcases Table.deleteByAddress_cases t a with ⟨h1, _⟩ | ⟨j, y, pre, post, hj, h1, hy, h2⟩
  · rw [h1]; exact h
  · rw [h2]
    rcases List.mem_cons.1 ((Table.perm_remove hj h1).mem_iff.1 h) with rfl | h
    · exact absurd hy.symm ha
    · exact h

/-- What keeps `e` in the table. -/
structure Keep (e : ID) (s : Kad.State) : Prop where
  inv : s.table.Inv
  mem : e ∈ s.table.all
  ping : ∀ th ∈ s.threads, ∀ x, th.pc = .ping x → x.id = e.id → x = e
  delete : ∀ th ∈ s.threads, ∀ x, th.pc = .delete x → x.id ≠ e.id
  address : ∀ th ∈ s.threads, ∀ a, th.pc = .deleteAddress a → a ≠ e.address

theorem Keep.set {e : ID} {s : Kad.State} (h : Keep e s) {t : Table} {log : List Event} (i : Nat) (id : ID) (pc : Pc) (hi : t.Inv) (hm : e ∈ t.all) (h1 : ∀ x, pc = .ping x → x.id = e.id → x = e)
    (h2 : ∀ x, pc = .delete x → x.id ≠ e.id) (h3 : ∀ a, pc = .deleteAddress a → a ≠ e.address) : Keep e (({ s with table := t, log := log } : Kad.State).set i id pc) := by
  have hth : ∀ th ∈ (s.threads.set i ⟨id, pc⟩), th ∈ s.threads ∨ th = ⟨id, pc⟩ := fun th hth => List.mem_or_eq_of_mem_set hth
  refine ⟨hi, hm, ?_, ?_, ?_⟩ <;> intro th ht
  · rcases hth th ht with ht | rfl
    · exact h.ping th ht
    · exact h1
  · rcases hth th ht with ht | rfl
    · exact h.delete th ht
    · exact h2
  · rcases hth th ht with ht | rfl
    · exact h.address th ht
    · exact h3

theorem Keep.add {e : ID} {s : Kad.State} (h : Keep e s) (th' : Thread) (h1 : ∀ x, th'.pc = .ping x → x.id = e.id → x = e)
    (h2 : ∀ x, th'.pc = .delete x → x.id ≠ e.id) (h3 : ∀ a, th'.pc = .deleteAddress a → a ≠ e.address) : Keep e { s with threads := s.threads ++ [th'] } := by
  refine ⟨h.inv, h.mem, ?_, ?_, ?_⟩ <;> intro th ht <;> rcases List.mem_append.1 ht with ht | ht
  · exact h.ping th ht
  · rw [List.mem_singleton.1 ht]; exact h1
  · exact h.delete th ht
  · rw [List.mem_singleton.1 ht]; exact h2
  · exact h.address th ht
  · rw [List.mem_singleton.1 ht]; exact h3

theorem Keep.step {e : ID} {s s' : Kad.State} {a : Kad.Action} (h : Keep e s) (ha : NotAgainst e s a) (hs : Kad.step s a = some s') : Keep e s' := by
  unfold Kad.step at hs
  split at hs
  · cases hs
  · cases a with
    | ack x => cases hs; exact h.add _ (fun _ h => by cases h) (fun _ h => by cases h) (fun _ h => by cases h)
    | pingFailed a => cases hs; exact h.add _ (fun _ h => by cases h) (fun _ h => by cases h) (fun b hb => by cases hb; exact ha)
    | table op =>
      cases hs
      refine ⟨h.inv.apply op, ?_, h.ping, h.delete, h.address⟩
      cases op with
      | update x => exact keep_update e x h.mem
      | delete k => exact keep_delete e k h.mem ha
      | deleteByAddress a => exact keep_deleteByAddress e a h.mem ha
    | pinged i pong =>
      simp only at hs
      split at hs
      · rename_i id x hx
        cases hs
        refine h.set (log := s.log) i id _ h.inv h.mem (fun y hy => by split at hy <;> cases hy) (fun y hy => ?_) (fun a hy => by split at hy <;> cases hy)
        split at hy
        · cases hy
        · rename_i hp
          cases hy
          intro hid
          have hxe := h.ping _ (List.mem_of_getElem? hx) x rfl hid
          rcases ha with ha | ha
          · exact hp ha
          · exact ha _ hx x rfl (by rw [hxe])
      · cases hs
    | step i =>
      simp only at hs
      split at hs
      · rename_i id pc hx
        have hmem := List.mem_of_getElem? hx
        have hn : ∀ {ev b}, (∀ x, Pc.emit ev b = .ping x → x.id = e.id → x = e) ∧ (∀ x, Pc.emit ev b = .delete x → x.id ≠ e.id) ∧ (∀ a, Pc.emit ev b = .deleteAddress a → a ≠ e.address) :=
          ⟨fun _ h => (by cases h), fun _ h => (by cases h), fun _ h => (by cases h)⟩
        cases pc with
        | update =>
          simp only [threadStep] at hs
          have hi := h.inv.update id
          have hm := keep_update e id h.mem
          split at hs <;> rename_i hu <;> rw [hu] at hi hm <;> cases hs
          · exact h.set (log := s.log) i id _ hi hm hn.1 hn.2.1 hn.2.2
          · exact h.set (log := s.log) i id _ hi hm hn.1 hn.2.1 hn.2.2
          · exact h.set (log := s.log) i id _ hi hm (fun _ h => by cases h) (fun _ h => by cases h) (fun _ h => by cases h)
        | last =>
          simp only [threadStep] at hs
          split at hs <;> cases hs
          · rename_i x hl
            refine h.set (log := s.log) i id _ h.inv h.mem (fun y hy hid => ?_) (fun _ h => by cases h) (fun _ h => by cases h)
            cases hy
            have hxm : x ∈ s.table.entries (s.table.bucketIndex id.id) := by
              unfold Table.last at hl
              split at hl
              · rename_i hg; cases hl; exact List.mem_of_getLast? hg
              · cases hl
            exact (h.inv.key_unique hxm ((h.inv.mem_all_iff e).1 h.mem) hid).1
          · exact ⟨h.inv, h.mem, h.ping, h.delete, h.address⟩
        | ping x => cases hs
        | delete x =>
          simp only [threadStep] at hs
          have hi := h.inv.delete x.id
          have hm := keep_delete e x.id h.mem (h.delete _ hmem x rfl)
          split at hs <;> rename_i hu <;> rw [hu] at hi hm <;> cases hs
          · exact h.set (log := s.log) i id _ hi hm hn.1 hn.2.1 hn.2.2
          · exact h.set (log := s.log) i id _ hi hm (fun _ h => by cases h) (fun _ h => by cases h) (fun _ h => by cases h)
        | emit ev again =>
          cases hs
          exact h.set i id _ h.inv h.mem (fun y hy => by split at hy <;> cases hy) (fun y hy => by split at hy <;> cases hy) (fun a hy => by split at hy <;> cases hy)
        | deleteAddress a =>
          simp only [threadStep] at hs
          have hi := h.inv.deleteByAddress a
          have hm := keep_deleteByAddress e a h.mem (h.address _ hmem a rfl)
          split at hs <;> rename_i hu <;> rw [hu] at hi hm <;> cases hs
          · exact h.set (log := s.log) i id _ hi hm hn.1 hn.2.1 hn.2.2
          · exact h.set (log := s.log) i id _ hi hm (fun _ h => by cases h) (fun _ h => by cases h) (fun _ h => by cases h)
        | done => cases hs
      · cases hs

theorem Keep.run {e : ID} : ∀ (as : List Kad.Action) (s s' : Kad.State), Keep e s → Along (NotAgainst e) s as → runs Kad.step s as = some s' → Keep e s'
  | [], s, s', h, _, hr => by cases hr; exact h
  | a :: as, s, s', h, hq, hr => by
    simp only [runs] at hr
    split at hr
    · rename_i s1 h1
      exact Keep.run as s1 s' (h.step hq.1 h1) (hq.2 s1 h1) hr
    · cases hr

end KadKeep

/-- C106, what does hold: if `e` is recorded, and at that moment nobody is pinging the same key under another address and no removal that concerns `e` has been decided, then `e` stays in the table for as long as it answers, however
many other peers connect, send messages, are pinged, fail to be dialled or come back, and in every interleaving of the calls.
Missing: pings of the same key under an older address (`C106_stale_ping_refuted`). -/
theorem C106_answering_peer_stays_partial (self : ID) (t : Table) (ht : Table.Reachable self t) (as0 : List Kad.Action) (s : Kad.State) (hr0 : runs Kad.step (State.new t) as0 = some s) (e : ID) (he : e ∈ s.table.all)
    (hping : ∀ th ∈ s.threads, ∀ x, th.pc = .ping x → x.id = e.id → x = e)
    (hdel : ∀ th ∈ s.threads, ∀ x, th.pc = .delete x → x.id ≠ e.id) (hadd : ∀ th ∈ s.threads, ∀ a, th.pc = .deleteAddress a → a ≠ e.address)
    (as : List Kad.Action) (s' : Kad.State) (hr : runs Kad.step s as = some s') (ha : Along (NotAgainst e) s as) : e ∈ s'.table.all :=
  (KadKeep.Keep.run as s s' ⟨Kad.run_inv hr0 ht.inv.1, he, hping, hdel, hadd⟩ ha hr).mem

/-- The peer `exPeer 0` under a new address. -/
def exMoved : ID := newID (exPeer 0).id [] 9000

/-- The seventeenth peer arrives, the last peer of its bucket is pinged; meanwhile that peer is given up under its old address and comes back under a new one. -/
def exStale : List Kad.Action := exFill ++ [.ack (exPeer 16), .step 16, .step 16, .pingFailed (exPeer 0).address, .step 17, .step 17, .ack exMoved, .step 18, .step 18]

/-- What is observed of a state of that run. -/
def staleView (s : Kad.State) : Bool × Bool × Bool × Option Thread × Option Bool :=
  (decide (exMoved ∈ s.table.all), decide (∀ y ∈ s.table.all, y.address = exMoved.address → y = exMoved), decide (Event.admitted exMoved ∈ s.log), s.threads[16]?,
    (runs Kad.step s [.pinged 16 false, .step 16]).map fun s' => decide (exMoved ∈ s'.table.all))

/-- **C106 is false of the code**: a failed ping removes the entry of the key that was pinged, also if the entry is not the one that was pinged. A peer that changed its address while it was being pinged at the old one is removed,
although it is connected and answers everything. -/
theorem C106_stale_ping_refuted : ∃ (as0 : List Kad.Action) (s : Kad.State) (e : ID) (as : List Kad.Action) (s' : Kad.State), runs Kad.step (State.new exFresh) as0 = some s ∧ e ∈ s.table.all ∧ (∀ y ∈ s.table.all, y.address = e.address → y = e) ∧
    .admitted e ∈ s.log ∧ Along (NotAgainst e) s as ∧ runs Kad.step s as = some s' ∧ e ∉ s'.table.all := by
  obtain ⟨s, h1, h2⟩ := run_of_view (s := State.new exFresh) (as := exStale) (f := staleView) (v := (true, true, true, some ⟨exPeer 16, .ping (exPeer 0)⟩, some false)) (by decide +kernel)
  simp only [staleView] at h2
  simp only [Prod.mk.injEq, decide_eq_true_eq] at h2
  obtain ⟨s', h3, h4⟩ := run_of_view h2.2.2.2.2
  simp only [decide_eq_false_iff_not] at h4
  refine ⟨_, s, exMoved, [.pinged 16 false, .step 16], s', h1, h2.1, h2.2.1, h2.2.2.1, ⟨.inr fun th hth x hx => ?_, fun _ _ => ⟨trivial, fun _ _ => trivial⟩⟩, h3, h4⟩
  rw [h2.2.2.2.1] at hth
  cases hth
  cases hx
  decide +kernel

def keepActs : List Kad.Action := [.ack (exPeer 16), .step 16, .step 16, .pinged 16 true, .pingFailed (exPeer 3).address, .step 17, .step 16]
def keepView (s : Kad.State) : Bool × Bool × Option Bool := (decide (exPeer 0 ∈ s.table.all), decide (∀ th ∈ s.threads, th.pc = .done), (runs Kad.step s keepActs).map fun s' => s'.table.recorded (exPeer 3).id)

/-- A recorded peer survives a ping, the failed ping of another one, and a failed dial. -/
example : ∃ s s', runs Kad.step (State.new exFresh) exFill = some s ∧ exPeer 0 ∈ s.table.all ∧ (∀ th ∈ s.threads, th.pc = .done) ∧
    runs Kad.step s keepActs = some s' ∧ s'.table.recorded (exPeer 3).id = false ∧ exPeer 0 ∈ s'.table.all := by
  obtain ⟨s, h1, h2⟩ := run_of_view (s := State.new exFresh) (as := exFill) (f := keepView) (v := (true, true, some false)) (by decide +kernel)
  simp only [keepView, Prod.mk.injEq, decide_eq_true_eq] at h2
  obtain ⟨s', h3, h4⟩ := run_of_view h2.2.2
  have hd : ∀ th ∈ s.threads, th.pc = .done := h2.2.1
  refine ⟨s, s', h1, h2.1, hd, h3, h4, ?_⟩
  refine C106_answering_peer_stays_partial exSelf exFresh exFresh_reachable _ s h1 (exPeer 0) h2.1 (fun th h x hx => ?_) (fun th h x hx => ?_) (fun th h x hx => ?_) _ s' h3 ?_
  · rw [hd th h] at hx; cases hx
  · rw [hd th h] at hx; cases hx
  · rw [hd th h] at hx; cases hx
  · exact ⟨trivial, fun _ _ => ⟨trivial, fun _ _ => ⟨trivial, fun _ _ => ⟨.inl rfl, fun _ _ => ⟨by simp only [NotAgainst]; decide +kernel, fun _ _ => ⟨trivial, fun _ _ => ⟨trivial, fun _ _ => trivial⟩⟩⟩⟩⟩⟩⟩

end Noise
