import Verif.Proofs.KadNode
import Verif.Spec.Kad
/-! # Properties C103-C105: who is in the routing table -/
namespace Noise
open Spec KadNode
variable {ε : Type}

/-- C103: in every schedule of any number of connections, messages, pings and failed dials, every ID in the routing table is the node's own, or was put there by the application itself, or is the ID with which `OnPeerConnected`
was called on some connection, that is, the ID (key, host, port and address) that the peer proved in the handshake of that connection (C67, C68). -/
theorem C103_table_authenticated (self : ID) (s : KadNode.State ε) (h : KadNode.Reachable self s) (e : ID) (he : e ∈ s.kad.table.all) :
    e = self ∨ e ∈ s.user ∨ ∃ c ∈ s.conns, .connected (some e) ∈ c.log :=
  (Inv.reach h).src.table e he

/-- C104, what does hold: `OnPeerAdmitted` and `OnPeerEvicted`, and `OnPeerActivity` unless it is called with the zero key, are only called about the node itself, IDs given by the application, and IDs proved in a handshake.
Missing: the zero key (`C104_activity_of_nobody_refuted`). -/
theorem C104_events_authenticated_partial (self : ID) (s : KadNode.State ε) (h : KadNode.Reachable self s) (e : ID)
    (he : .admitted e ∈ s.kad.log ∨ .evicted e ∈ s.kad.log ∨ (.activity e ∈ s.kad.log ∧ e.id ≠ zeroPublicKey)) :
    e = self ∨ e ∈ s.user ∨ ∃ c ∈ s.conns, .connected (some e) ∈ c.log := by
  have hl := (Inv.reach h).src.log e
  rcases he with he | he | ⟨he, hz⟩
  · exact hl.1 he
  · exact hl.2.1 he
  · exact hl.2.2 he hz

/-- A peer. -/
def kpeer : ID := newID ⟨List.replicate 31 7 ++ [9], by simp⟩ [127, 0, 0, 1] 9000
def kself : ID := newID ⟨List.replicate 31 7 ++ [8], by simp⟩ [127, 0, 0, 1] 9001

theorem witness {S A α : Type} {st : S → A → Option S} {s0 : S} {as : List A} {f : S → α} {x : α} (h : (runs st s0 as).map f = some x) : ∃ s, runs st s0 as = some s ∧ f s = x := by
  cases hr : runs st s0 as with
  | none => rw [hr] at h; cases h
  | some s => rw [hr] at h; injection h with h; exact ⟨s, rfl, h⟩

def kconnect : List (KadNode.Action Unit) := [.connect .inbound, .conn 0 .main, .conn 0 .arrive, .conn 0 .arrive, .conn 0 .hsKey, .conn 0 (.hsOK kpeer), .conn 0 .main, .step 0, .step 0]
def kfail : List (KadNode.Action Unit) := [.connect .outbound, .conn 0 .main, .conn 0 .dialOK, .conn 0 (.hsFail ()), .conn 0 .main, .conn 0 .main, .conn 0 (.send ⟨0, [1]⟩), .conn 0 .writer, .conn 0 .writer, .conn 0 .writer,
  .conn 0 .writer, .conn 0 .writer, .step 0, .step 0]
def ktable : Table := ((Table.mk (fun _ => []) kself 0).update kself).1
theorem ktable_new : newTable kself = some ktable := by
  obtain ⟨t, h, _⟩ := Table.newTable_some kself
  have : newTable kself = some ktable := by
    unfold newTable at h ⊢
    unfold ktable
    generalize (Table.mk (fun _ => []) kself 0).update kself = u at h ⊢
    obtain ⟨t', r⟩ := u
    cases r with
    | ok b => rfl
    | error e => simp at h
  exact this

/-- A peer connects, proves its ID, and is recorded and reported. -/
example : ∃ s : KadNode.State Unit, KadNode.Reachable kself s ∧ s.user = [] ∧ kpeer ∈ s.kad.table.all ∧ s.kad.log = [.admitted kpeer] := by
  obtain ⟨s, h1, h2⟩ := witness (st := KadNode.step) (s0 := KadNode.State.new ktable) (as := kconnect) (f := fun s => (s.user, decide (kpeer ∈ s.kad.table.all), s.kad.log)) (x := ([], true, [.admitted kpeer])) (by decide +kernel)
  simp only [Prod.mk.injEq, decide_eq_true_eq] at h2
  exact ⟨s, ⟨_, ktable_new, _, h1⟩, h2⟩

/-- C104 is false: on an outbound connection whose handshake failed, `OnPeerActivity` is called with the zero ID as soon as a message is sent (or received) on it. -/
theorem C104_activity_of_nobody_refuted : ∃ s : KadNode.State Unit, KadNode.Reachable kself s ∧ s.user = [] ∧ s.kad.log = [.activity ID.zero] ∧ ∀ c ∈ s.conns, connectedOf c.log = [] := by
  obtain ⟨s, h1, h2⟩ := witness (st := KadNode.step) (s0 := KadNode.State.new ktable) (as := kfail) (f := fun s => (s.user, s.kad.log, decide (∀ c ∈ s.conns, connectedOf c.log = []))) (x := ([], [.activity ID.zero], true)) (by decide +kernel)
  simp only [Prod.mk.injEq, decide_eq_true_eq] at h2
  exact ⟨s, ⟨_, ktable_new, _, h1⟩, h2⟩

/-! ## C105 -/

/-- C105 is false: as long as a peer is recorded under one address, contact with it under another (same key, another host or port, proved in a new handshake) changes nothing but its place: the old address stays in the table, the new
one does not get into it, and the application is told about activity of an ID that is not recorded. -/
theorem C105_address_not_updated_refuted (self : ID) (t : Table) (ht : Table.Reachable self t) (old new : ID) (ho : old ∈ t.all) (hk : new.id = old.id) (hne : new ≠ old) (ping : Nat → ID → Kad.Ping) (fuel : Nat) :
    ∃ t', Kad.ack ping new (fuel + 1) 0 t [] = some (.ok (t', [.activity new])) ∧ old ∈ t'.all ∧ new ∉ t'.all := by
  have hi := ht.inv.1
  have hb := (hi.mem_all_iff old).1 ho
  have hz := hi.zero _ _ hb
  rw [← hk] at hb hz
  rcases Table.update_cases t new with ⟨_, h0⟩ | ⟨x, pre, post, h1, hx, h2⟩ | ⟨hn, _⟩ | ⟨hn, _⟩
  · exact absurd h0 hz
  · have hxo : x = old := (hi.key_unique (i := t.bucketIndex new.id) (j := t.bucketIndex new.id) (by rw [h1]; simp) hb (hx.trans hk)).1
    subst hxo
    have hp := Table.perm_move (Table.bucketIndex_lt t new.id) h1
    refine ⟨_, by simp only [Kad.ack, h2]; rfl, hp.mem_iff.2 ho, fun h => hne ?_⟩
    have h := hp.mem_iff.1 h
    exact (hi.key_unique ((hi.mem_all_iff new).1 h) hb hk).1
  · exact absurd hk.symm (hn old hb)
  · exact absurd hk.symm (hn old hb)

/-- C105, what does hold: once the old address has been given up, because dialling it failed (and nobody else is recorded under it), the next contact records the peer under the new address, whatever its bucket contains.
Missing: the time before that (`C105_address_not_updated_refuted`). -/
theorem C105_recorded_after_eviction_partial (self : ID) (t : Table) (ht : Table.Reachable self t) (old new : ID) (ho : old ∈ t.all) (hk : new.id = old.id) (hu : ∀ y ∈ t.all, y.address = old.address → y = old) (ping : Nat → ID → Kad.Ping) (fuel : Nat) :
    ∃ t1 t', Kad.onPingFailed t old.address = (t1, [.evicted old]) ∧ Kad.ack ping new (fuel + 1) 0 t1 [] = some (.ok (t', [.admitted new])) ∧ new ∈ t'.all ∧ (∀ e ∈ t'.all, e.id = old.id → e = new) := by
  have hi := ht.inv.1
  have hb := (hi.mem_all_iff old).1 ho
  have hz := hi.zero _ _ hb
  rw [← hk] at hz
  have hd := hi.deleteByAddress_unique ho hu
  rcases Table.delete_cases t old.id with ⟨_, hn⟩ | ⟨x, pre, post, h1, hx, h2⟩
  · exact absurd rfl (hn old hb)
  · have hxo : x = old := (hi.key_unique (i := t.bucketIndex old.id) (j := t.bucketIndex old.id) (by rw [h1]; simp) hb hx).1
    subst hxo
    have hi1 := hi.delete x.id
    rw [h2] at hd hi1
    simp only at hi1
    generalize ht1 : ({ t.setBucket (t.bucketIndex x.id) (pre ++ post) with size := t.size - 1 } : Table) = t1 at hd hi1
    have hidx : t1.bucketIndex new.id = t.bucketIndex x.id := by rw [hk, ← ht1]; rfl
    have hent : t1.entries (t1.bucketIndex new.id) = pre ++ post := by rw [hidx, ← ht1]; simp [Table.setBucket]
    have hno : ∀ y ∈ t1.all, y.id ≠ new.id := by
      intro y hy e
      have hy := (hi1.mem_all_iff y).1 hy
      rw [e, hent] at hy
      have hnd := hi.nodup (t.bucketIndex x.id)
      rw [h1] at hnd
      simp only [List.map_append, List.map_cons] at hnd
      have hnd := (List.nodup_middle.1 hnd)
      rw [List.nodup_cons] at hnd
      apply hnd.1
      rw [← List.map_append]
      exact List.mem_map.2 ⟨y, hy, e.trans hk⟩
    have hlen : (t1.entries (t1.bucketIndex new.id)).length < 16 := by
      have := hi.cap (t.bucketIndex x.id)
      rw [h1] at this
      rw [hent]
      simp only [List.length_append, List.length_cons] at this ⊢
      omega
    refine ⟨t1, ?_⟩
    rcases Table.update_cases t1 new with ⟨_, h0⟩ | ⟨y, pre', post', h3, hy, _⟩ | ⟨_, _, _, h4⟩ | ⟨_, _, h5, _⟩
    · exact absurd h0 hz
    · exact absurd hy (hno y ((Table.mem_all _ _).2 ⟨_, Table.bucketIndex_lt _ _, by rw [h3]; simp⟩))
    · have hp := Table.perm_add (t := t1) (Table.bucketIndex_lt t1 new.id) new
      refine ⟨_, (by simp only [Kad.onPingFailed, hd]), (by simp only [Kad.ack, h4, if_pos, List.nil_append]; rfl), (by exact hp.mem_iff.2 List.mem_cons_self), ?_⟩
      intro e he hek
      rcases List.mem_cons.1 (hp.mem_iff.1 he) with rfl | he
      · rfl
      · exact absurd (hek.trans hk.symm) (hno e he)
    · omega

/-- The same key at another port. -/
example : ∃ (t : Table) (new : ID), Table.Reachable kself t ∧ kpeer ∈ t.all ∧ new.id = kpeer.id ∧ new ≠ kpeer ∧ ∀ y ∈ t.all, y.address = kpeer.address → y = kpeer :=
  ⟨ktable.apply (.update kpeer), newID kpeer.id [127, 0, 0, 1] 9005, ⟨ktable, [.update kpeer], ktable_new, rfl⟩, by decide +kernel, rfl, by decide +kernel, by decide +kernel⟩

/-- A peer that comes back at another port is not recorded there. -/
theorem C105_witness (ping : Nat → ID → Kad.Ping) (fuel : Nat) : ∃ (t t' : Table) (old new : ID), Table.Reachable kself t ∧ old ∈ t.all ∧ new.id = old.id ∧ new.address ≠ old.address ∧
    Kad.ack ping new (fuel + 1) 0 t [] = some (.ok (t', [.activity new])) ∧ old ∈ t'.all ∧ new ∉ t'.all := by
  have hr : Table.Reachable kself (ktable.apply (.update kpeer)) := ⟨ktable, [.update kpeer], ktable_new, rfl⟩
  have hm : kpeer ∈ (ktable.apply (.update kpeer)).all := by decide +kernel
  obtain ⟨t', h⟩ := C105_address_not_updated_refuted kself _ hr kpeer (newID kpeer.id [127, 0, 0, 1] 9005) hm rfl (by decide +kernel) ping fuel
  exact ⟨_, t', kpeer, newID kpeer.id [127, 0, 0, 1] 9005, hr, hm, rfl, by decide +kernel, h⟩

end Noise
