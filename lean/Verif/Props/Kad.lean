import Verif.Model.Kad
import Verif.Props.Table
import Verif.Props.KadMsg
import Verif.Proofs.TS
/-! # Properties C54-C57: the Kademlia protocol (kademlia/protocol.go) -/
namespace Noise
open Spec Kad

/-! ## C54 -/

theorem Table.bucket_set {t : Table} {i : Nat} {b : List ID} {n : Int} (k : PublicKey) :
    ({ t.setBucket i b with size := n } : Table).bucket k = if t.bucketIndex k = i then b else t.bucket k := rfl

theorem Table.Reachable.apply {self : ID} {t : Table} (h : Table.Reachable self t) (op : TableOp) : Table.Reachable self (t.apply op) := by
  obtain ⟨t0, ops, h0, rfl⟩ := h
  exact ⟨t0, ops ++ [op], h0, by simp [List.foldl_append]⟩

/-- **C54, what holds** (missing: recorded peers that share the address of the bucket's tail). Unless another peer is recorded under the address of the last peer of the
bucket, `Ack(e)` ends within two rounds, after at most one eviction. A known peer moves to the head (`C49_update`). An unknown one enters at the head if there is room. If
the bucket is full, its last peer is pinged: if it answers, nothing changes; otherwise it, and nobody else, is evicted, and `e` enters at the head. All other buckets stay
as they are. -/
theorem C54_ack_partial (self : ID) (t : Table) (ht : Table.Reachable self t) (e : ID) (ping : Nat → ID → Ping)
    (hu : ∀ x y, (t.bucket e.id).getLast? = some x → y ∈ t.all → y.address = x.address → y = x) :
    ∃ t' log, (∀ fuel, 2 ≤ fuel → ack ping e fuel 0 t [] = some (.ok (t', log))) ∧
      (∀ k, bucketNo self.id k ≠ bucketNo self.id e.id → t'.bucket k = t.bucket k) ∧
      (t.recorded e.id = true ∨ e.id = zeroPublicKey → t' = (t.update e).1 ∧ log = [.activity e]) ∧
      (t.recorded e.id = false → e.id ≠ zeroPublicKey → (t.bucket e.id).length < bucketSize → t'.bucket e.id = e :: t.bucket e.id ∧ log = [.admitted e]) ∧
      (t.recorded e.id = false → e.id ≠ zeroPublicKey → (t.bucket e.id).length = bucketSize → ∃ init x, t.bucket e.id = init ++ [x] ∧
        (ping 0 x = .pong → t' = t ∧ log = [.evicted e]) ∧
        (ping 0 x ≠ .pong → t'.bucket e.id = e :: init ∧ log = [.evicted x, .admitted e])) := by
  obtain ⟨h, hs⟩ := ht.inv
  obtain ⟨hoth, hzero, hknown, hroom, hfull⟩ := C49_update self t ht e
  have hb : ∀ k, t.bucketIndex k = bucketNo self.id k := fun k => by rw [Table.bucketIndex_eq, hs]; rfl
  by_cases hr : t.recorded e.id = true ∨ e.id = zeroPublicKey
  · have hup : (t.update e).2 = .ok false := by
      rcases hr with hr | hz
      · obtain ⟨_, _, _, _, _, _, _, h'⟩ := hknown hr; exact h'
      · rw [hzero hz]
    have hup' : t.update e = ((t.update e).1, .ok false) := Prod.ext rfl hup
    refine ⟨(t.update e).1, [.activity e], ?_, hoth, fun _ => ⟨rfl, rfl⟩, ?_, ?_⟩
    · intro fuel hf
      obtain ⟨f, rfl⟩ : ∃ f, fuel = f + 2 := ⟨fuel - 2, by omega⟩
      rw [ack, hup']; rfl
    · intro h1 h2; rcases hr with hr | hz
      · rw [h1] at hr; cases hr
      · exact absurd hz h2
    · intro h1 h2; rcases hr with hr | hz
      · rw [h1] at hr; cases hr
      · exact absurd hz h2
  · have hr1 : t.recorded e.id = false := by
      cases hx : t.recorded e.id with
      | false => rfl
      | true => exact absurd (Or.inl hx) hr
    have hz : e.id ≠ zeroPublicKey := fun hz => hr (Or.inr hz)
    by_cases hl : (t.bucket e.id).length < bucketSize
    · obtain ⟨h1, h2, h3⟩ := hroom hz hr1 hl
      have hup' : t.update e = ((t.update e).1, .ok true) := Prod.ext rfl h3
      refine ⟨(t.update e).1, [.admitted e], ?_, hoth, fun hc => absurd hc hr, fun _ _ _ => ⟨h1, rfl⟩, fun _ _ hc => by omega⟩
      intro fuel hf
      obtain ⟨f, rfl⟩ : ∃ f, fuel = f + 2 := ⟨fuel - 2, by omega⟩
      rw [ack, hup']; rfl
    · have hup := hfull hz hr1 hl
      have hlen : (t.bucket e.id).length = 16 := Nat.le_antisymm (h.cap _) (by simpa [bucketSize] using hl)
      obtain ⟨x, hx⟩ : ∃ x, (t.bucket e.id).getLast? = some x := by
        cases hg : (t.bucket e.id).getLast? with
        | some x => exact ⟨x, rfl⟩
        | none => rw [List.getLast?_eq_none_iff] at hg; rw [hg] at hlen; cases hlen
      obtain ⟨init, hinit⟩ := List.getLast?_eq_some_iff.1 hx
      have hlast : t.last e.id = .ok x := by
        rw [Table.last]; rw [Table.bucket] at hx; rw [hx]
      have hxm : x ∈ t.entries (t.bucketIndex e.id) := by
        have : x ∈ t.bucket e.id := by rw [hinit]; simp
        exact this
      have hxi : t.bucketIndex x.id = t.bucketIndex e.id := h.idx _ x hxm
      have hxa : x ∈ t.all := (t.mem_all x).2 ⟨_, Table.bucketIndex_lt t _, hxm⟩
      by_cases hp : ping 0 x = .pong
      · refine ⟨t, [.evicted e], ?_, fun _ _ => rfl, fun hc => absurd hc hr, fun _ _ hc => absurd hc hl, fun _ _ _ => ⟨init, x, hinit, fun _ => ⟨rfl, rfl⟩, fun hc => absurd hp hc⟩⟩
        intro fuel hf
        obtain ⟨f, rfl⟩ : ∃ f, fuel = f + 2 := ⟨fuel - 2, by omega⟩
        rw [ack, hup]
        simp only [hlast, hp]; rfl
      · -- the table without the last peer
        obtain ⟨tb, htb⟩ : ∃ tb : Table, tb = { t.setBucket (t.bucketIndex e.id) init with size := t.size - 1 } := ⟨_, rfl⟩
        have hdel : t.delete x.id = (tb, x, true) := by
          rcases Table.delete_cases t x.id with ⟨_, h6⟩ | ⟨z, pre, post, h5, h6, h7⟩
          · exact absurd rfl (h6 x (hxi ▸ hxm))
          · have hzm : z ∈ t.entries (t.bucketIndex x.id) := by rw [h5]; simp
            obtain rfl := (h.key_unique hzm (hxi ▸ hxm) h6).1
            have e1 : pre ++ z :: post = init ++ [z] := by
              rw [← h5, hxi]; exact hinit
            have hn : (init ++ [z]).Nodup := by
              rw [← hinit]; exact (h.nodup _).of_map
            have hzi : z ∉ init := fun hm => (List.nodup_append'.1 hn).2.2 hm (by simp)
            have e2 := (List.append_cons_inj_of_notMem hzi (by simp)).1 e1.symm
            rw [h7, hxi, htb, ← e2.1, ← e2.2.2, List.append_nil]
        have hev : ∀ tt, tt = t → evict tt x.id = (tb, [.evicted x]) := by
          rintro _ rfl; rw [evict, hdel]
        have hopf : onPingFailed t x.address = (tb, [.evicted x]) := by
          rw [onPingFailed, h.deleteByAddress_unique hxa (fun y hy hya => hu x y hx hy hya), hdel]
        have htbi : Table.Inv tb := by have := h.delete x.id; rw [hdel] at this; exact this
        have htbx : evict tb x.id = (tb, []) := by
          rcases Table.delete_cases tb x.id with ⟨h5, _⟩ | ⟨z, pre, post, h5, h6, h7⟩
          · rw [evict, h5]
          · exfalso
            have hzm : z ∈ tb.entries (tb.bucketIndex x.id) := by rw [h5]; simp
            have hbb : tb.bucketIndex x.id = t.bucketIndex e.id := by rw [htb]; exact hxi
            rw [hbb, htb] at hzm
            simp only [Table.setBucket, if_true] at hzm
            have hn : ((init ++ [x]).map ID.id).Nodup := by
              rw [← hinit]; exact h.nodup _
            rw [List.map_append, List.nodup_append'] at hn
            exact hn.2.2 (List.mem_map.2 ⟨z, hzm, h6⟩) (by simp)
        have hupb : tb.update e = ({ tb.setBucket (t.bucketIndex e.id) (e :: init) with size := tb.size + 1 }, .ok true) := by
          have hbb : tb.bucketIndex e.id = t.bucketIndex e.id := by rw [htb]; rfl
          have hent : tb.entries (t.bucketIndex e.id) = init := by rw [htb]; simp [Table.setBucket]
          have hne : ∀ y ∈ t.entries (t.bucketIndex e.id), y.id ≠ e.id := by
            intro y hy hye
            have : t.recorded e.id = true := List.any_eq_true.2 ⟨y, hy, by simpa using hye⟩
            rw [hr1] at this; cases this
          have hsub : ∀ y ∈ init, y ∈ t.entries (t.bucketIndex e.id) := fun y hy => by
            have : y ∈ t.bucket e.id := by rw [hinit]; simp [hy]
            exact this
          rcases Table.update_cases tb e with ⟨_, h5⟩ | ⟨z, pre, post, h5, h6, _⟩ | ⟨_, _, _, h5⟩ | ⟨_, _, h5, _⟩
          · exact absurd h5 hz
          · exfalso
            have hzm : z ∈ tb.entries (tb.bucketIndex e.id) := by rw [h5]; simp
            rw [hbb, hent] at hzm
            exact hne z (hsub z hzm) h6
          · rw [h5, hbb, hent]
          · exfalso
            rw [hbb, hent] at h5
            rw [hinit] at hlen; simp at hlen; omega
        refine ⟨(tb.update e).1, [.evicted x, .admitted e], ?_, ?_, fun hc => absurd hc hr, fun _ _ hc => absurd hc hl, fun _ _ _ => ⟨init, x, hinit, fun hc => absurd hc hp, fun _ => ⟨?_, rfl⟩⟩⟩
        · intro fuel hf
          obtain ⟨f, rfl⟩ : ∃ f, fuel = f + 2 := ⟨fuel - 2, by omega⟩
          have hsecond : ∀ log, ack ping e (f + 1) 1 tb log = some (.ok ((tb.update e).1, log ++ [.admitted e])) := by
            intro log; rw [ack, hupb]; rfl
          rw [ack, hup]
          simp only [hlast]
          cases hpo : ping 0 x with
          | pong => exact absurd hpo hp
          | other => simp only [hev t rfl]; rw [hsecond]; rfl
          | failed => simp only [hev t rfl]; rw [hsecond]; rfl
          | dialFailed => simp only [hopf, htbx]; rw [hsecond]; rfl
        · intro k hk
          rw [← hb, ← hb] at hk
          rw [hupb]
          have : tb.bucketIndex k = t.bucketIndex k := by rw [htb]; rfl
          rw [Table.bucket_set, if_neg (by rw [this]; exact hk), htb, Table.bucket_set, if_neg hk]
        · rw [hupb, Table.bucket_set, if_pos (by rw [htb]; rfl)]

/-- Peers `1 … 16` with distinct addresses, in one bucket of the node `80…`. -/
def exDistinct : Table := (List.range 16).foldl (fun t i => t.apply (.update (newID (keyOf [UInt8.ofNat (i + 1)]) [] (UInt16.ofNat (i + 100))))) ((newTable (newID (keyOf [0x80]) [] 1)).getD ⟨fun _ => [], ID.zero, 0⟩)
/-- The hypothesis on addresses is met by a full bucket. -/
example : (∀ x ∈ (exDistinct.bucket (keyOf [17])).getLast?, ∀ y ∈ exDistinct.all, y.address = x.address → y = x) ∧ exDistinct.recorded (keyOf [17]) = false ∧
    (exDistinct.bucket (keyOf [17])).length = bucketSize := by decide +kernel

/-- The log of a finished `Ack`. -/
def ackLog : Option (Res (Table × List Event)) → Option (List Event)
  | some (.ok r) => some r.2
  | _ => none

theorem ackLog_some {o : Option (Res (Table × List Event))} {l : List Event} (h : ackLog o = some l) : ∃ t', o = some (.ok (t', l)) := by
  rcases o with _ | ⟨⟨t', l'⟩⟩ | _ | _
  · cases h
  · cases h; exact ⟨t', rfl⟩
  · cases h
  · cases h

/-- **C54 is false of the code as stated**: if the last peer of the bucket shares its address with another recorded peer — a node that restarted with a new key, say — one
failed dial evicts both. The other one need not be in the same bucket, nor be the least recently seen one; here it is the most recently seen peer. -/
theorem C54_two_evictions_refuted : ∃ self t e x y t', Table.Reachable self t ∧ (t.bucket e.id).getLast? = some x ∧ (t.bucket e.id).head? = some y ∧ x.id ≠ y.id ∧
    ack (fun _ _ => .dialFailed) e 2 0 t [] = some (.ok (t', [.evicted y, .evicted x, .admitted e])) := by
  obtain ⟨t', ht'⟩ := ackLog_some (o := ack (fun _ _ => .dialFailed) (newID (keyOf [17]) [] 5) 2 0 exFull [])
    (l := [.evicted (newID (keyOf [16]) [] 0), .evicted (newID (keyOf [1]) [] 0), .admitted (newID (keyOf [17]) [] 5)]) (by decide +kernel)
  refine ⟨newID (keyOf [0x80]) [] 1, exFull, newID (keyOf [17]) [] 5, newID (keyOf [1]) [] 0, newID (keyOf [16]) [] 0, t', ?_, ?_, ?_, ?_, ht'⟩
  · exact ⟨_, (List.range 16).map fun i => .update (newID (keyOf [UInt8.ofNat (i + 1)]) [] 0), rfl, by rw [List.foldl_map]; rfl⟩
  · decide +kernel
  · decide +kernel
  · decide +kernel

/-! ## C55 -/

/-- `Ack` calls of the log that admitted `e`, minus those that evicted it. -/
def reported (e : ID) (log : List Event) : Int := (log.count (.admitted e) : Int) - (log.count (.evicted e) : Int)

/-- A thread that has changed the table but has not called the callback yet. -/
def pendingEmit (ev : Event) (th : Thread) : Bool := match th.pc with
  | .emit ev' _ => ev' = ev
  | _ => false

theorem countP_set {α : Type} (p : α → Bool) (l : List α) (i : Nat) (x y : α) (h : l[i]? = some x) :
    (l.set i y).countP p + (if p x then 1 else 0) = l.countP p + (if p y then 1 else 0) := by
  induction l generalizing i with
  | nil => cases h
  | cons a l ih =>
    cases i with
    | zero => cases h; simp [List.countP_cons]; omega
    | succ i => simp only [List.set_cons_succ, List.countP_cons]; have := ih i h; omega

/-- Everything that may happen except answers to pings of full buckets' tails, and removals through `Table()`. -/
def noRejections : Kad.Action → Prop
  | .pinged _ pong => pong = false
  | .table _ => False
  | _ => True

/-- The books balance: peers in the table, plus evictions reported or about to be, are the peers there were plus admissions reported or about to be. -/
def Books (n : Nat) (e : ID) (s : State) : Prop :=
  s.table.Inv ∧ (n : Int) + s.log.count (.admitted e) + s.threads.countP (pendingEmit (.admitted e)) =
    s.table.all.count e + s.log.count (.evicted e) + s.threads.countP (pendingEmit (.evicted e))

theorem Books.step {n : Nat} {e : ID} {s s' : State} {a : Kad.Action} (hq : noRejections a) (h : Books n e s) (hs : Kad.step s a = some s') : Books n e s' := by
  obtain ⟨hi, hb⟩ := h
  unfold Kad.step at hs
  split at hs
  · cases hs
  cases a with
  | ack x => cases hs; exact ⟨hi, by simpa [List.countP_append, pendingEmit] using hb⟩
  | pingFailed x => cases hs; exact ⟨hi, by simpa [List.countP_append, pendingEmit] using hb⟩
  | table op => exact absurd hq id
  | pinged i pong =>
    simp only at hs
    split at hs
    · rename_i id x ht
      cases hs
      rw [show pong = false from hq]
      refine ⟨hi, ?_⟩
      have h1 := countP_set (pendingEmit (.admitted e)) s.threads i _ ⟨id, .delete x⟩ ht
      have h2 := countP_set (pendingEmit (.evicted e)) s.threads i _ ⟨id, .delete x⟩ ht
      simp [pendingEmit] at h1 h2
      simp [State.set, h1, h2, hb]
    · cases hs
  | step i =>
    simp only at hs
    split at hs
    swap
    · cases hs
    rename_i id pc ht
    have h1 := fun pc' => countP_set (pendingEmit (.admitted e)) s.threads i _ ⟨id, pc'⟩ ht
    have h2 := fun pc' => countP_set (pendingEmit (.evicted e)) s.threads i _ ⟨id, pc'⟩ ht
    cases pc with
    | update =>
      simp only [threadStep] at hs
      rcases Table.update_cases s.table id with ⟨hu, _⟩ | ⟨x, pre, post, he, _, hu⟩ | ⟨_, _, _, hu⟩ | ⟨_, _, _, hu⟩ <;> rw [hu] at hs <;> cases hs
      · refine ⟨hi, ?_⟩
        have h1 := h1 (.emit (.activity id) false); have h2 := h2 (.emit (.activity id) false)
        simp [pendingEmit] at h1 h2
        simp [State.set, h1, h2, hb]
      · refine ⟨by have := hi.update id; rw [hu] at this; exact this, ?_⟩
        have h1 := h1 (.emit (.activity id) false); have h2 := h2 (.emit (.activity id) false)
        simp [pendingEmit] at h1 h2
        simp only [State.set, (Table.perm_move (Table.bucketIndex_lt _ _) he).count_eq]
        simp [h1, h2, hb]
      · refine ⟨by have := hi.update id; rw [hu] at this; exact this, ?_⟩
        have h1 := h1 (.emit (.admitted id) false); have h2 := h2 (.emit (.admitted id) false)
        have h3 := (Table.perm_add (t := s.table) (Table.bucketIndex_lt s.table id.id) id).count_eq e
        simp [pendingEmit] at h1 h2
        simp only [List.count_cons, beq_iff_eq] at h3
        simp only [State.set]
        show _ = (((s.table.setBucket (s.table.bucketIndex id.id) (id :: s.table.entries (s.table.bucketIndex id.id))).all.count e : Nat) : Int) + _ + _
        rw [h3]
        simp only [pendingEmit] at *
        grind
      · refine ⟨hi, ?_⟩
        have h1 := h1 .last; have h2 := h2 .last
        simp [pendingEmit] at h1 h2
        simp [State.set, h1, h2, hb]
    | last =>
      simp only [threadStep] at hs
      split at hs <;> cases hs
      · rename_i x _
        refine ⟨hi, ?_⟩
        have h1 := h1 (.ping x); have h2 := h2 (.ping x)
        simp [pendingEmit] at h1 h2
        simp [State.set, h1, h2, hb]
      · exact ⟨hi, hb⟩
    | ping x => cases hs
    | done => cases hs
    | delete x =>
      simp only [threadStep] at hs
      rcases Table.delete_cases s.table x.id with ⟨hu, _⟩ | ⟨y, pre, post, he, _, hu⟩ <;> rw [hu] at hs <;> cases hs
      · refine ⟨hi, ?_⟩
        have h1 := h1 .update; have h2 := h2 .update
        simp [pendingEmit] at h1 h2
        simp [State.set, h1, h2, hb]
      · refine ⟨by have := hi.delete x.id; rw [hu] at this; exact this, ?_⟩
        have h1 := h1 (.emit (.evicted y) true); have h2 := h2 (.emit (.evicted y) true)
        have h3 := (Table.perm_remove (Table.bucketIndex_lt _ _) he).count_eq e
        simp [pendingEmit] at h1 h2
        simp only [List.count_cons, beq_iff_eq] at h3
        simp only [State.set]
        show _ = (((s.table.setBucket (s.table.bucketIndex x.id) (pre ++ post)).all.count e : Nat) : Int) + _ + _
        simp only [pendingEmit] at *
        grind
    | deleteAddress a =>
      simp only [threadStep] at hs
      rcases Table.deleteByAddress_cases s.table a with ⟨hu, _⟩ | ⟨j, y, pre, post, hj, he, _, hu⟩ <;> rw [hu] at hs <;> cases hs
      · refine ⟨hi, ?_⟩
        have h1 := h1 .done; have h2 := h2 .done
        simp [pendingEmit] at h1 h2
        simp [State.set, h1, h2, hb]
      · refine ⟨by have := hi.deleteByAddress a; rw [hu] at this; exact this, ?_⟩
        have h1 := h1 (.emit (.evicted y) false); have h2 := h2 (.emit (.evicted y) false)
        have h3 := (Table.perm_remove hj he).count_eq e
        simp [pendingEmit] at h1 h2
        simp only [List.count_cons, beq_iff_eq] at h3
        simp only [State.set]
        show _ = (((s.table.setBucket j (pre ++ post)).all.count e : Nat) : Int) + _ + _
        simp only [pendingEmit] at *
        grind
    | emit ev again =>
      cases hs
      refine ⟨hi, ?_⟩
      have h1 := h1 (if again then .update else .done); have h2 := h2 (if again then .update else .done)
      have hn : ∀ ev', pendingEmit ev' ⟨id, if again then .update else .done⟩ = false := by intro ev'; cases again <;> rfl
      rw [hn] at h1 h2
      simp only [State.set, List.count_append, List.count_singleton]
      simp only [pendingEmit] at *
      grind

/-- **C55, what holds** (missing: newcomers turned away because the tail of their bucket answered, see `C55_evicted_never_admitted_refuted`; and the moments when a
callback is still to be called, see `C55_order_refuted`). Let any number of `Ack`s and `OnPingFailed`s run in any interleaving, no pinged tail answering. Whenever none of
them is about to call a callback, every identity has been reported admitted exactly as often as it has been reported evicted, plus one if it is recorded now but was not
at the start, minus one if it was recorded then but is not now. -/
theorem C55_reports_partial (self : ID) (t : Table) (ht : Table.Reachable self t) (as : List Kad.Action) (s : State) (hq : ∀ a ∈ as, noRejections a)
    (hr : runs Kad.step (State.new t) as = some s) (hp : ∀ th ∈ s.threads, ∀ ev again, th.pc ≠ .emit ev again) (e : ID) :
    reported e s.log = (if e ∈ s.table.all then 1 else 0) - (if e ∈ t.all then 1 else 0) := by
  have h0 : Books (t.all.count e) e (State.new t) := ⟨ht.inv.1, by simp [State.new]⟩
  have h := runs_inv' (step := Kad.step) (P := Books (t.all.count e) e) (Q := noRejections) (fun s a s' hp hq hs => hp.step hq hs) hq hr h0
  obtain ⟨hi, hb⟩ := h
  have hz : ∀ ev, s.threads.countP (pendingEmit ev) = 0 := by
    intro ev
    rw [List.countP_eq_zero]
    intro th hth hpe
    have := hp th hth
    unfold pendingEmit at hpe
    split at hpe
    · rename_i ev' again he; exact this _ _ he
    · cases hpe
  have hc : ∀ {t : Table}, t.Inv → t.all.count e = if e ∈ t.all then 1 else 0 := fun h => (h.all_nodup.of_map).count
  rw [hz, hz, hc hi, hc ht.inv.1] at hb
  rw [reported]
  split <;> split <;> simp_all <;> omega

/-- Sixteen peers with distinct addresses connect to the node `80…` one after the other; a seventeenth one arrives, whose bucket is full. -/
def exPeer (i : Nat) : ID := newID (keyOf [UInt8.ofNat (i + 1)]) [] (UInt16.ofNat (i + 100))
def exSelf : ID := newID (keyOf [0x80]) [] 1
def exFresh : Table := (newTable exSelf).getD ⟨fun _ => [], ID.zero, 0⟩
def exFill : List Kad.Action := (List.range 16).flatMap fun i => [.ack (exPeer i), .step i, .step i]

theorem exFresh_reachable : Table.Reachable exSelf exFresh := ⟨exFresh, [], rfl, rfl⟩

theorem run_of_view {α : Type} {f : State → α} {s : State} {as : List Kad.Action} {v : α} (h : (runs Kad.step s as).map f = some v) : ∃ s', runs Kad.step s as = some s' ∧ f s' = v := by
  cases hr : runs Kad.step s as with
  | none => rw [hr] at h; cases h
  | some s' => rw [hr] at h; exact ⟨s', rfl, Option.some.inj h⟩

/-- A quiescent run in which a peer is evicted by a failed ping, and another one by a failed dial. -/
example : let as := exFill ++ [.ack (exPeer 16), .step 16, .step 16, .pinged 16 false, .step 16, .step 16, .step 16, .step 16, .pingFailed (exPeer 3).address, .step 17, .step 17]
    (runs Kad.step (State.new exFresh) as).map (fun s => (s.log.drop 16, s.threads.all (fun th => th.pc = .done))) =
      some ([.evicted (exPeer 0), .admitted (exPeer 16), .evicted (exPeer 3)], true) := by decide +kernel

/-- **C55 is false of the code (1)**: if the tail of a full bucket answers, the newcomer, who never was in the table and was never reported admitted, is reported evicted.
This happens for every such newcomer. -/
theorem C55_evicted_never_admitted_refuted :
    (∀ self t (_ : Table.Reachable self t) e, t.recorded e.id = false → e.id ≠ zeroPublicKey → (t.bucket e.id).length = bucketSize →
      ∀ fuel, ack (fun _ _ => .pong) e (fuel + 1) 0 t [] = some (.ok (t, [.evicted e]))) ∧
    ∃ as s, runs Kad.step (State.new exFresh) as = some s ∧ .evicted (exPeer 16) ∈ s.log ∧ .admitted (exPeer 16) ∉ s.log := by
  constructor
  · intro self t ht e h1 h2 h3 fuel
    obtain ⟨h, hs⟩ := ht.inv
    have hup := (C49_update self t ht e).2.2.2.2 h2 h1 (by omega)
    obtain ⟨x, hx⟩ : ∃ x, (t.bucket e.id).getLast? = some x := by
      cases hg : (t.bucket e.id).getLast? with
      | some x => exact ⟨x, rfl⟩
      | none => rw [List.getLast?_eq_none_iff] at hg; rw [hg] at h3; cases h3
    have hlast : t.last e.id = .ok x := by
      rw [Table.last]; rw [Table.bucket] at hx; rw [hx]
    rw [ack, hup]
    simp only [hlast]; rfl
  · obtain ⟨s, h1, h2⟩ := run_of_view (f := fun s => (decide (.evicted (exPeer 16) ∈ s.log), decide (.admitted (exPeer 16) ∈ s.log))) (v := (true, false))
      (s := State.new exFresh) (as := exFill ++ [.ack (exPeer 16), .step 16, .step 16, .pinged 16 true, .step 16]) (by decide +kernel)
    simp only [Prod.mk.injEq, decide_eq_true_eq, decide_eq_false_iff_not] at h2
    exact ⟨_, s, h1, h2⟩

/-- **C55 is false of the code (2)**: the callbacks are called after the table's lock is released, so they can come in the wrong order: a peer that was admitted and then
evicted is reported evicted first, and admitted last, although it is not recorded. -/
theorem C55_order_refuted : ∃ as s, runs Kad.step (State.new exFresh) as = some s ∧ (∀ th ∈ s.threads, th.pc = .done) ∧
    s.log = [.evicted (exPeer 0), .admitted (exPeer 0)] ∧ s.table.recorded (exPeer 0).id = false := by
  obtain ⟨s, h1, h2⟩ := run_of_view (f := fun s => (s.threads.all (fun th => th.pc = .done), s.log, s.table.recorded (exPeer 0).id)) (v := (true, [.evicted (exPeer 0), .admitted (exPeer 0)], false))
    (s := State.new exFresh) (as := [.ack (exPeer 0), .step 0, .pingFailed (exPeer 0).address, .step 1, .step 1, .step 0]) (by decide +kernel)
  simp only [Prod.mk.injEq, List.all_eq_true, decide_eq_true_eq] at h2
  exact ⟨_, s, h1, h2⟩

/-! ## C56 -/

/-- The number of steps of a run at which the table shrinks. -/
def removals : State → List Kad.Action → Nat
  | _, [] => 0
  | s, a :: as => match Kad.step s a with
    | none => 0
    | some s' => (if s'.table.numEntries < s.table.numEntries then 1 else 0) + removals s' as

/-- **C56 is false of the code**: an `Ack` that finds its bucket full looks up the bucket's last peer in a second step. If in between sixteen failed dials empty the
bucket, the lookup crashes the node. -/
theorem C56_crash_refuted : ∃ as s, runs Kad.step (State.new exFresh) as = some s ∧ s.crashed = true := by
  obtain ⟨s, h1, h2⟩ := run_of_view (f := fun s => s.crashed) (v := true) (s := State.new exFresh)
    (as := exFill ++ [.ack (exPeer 16), .step 16] ++ ((List.range 16).flatMap fun i => [.pingFailed (exPeer i).address, .step (17 + i)]) ++ [.step 16]) (by decide +kernel)
  exact ⟨_, s, h1, h2⟩

/-- A table operation shrinks a bucket by at most one peer, and then the table has one peer less. -/
theorem Table.apply_bucket {t : Table} (op : TableOp) (k : PublicKey) :
    (t.bucket k).length ≤ ((t.apply op).bucket k).length + (if (t.apply op).numEntries < t.numEntries then 1 else 0) := by
  have key : ∀ (j : Nat) (b : List ID) (n : Int), ((t.entries j).length ≤ b.length + (if n < t.size then 1 else 0)) →
      (t.bucket k).length ≤ (({ t.setBucket j b with size := n } : Table).bucket k).length + (if n < t.size then 1 else 0) := by
    intro j b n h
    rw [Table.bucket_set]
    split
    · rename_i hj; rw [Table.bucket, hj]; exact h
    · omega
  cases op with
  | update e =>
    show _ ≤ ((t.update e).1.bucket k).length + (if (t.update e).1.size < t.size then 1 else 0)
    rcases Table.update_cases t e with ⟨hu, _⟩ | ⟨x, pre, post, he, _, hu⟩ | ⟨_, _, _, hu⟩ | ⟨_, _, _, hu⟩ <;> rw [hu]
    · exact Nat.le_add_right _ _
    · exact key _ _ t.size (by rw [he]; simp; omega)
    · exact key _ _ (t.size + 1) (by simp; omega)
    · exact Nat.le_add_right _ _
  | delete k' =>
    show _ ≤ ((t.delete k').1.bucket k).length + (if (t.delete k').1.size < t.size then 1 else 0)
    rcases Table.delete_cases t k' with ⟨hu, _⟩ | ⟨y, pre, post, he, _, hu⟩ <;> rw [hu]
    · exact Nat.le_add_right _ _
    · exact key _ _ (t.size - 1) (by rw [he, if_pos (by omega)]; simp; omega)
  | deleteByAddress a =>
    show _ ≤ ((t.deleteByAddress a).1.bucket k).length + (if (t.deleteByAddress a).1.size < t.size then 1 else 0)
    rcases Table.deleteByAddress_cases t a with ⟨hu, _⟩ | ⟨j, y, pre, post, hj, he, _, hu⟩ <;> rw [hu]
    · exact Nat.le_add_right _ _
    · exact key _ _ (t.size - 1) (by rw [he, if_pos (by omega)]; simp; omega)

/-- Every step leaves the table alone or applies one operation to it. -/
theorem Kad.step_table {s s' : State} {a : Kad.Action} (h : Kad.step s a = some s') : s'.table = s.table ∨ ∃ op, s'.table = s.table.apply op := by
  unfold Kad.step at h
  split at h
  · cases h
  cases a with
  | ack x => cases h; exact Or.inl rfl
  | pingFailed x => cases h; exact Or.inl rfl
  | table op => cases h; exact Or.inr ⟨op, rfl⟩
  | pinged i pong =>
    simp only at h
    split at h <;> cases h
    exact Or.inl rfl
  | step i =>
    simp only at h
    split at h
    swap
    · cases h
    rename_i id pc _
    cases pc with
    | update =>
      simp only [threadStep] at h
      refine Or.inr ⟨.update id, ?_⟩
      split at h <;> cases h <;> rename_i hu <;> simp only [State.set, Table.apply, hu]
    | last =>
      simp only [threadStep] at h
      split at h <;> cases h <;> exact Or.inl rfl
    | ping x => cases h
    | done => cases h
    | delete x =>
      simp only [threadStep] at h
      refine Or.inr ⟨.delete x.id, ?_⟩
      split at h <;> cases h <;> rename_i hu <;> simp only [State.set, Table.apply, hu]
    | deleteAddress a =>
      simp only [threadStep] at h
      refine Or.inr ⟨.deleteByAddress a, ?_⟩
      split at h <;> cases h <;> rename_i hu <;> simp only [State.set, Table.apply, hu]
    | emit ev again => cases h; exact Or.inl rfl

theorem Kad.run_bucket (k : PublicKey) : ∀ (as : List Kad.Action) (s s' : State), runs Kad.step s as = some s' → (s.table.bucket k).length ≤ (s'.table.bucket k).length + removals s as
  | [], s, s', h => by cases h; simp
  | a :: as, s, s', h => by
    obtain ⟨s1, h1, h2⟩ := runs_cons h
    have ih := Kad.run_bucket k as s1 s' h2
    simp only [removals, h1]
    rcases Kad.step_table h1 with ht | ⟨op, ht⟩
    · rw [ht] at ih; omega
    · have := Table.apply_bucket (t := s.table) op k
      rw [← ht] at this; omega

theorem Kad.run_inv {s s' : State} {as : List Kad.Action} (h : runs Kad.step s as = some s') (hi : s.table.Inv) : s'.table.Inv :=
  runs_inv (P := fun s => s.table.Inv) (fun s a s' hp hs => by
    rcases Kad.step_table hs with ht | ⟨op, ht⟩
    · rw [ht]; exact hp
    · rw [ht]; exact hp.apply op) h hi

/-- Who is about to look up the last peer of its bucket was so before, or has just found the bucket full. -/
theorem Kad.step_last {s s' : State} {a : Kad.Action} (h : Kad.step s a = some s') {i : Nat} {e : ID} (hi : s'.threads[i]? = some ⟨e, .last⟩) :
    s.threads[i]? = some ⟨e, .last⟩ ∨ (a = .step i ∧ s.threads[i]? = some ⟨e, .update⟩ ∧ 16 ≤ (s'.table.bucket e.id).length ∧ s'.table.recorded e.id = false) := by
  have hset : ∀ {j : Nat} {id : ID} {pc : Pc}, (s.threads.set j ⟨id, pc⟩)[i]? = some ⟨e, .last⟩ → pc ≠ .last → s.threads[i]? = some ⟨e, .last⟩ := by
    intro j id pc hj hne
    rw [List.getElem?_set] at hj
    split at hj
    · split at hj
      · cases hj; exact absurd rfl hne
      · cases hj
    · exact hj
  unfold Kad.step at h
  split at h
  · cases h
  cases a with
  | ack x =>
    cases h
    rw [List.getElem?_append] at hi
    split at hi
    · exact Or.inl hi
    · cases hk : i - s.threads.length with
      | zero => simp [hk] at hi
      | succ n => simp [hk] at hi
  | pingFailed x =>
    cases h
    rw [List.getElem?_append] at hi
    split at hi
    · exact Or.inl hi
    · cases hk : i - s.threads.length with
      | zero => simp [hk] at hi
      | succ n => simp [hk] at hi
  | table op => cases h; exact Or.inl hi
  | pinged j pong =>
    simp only at h
    split at h <;> cases h
    exact Or.inl (hset hi (by cases pong <;> simp))
  | step j =>
    simp only at h
    split at h
    swap
    · cases h
    rename_i id pc ht
    cases pc with
    | update =>
      simp only [threadStep] at h
      rcases Table.update_cases s.table id with ⟨hu, _⟩ | ⟨x, pre, post, he, _, hu⟩ | ⟨_, _, _, hu⟩ | ⟨hn, _, hl, hu⟩ <;> rw [hu] at h <;> cases h
      · exact Or.inl (hset hi (by simp))
      · exact Or.inl (hset hi (by simp))
      · exact Or.inl (hset hi (by simp))
      · simp only [State.set] at hi
        rw [List.getElem?_set] at hi
        split at hi
        · rename_i hij
          subst hij
          split at hi
          · cases hi
            refine Or.inr ⟨rfl, ht, hl, ?_⟩
            show (s.table.bucket _).any _ = false
            rw [List.any_eq_false]
            intro x hx; simpa using hn x hx
          · cases hi
        · exact Or.inl hi
    | last =>
      simp only [threadStep] at h
      split at h <;> cases h
      · exact Or.inl (hset hi (by simp))
      · exact Or.inl hi
    | ping x => cases h
    | done => cases h
    | delete x =>
      simp only [threadStep] at h
      split at h <;> cases h <;> exact Or.inl (hset hi (by simp))
    | deleteAddress a =>
      simp only [threadStep] at h
      split at h <;> cases h <;> exact Or.inl (hset hi (by simp))
    | emit ev again => cases h; exact Or.inl (hset hi (by cases again <;> simp))

theorem Kad.step_crash {s s' : State} {a : Kad.Action} (h : Kad.step s a = some s') (hc : s'.crashed = true) :
    ∃ i e, a = .step i ∧ s.threads[i]? = some ⟨e, .last⟩ ∧ s.table.bucket e.id = [] := by
  unfold Kad.step at h
  split at h
  · cases h
  rename_i hn
  cases a with
  | ack x => cases h; exact absurd hc hn
  | pingFailed x => cases h; exact absurd hc hn
  | table op => cases h; exact absurd hc hn
  | pinged j pong =>
    simp only at h
    split at h <;> cases h
    exact absurd hc hn
  | step j =>
    simp only at h
    split at h
    swap
    · cases h
    rename_i id pc ht
    cases pc with
    | last =>
      refine ⟨j, id, rfl, ht, ?_⟩
      simp only [threadStep, Table.last] at h
      split at h
      · cases h; exact absurd hc hn
      · rename_i hx
        rw [Table.bucket]
        cases hg : (s.table.entries (s.table.bucketIndex id.id)).getLast? with
        | none => exact List.getLast?_eq_none_iff.1 hg
        | some y => rw [hg] at hx; exact absurd rfl (hx y)
    | update => simp only [threadStep] at h; split at h <;> cases h <;> exact absurd hc hn
    | ping x => cases h
    | done => cases h
    | delete x => simp only [threadStep] at h; split at h <;> cases h <;> exact absurd hc hn
    | deleteAddress a => simp only [threadStep] at h; split at h <;> cases h <;> exact absurd hc hn
    | emit ev again => cases h; exact absurd hc hn

/-- **C56, what holds** (missing: the crash of `C56_crash_refuted`). Whatever `Ack`s, failed dials and operations on `Table()` run concurrently, in any interleaving: the node
crashes only if some `Ack(e)` found the bucket of `e` full, and then, before its next step, at least sixteen peers were removed from the table. -/
theorem C56_crash_only_if_partial (self : ID) (t : Table) (ht : Table.Reachable self t) (as : List Kad.Action) (s : State)
    (hr : runs Kad.step (State.new t) as = some s) (hc : s.crashed = true) :
    ∃ (before between : List Kad.Action) (s1 : State) (i : Nat) (e : ID), as = before ++ between ++ [.step i] ∧ runs Kad.step (State.new t) before = some s1 ∧ s1.threads[i]? = some (Thread.mk e .last) ∧
      (s1.table.bucket e.id).length = bucketSize ∧ 16 ≤ removals s1 between := by
  have key : ∀ (as : List Kad.Action) (s : State), runs Kad.step (State.new t) as = some s → ∀ (i : Nat) (e : ID), s.threads[i]? = some (Thread.mk e .last) →
      ∃ (before between : List Kad.Action) (s1 : State), as = before ++ between ∧ runs Kad.step (State.new t) before = some s1 ∧ runs Kad.step s1 between = some s ∧ s1.threads[i]? = some (Thread.mk e .last) ∧
        16 ≤ (s1.table.bucket e.id).length := by
    intro as
    induction as using List.reverseRecOn with
    | nil => intro s hs i e hi; cases hs; simp [State.new] at hi
    | append_singleton as a ih =>
      intro s hs i e hi
      rw [runs_append] at hs
      cases hm : runs Kad.step (State.new t) as with
      | none => rw [hm] at hs; cases hs
      | some sm =>
        rw [hm] at hs
        obtain ⟨s', h1, h2⟩ := runs_cons hs
        cases h2
        rcases Kad.step_last h1 hi with hl | ⟨_, _, hl, _⟩
        · obtain ⟨b, m, s1, e1, e2, e3, e4, e5⟩ := ih sm hm i e hl
          exact ⟨b, m ++ [a], s1, by rw [e1, List.append_assoc], e2, runs_trans e3 (runs_one h1), e4, e5⟩
        · exact ⟨as ++ [a], [], s, by simp, runs_trans hm (runs_one h1), rfl, hi, hl⟩
  obtain ⟨as', a, rfl⟩ : ∃ as' a, as = as' ++ [a] := by
    rcases List.eq_nil_or_concat as with rfl | ⟨l, a, rfl⟩
    · cases hr; cases hc
    · exact ⟨l, a, by simp⟩
  rw [runs_append] at hr
  cases hm : runs Kad.step (State.new t) as' with
  | none => rw [hm] at hr; cases hr
  | some sm =>
    rw [hm] at hr
    obtain ⟨s', h1, h2⟩ := runs_cons hr
    cases h2
    obtain ⟨i, e, rfl, h3, h4⟩ := Kad.step_crash h1 hc
    obtain ⟨b, m, s1, e1, e2, e3, e4, e5⟩ := key as' sm hm i e h3
    have h6 := Kad.run_bucket e.id m s1 sm e3
    rw [h4] at h6
    have h7 := (Kad.run_inv e2 ht.inv.1).cap (s1.table.bucketIndex e.id)
    exact ⟨b, m, s1, i, e, by rw [e1], e2, e4, Nat.le_antisymm h7 e5, by simp at h6; omega⟩

/-! ## C57 -/

theorem decode_put16 (o : Opcodes) (op : UInt16) (rest : Bytes) : decode o (put16 op ++ rest) =
    if op = o.ping then .ping else if op = o.request then (match unmarshalFindNodeRequest rest with | .ok k => .findNode k | _ => .undecodable) else .other := by
  have h1 : (put16 op ++ rest).take 2 = put16 op := List.take_left' rfl
  have h2 : (put16 op ++ rest).drop 2 = rest := List.drop_left' rfl
  have h3 : get16 (put16 op) = .ok op := by have := get16_put16 op []; simpa using this
  rw [decode, if_neg (by simp [put16_length]), h1, h2, h3]
  rfl

theorem bytes_split2 (data : Bytes) (h : 2 ≤ data.length) : ∃ op rest, data = put16 op ++ rest := by
  obtain ⟨v, h1, h2⟩ := get16_eq data h
  exact ⟨v, data.drop 2, by rw [put16_of_take h h2, List.take_append_drop]⟩

/-- **C57.** What the Kademlia handler does with the bytes of a message. Sent as a request (nonce not 0): a ping — whatever follows its opcode — is answered by one pong
with the same nonce; a FIND_NODE request for `k` by one response, with the same nonce, that decodes to the result of `FindClosest(k, 16)`: at most 16 recorded peers
(if these came from the network, that is, have 16-byte hosts and the address that belongs to host and port). Sent not as a request, both are answered by nothing and
reported as an error, which ends the connection (`C43_error_closes_partial`). Everything else is ignored. Nothing panics. -/
theorem C57_replies (S : Sorter) (o : Opcodes) (self : ID) (t : Table) (ht : Table.Reachable self t) (nonce : UInt64) :
    (∀ rest, handle S o t nonce (put16 o.ping ++ rest) = if nonce = 0 then .ok ⟨[], true⟩ else .ok ⟨[(nonce, put16 o.pong)], false⟩) ∧
    (∀ k : PublicKey, ∃ l body, t.findClosest S k 16 = .ok l ∧ l.length ≤ 16 ∧ (∀ e ∈ l, e ∈ t.all) ∧
      ((∀ e ∈ t.all, e = newID e.id e.host e.port ∧ e.host.length = 16) → unmarshalFindNodeResponse body = .ok l) ∧
      handle S o t nonce (put16 o.request ++ k.1) = if nonce = 0 then .ok ⟨[], true⟩ else .ok ⟨[(nonce, put16 o.response ++ body)], false⟩) ∧
    (∀ data, (∀ rest, data ≠ put16 o.ping ++ rest) → (∀ k : PublicKey, data ≠ put16 o.request ++ k.1) → handle S o t nonce data = .ok ⟨[], false⟩) := by
  have hz : nonce > 0 ↔ nonce ≠ 0 := by
    constructor
    · rintro h rfl; exact absurd h (by decide)
    · intro h; exact UInt64.pos_iff_ne_zero.2 h
  refine ⟨?_, ?_, ?_⟩
  · intro rest
    rw [handle, decode_put16, if_pos rfl]
    simp only [hz, marshalPing, List.append_nil]
    split <;> simp_all
  · intro k
    obtain ⟨l, h1, _, h3, _, h5⟩ := C51_find_closest S self t ht k 16
    refine ⟨l, marshalFindNodeResponse l, h1, by omega, fun e he => (h3 e he).1, ?_, ?_⟩
    · intro hv
      exact (C53_response_roundtrip l (fun e he => hv e (h3 e he).1)).1 (by omega)
    · have hne : o.request ≠ o.ping := by have := o.distinct; intro h; simp [h] at this
      have hk : unmarshalFindNodeRequest k.1 = .ok k := (C53_request k []).1
      rw [handle, decode_put16, if_neg hne, if_pos rfl, hk]
      simp only [hz, bucketSize]
      rw [h1]
      split <;> simp_all
  · intro data h1 h2
    have : decode o data = .other ∨ decode o data = .undecodable := by
      by_cases hl : data.length < 2
      · exact Or.inr (by rw [decode, if_pos hl])
      · obtain ⟨op, rest, rfl⟩ := bytes_split2 data (by omega)
        rw [decode_put16]
        split
        · rename_i h; exact absurd (by rw [h]) (h1 rest)
        · split
          · rename_i h
            subst h
            by_cases hr : rest.length = 32
            · exact absurd rfl (h2 ⟨rest, hr⟩)
            · rw [(C53_request ⟨List.replicate 32 0, by simp⟩ rest).2.1 hr]; exact Or.inr rfl
          · exact Or.inl rfl
    rcases this with h | h <;> rw [handle, h]

/-- Identities with 16-byte hosts satisfy the hypothesis on hosts. -/
example : let t := ((newTable (newID (keyOf [0x80]) (List.replicate 16 1) 1)).getD exFresh).apply (.update (newID (keyOf [1]) (List.replicate 16 9) 80))
    t.all.length = 2 ∧ ∀ e ∈ t.all, e = newID e.id e.host e.port ∧ e.host.length = 16 := by decide +kernel

end Noise
