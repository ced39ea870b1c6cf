import Verif.Model.KadNode
import Verif.Proofs.ClientTrace
import Verif.Proofs.Table
import Verif.Proofs.TS
/-! # Where the IDs in the routing table come from -/
set_option linter.unusedSimpArgs false
set_option linter.unusedTactic false
namespace Noise.KadNode
open Spec Cl
variable {ε : Type}

/-- Every ID in the table, every argument of an `Ack` that is not the zero key, and every report about a peer that is not the zero key satisfies `P`. -/
structure Src (P : ID → Prop) (k : Kad.State) : Prop where
  table : ∀ e ∈ k.table.all, P e
  threads : ∀ th ∈ k.threads, th.id.id ≠ zeroPublicKey → P th.id
  delete : ∀ th ∈ k.threads, ∀ ev again, th.pc = .emit ev again → ∀ e, (ev = .admitted e → P e) ∧ (ev = .evicted e → P e) ∧ (ev = .activity e → e.id ≠ zeroPublicKey → P e)
  last : ∀ th ∈ k.threads, th.pc = .last ∨ (∃ x, th.pc = .ping x) → th.id.id ≠ zeroPublicKey
  log : ∀ e, (.admitted e ∈ k.log → P e) ∧ (.evicted e ∈ k.log → P e) ∧ (.activity e ∈ k.log → e.id ≠ zeroPublicKey → P e)

theorem mem_update {t : Table} {e x : ID} (h : x ∈ (t.update e).1.all) : x ∈ t.all ∨ (x = e ∧ e.id ≠ zeroPublicKey) := by
  rcases Table.update_cases t e with ⟨h1, _⟩ | ⟨y, pre, post, h1, _, h2⟩ | ⟨_, hz, _, h2⟩ | ⟨_, _, _, h2⟩
  · rw [h1] at h; exact .inl h
  · rw [h2] at h; exact .inl ((Table.perm_move (Table.bucketIndex_lt _ _) h1).mem_iff.1 h)
  · rw [h2] at h
    have h := (Table.perm_add (Table.bucketIndex_lt _ _) e).mem_iff.1 h
    rcases List.mem_cons.1 h with rfl | h
    · exact .inr ⟨rfl, hz⟩
    · exact .inl h
  · rw [h2] at h; exact .inl h

theorem mem_delete {t : Table} {k : PublicKey} : (∀ x ∈ (t.delete k).1.all, x ∈ t.all) ∧ ((t.delete k).2.2 = true → (t.delete k).2.1 ∈ t.all) := by
  rcases Table.delete_cases t k with ⟨h1, _⟩ | ⟨y, pre, post, h1, _, h2⟩
  · rw [h1]; exact ⟨fun _ h => h, fun h => by cases h⟩
  · rw [h2]
    have hp := Table.perm_remove (Table.bucketIndex_lt t k) h1
    exact ⟨fun x hx => hp.mem_iff.2 (List.mem_cons_of_mem _ hx), fun _ => hp.mem_iff.2 List.mem_cons_self⟩

theorem mem_deleteByAddress {t : Table} {a : Text} : (∀ x ∈ (t.deleteByAddress a).1.all, x ∈ t.all) ∧ ((t.deleteByAddress a).2.2 = true → (t.deleteByAddress a).2.1 ∈ t.all) := by
  rcases Table.deleteByAddress_cases t a with ⟨h1, _⟩ | ⟨j, y, pre, post, hj, h1, _, h2⟩
  · rw [h1]; exact ⟨fun _ h => h, fun h => by cases h⟩
  · rw [h2]
    have hp := Table.perm_remove hj h1
    exact ⟨fun x hx => hp.mem_iff.2 (List.mem_cons_of_mem _ hx), fun _ => hp.mem_iff.2 List.mem_cons_self⟩

theorem Src.mono {P Q : ID → Prop} {k : Kad.State} (h : Src P k) (hpq : ∀ e, P e → Q e) : Src Q k :=
  ⟨fun e he => hpq e (h.table e he), fun th ht hz => hpq _ (h.threads th ht hz),
    fun th ht ev ag hp e => ⟨fun x => hpq _ ((h.delete th ht ev ag hp e).1 x), fun x => hpq _ ((h.delete th ht ev ag hp e).2.1 x), fun x y => hpq _ ((h.delete th ht ev ag hp e).2.2 x y)⟩,
    h.last, fun e => ⟨fun x => hpq _ ((h.log e).1 x), fun x => hpq _ ((h.log e).2.1 x), fun x y => hpq _ ((h.log e).2.2 x y)⟩⟩

/-- New threads with good arguments. -/
theorem Src.spawn {P : ID → Prop} {k : Kad.State} (h : Src P k) (l : List ID) (hl : ∀ e ∈ l, e.id ≠ zeroPublicKey → P e) :
    Src P { k with threads := k.threads ++ l.map fun e => ⟨e, .update⟩ } := by
  refine ⟨h.table, ?_, ?_, ?_, h.log⟩
  · intro th ht hz
    rcases List.mem_append.1 ht with ht | ht
    · exact h.threads th ht hz
    · obtain ⟨e, he, rfl⟩ := List.mem_map.1 ht; exact hl e he hz
  · intro th ht ev ag hp
    rcases List.mem_append.1 ht with ht | ht
    · exact h.delete th ht ev ag hp
    · obtain ⟨e, he, rfl⟩ := List.mem_map.1 ht; cases hp
  · intro th ht hp
    rcases List.mem_append.1 ht with ht | ht
    · exact h.last th ht hp
    · obtain ⟨e, he, rfl⟩ := List.mem_map.1 ht; rcases hp with hp | ⟨x, hp⟩ <;> cases hp

/-- A step of a thread, in general. -/
theorem Src.set {P : ID → Prop} {k : Kad.State} (h : Src P k) {t : Table} {log : List Kad.Event} {i : Nat} {id : ID} {pc : Kad.Pc} (ht : ∀ e ∈ t.all, P e)
    (hl : ∀ e, (.admitted e ∈ log → P e) ∧ (.evicted e ∈ log → P e) ∧ (.activity e ∈ log → e.id ≠ zeroPublicKey → P e))
    (hid : id.id ≠ zeroPublicKey → P id)
    (he : ∀ ev again, pc = .emit ev again → ∀ e, (ev = .admitted e → P e) ∧ (ev = .evicted e → P e) ∧ (ev = .activity e → e.id ≠ zeroPublicKey → P e))
    (hp : pc = .last ∨ (∃ x, pc = .ping x) → id.id ≠ zeroPublicKey) : Src P ⟨t, k.threads.set i ⟨id, pc⟩, log, k.crashed⟩ := by
  refine ⟨ht, ?_, ?_, ?_, hl⟩
  · intro th hth hz
    rcases List.mem_or_eq_of_mem_set hth with hth | rfl
    · exact h.threads th hth hz
    · exact hid hz
  · intro th hth ev ag hpc
    rcases List.mem_or_eq_of_mem_set hth with hth | rfl
    · exact h.delete th hth ev ag hpc
    · exact he ev ag hpc
  · intro th hth hpc
    rcases List.mem_or_eq_of_mem_set hth with hth | rfl
    · exact h.last th hth hpc
    · exact hp hpc

theorem ok_admitted {P : ID → Prop} {x : ID} (h : P x) : ∀ e, (Kad.Event.admitted x = .admitted e → P e) ∧ (Kad.Event.admitted x = .evicted e → P e) ∧ (Kad.Event.admitted x = .activity e → e.id ≠ zeroPublicKey → P e) := by
  intro e; refine ⟨?_, ?_, ?_⟩ <;> intro a
  · injection a with a; subst a; exact h
  · cases a
  · cases a

theorem ok_evicted {P : ID → Prop} {x : ID} (h : P x) : ∀ e, (Kad.Event.evicted x = .admitted e → P e) ∧ (Kad.Event.evicted x = .evicted e → P e) ∧ (Kad.Event.evicted x = .activity e → e.id ≠ zeroPublicKey → P e) := by
  intro e; refine ⟨?_, ?_, ?_⟩ <;> intro a
  · cases a
  · injection a with a; subst a; exact h
  · cases a

theorem ok_activity {P : ID → Prop} {x : ID} (h : x.id ≠ zeroPublicKey → P x) : ∀ e, (Kad.Event.activity x = .admitted e → P e) ∧ (Kad.Event.activity x = .evicted e → P e) ∧ (Kad.Event.activity x = .activity e → e.id ≠ zeroPublicKey → P e) := by
  intro e; refine ⟨?_, ?_, ?_⟩ <;> intro a
  · cases a
  · cases a
  · injection a with a; subst a; exact h

theorem emit_ok {P : ID → Prop} {ev : Kad.Event} {ag : Bool} (h : ∀ e, (ev = .admitted e → P e) ∧ (ev = .evicted e → P e) ∧ (ev = .activity e → e.id ≠ zeroPublicKey → P e)) :
    ∀ ev' again, Kad.Pc.emit ev ag = .emit ev' again → ∀ e, (ev' = .admitted e → P e) ∧ (ev' = .evicted e → P e) ∧ (ev' = .activity e → e.id ≠ zeroPublicKey → P e) := by
  intro ev' again e; injection e with e _; subst e; exact h

theorem Src.threadStep {P : ID → Prop} {k k' : Kad.State} (h : Src P k) {i : Nat} {id : ID} {pc : Kad.Pc} (hi : k.threads[i]? = some ⟨id, pc⟩) (hs : Kad.threadStep k i id pc = some k') : Src P k' := by
  have hm := List.mem_of_getElem? hi
  have hid := h.threads _ hm
  cases pc with
  | update =>
    simp only [Kad.threadStep] at hs
    have hu : ∀ e ∈ (k.table.update id).1.all, P e := by
      intro e he
      rcases mem_update he with he | ⟨rfl, hz⟩
      · exact h.table e he
      · exact hid hz
    rcases Table.update_cases k.table id with ⟨h1, hz⟩ | ⟨y, pre, post, h1, hy, h2⟩ | ⟨_, hz, _, h2⟩ | ⟨_, hz, _, h2⟩
    · rw [h1] at hs hu; simp only [Kad.State.set, Option.some.injEq] at hs; subst hs
      exact h.set hu h.log hid (emit_ok (ok_activity hid)) (by rintro (x | ⟨_, x⟩) <;> cases x)
    · rw [h2] at hs hu; simp only [Kad.State.set, Option.some.injEq] at hs; subst hs
      exact h.set hu h.log hid (emit_ok (ok_activity hid)) (by rintro (x | ⟨_, x⟩) <;> cases x)
    · rw [h2] at hs hu; simp only [Kad.State.set, Option.some.injEq] at hs; subst hs
      exact h.set hu h.log hid (emit_ok (ok_admitted (hid hz))) (by rintro (x | ⟨_, x⟩) <;> cases x)
    · rw [h2] at hs hu; simp only [Kad.State.set, Option.some.injEq] at hs; subst hs
      exact h.set hu h.log hid (fun _ _ x => by cases x) (fun _ => hz)
  | last =>
    simp only [Kad.threadStep] at hs
    split at hs
    · simp only [Kad.State.set, Option.some.injEq] at hs; subst hs
      exact h.set h.table h.log hid (fun _ _ x => by cases x) (fun _ => h.last _ hm (.inl rfl))
    · injection hs with hs; subst hs; exact ⟨h.table, h.threads, h.delete, h.last, h.log⟩
  | ping x => cases hs
  | delete x =>
    simp only [Kad.threadStep] at hs
    have hd := @mem_delete k.table x.id
    rcases hx : k.table.delete x.id with ⟨t, y, b⟩
    rw [hx] at hs hd
    cases b with
    | true =>
      simp only [Kad.State.set, Option.some.injEq] at hs; subst hs
      exact h.set (fun e he => h.table e (hd.1 e he)) h.log hid (emit_ok (ok_evicted (h.table _ (hd.2 rfl)))) (by rintro (x | ⟨_, x⟩) <;> cases x)
    | false =>
      simp only [Kad.State.set, Option.some.injEq] at hs; subst hs
      exact h.set (fun e he => h.table e (hd.1 e he)) h.log hid (fun _ _ x => by cases x) (by rintro (x | ⟨_, x⟩) <;> cases x)
  | emit ev again =>
    simp only [Kad.threadStep, Kad.State.set, Option.some.injEq] at hs; subst hs
    have he := h.delete _ hm ev again rfl
    refine h.set h.table (fun e => ⟨fun x => ?_, fun x => ?_, fun x => ?_⟩) hid (fun _ _ x => by split at x <;> cases x) (by rintro (x | ⟨_, x⟩) <;> split at x <;> cases x)
    · rcases List.mem_append.1 x with x | x
      · exact (h.log e).1 x
      · exact (he e).1 (List.mem_singleton.1 x).symm
    · rcases List.mem_append.1 x with x | x
      · exact (h.log e).2.1 x
      · exact (he e).2.1 (List.mem_singleton.1 x).symm
    · rcases List.mem_append.1 x with x | x
      · exact (h.log e).2.2 x
      · exact (he e).2.2 (List.mem_singleton.1 x).symm
  | deleteAddress a =>
    simp only [Kad.threadStep] at hs
    have hd := @mem_deleteByAddress k.table a
    rcases hx : k.table.deleteByAddress a with ⟨t, y, b⟩
    rw [hx] at hs hd
    cases b with
    | true =>
      simp only [Kad.State.set, Option.some.injEq] at hs; subst hs
      exact h.set (fun e he => h.table e (hd.1 e he)) h.log hid (emit_ok (ok_evicted (h.table _ (hd.2 rfl)))) (by rintro (x | ⟨_, x⟩) <;> cases x)
    | false =>
      simp only [Kad.State.set, Option.some.injEq] at hs; subst hs
      exact h.set (fun e he => h.table e (hd.1 e he)) h.log hid (fun _ _ x => by cases x) (by rintro (x | ⟨_, x⟩) <;> cases x)
  | done => cases hs

theorem Src.step {P : ID → Prop} {k k' : Kad.State} (h : Src P k) {a : Kad.Action} (hs : Kad.step k a = some k') (ha : ∀ e, a = .ack e → e.id ≠ zeroPublicKey → P e) (hu : ∀ e, a = .table (.update e) → P e) : Src P k' := by
  simp only [Kad.step] at hs
  split at hs
  · cases hs
  · cases a with
    | ack e => injection hs with hs; subst hs; exact h.spawn [e] (fun x hx => by rw [List.mem_singleton] at hx; subst hx; exact ha x rfl)
    | pingFailed a =>
      injection hs with hs; subst hs
      refine ⟨h.table, ?_, ?_, ?_, h.log⟩
      · intro th ht hz
        rcases List.mem_append.1 ht with ht | ht
        · exact h.threads th ht hz
        · rw [List.mem_singleton] at ht; subst ht; exact absurd rfl hz
      · intro th ht ev ag hp
        rcases List.mem_append.1 ht with ht | ht
        · exact h.delete th ht ev ag hp
        · rw [List.mem_singleton] at ht; subst ht; cases hp
      · intro th ht hp
        rcases List.mem_append.1 ht with ht | ht
        · exact h.last th ht hp
        · rw [List.mem_singleton] at ht; subst ht; rcases hp with hp | ⟨x, hp⟩ <;> cases hp
    | table op =>
      injection hs with hs; subst hs
      refine ⟨?_, h.threads, h.delete, h.last, h.log⟩
      intro e he
      cases op with
      | update x =>
        rcases mem_update he with he | ⟨rfl, _⟩
        · exact h.table e he
        · exact hu e rfl
      | delete key => exact h.table e (mem_delete.1 e he)
      | deleteByAddress a => exact h.table e (mem_deleteByAddress.1 e he)
    | pinged i pong =>
      simp only at hs
      split at hs
      · rename_i id x hi
        have hm := List.mem_of_getElem? hi
        have hz := h.last _ hm (.inr ⟨x, rfl⟩)
        have hid := h.threads _ hm
        injection hs with hs; subst hs
        cases pong with
        | true => exact h.set h.table h.log hid (emit_ok (ok_evicted (hid hz))) (by rintro (x | ⟨_, x⟩) <;> cases x)
        | false => exact h.set h.table h.log hid (fun _ _ x => by cases x) (by rintro (x | ⟨_, x⟩) <;> cases x)
      · cases hs
    | step i =>
      simp only at hs
      split at hs
      · rename_i id pc hi
        exact h.threadStep hi hs
      · cases hs

/-- The node itself, or given by the application, or verified in a handshake on one of the connections. -/
def Known (self : ID) (s : State ε) (e : ID) : Prop := e = self ∨ e ∈ s.user ∨ ∃ c ∈ s.conns, .connected (some e) ∈ c.log

/-- A callback is called in a step that does not lead to where `OnPeerConnected` is still to be called. -/
theorem callback_step {s s' : Cl.State ε} {a : Cl.Action ε} {ev : Cl.Event ε} (hw : s'.main = .hsVerified → s'.writer = .notStarted) (hs : Cl.step s a = some s') (hl : s'.log = s.log ++ [ev])
    (hev : (∃ i, ev = .connected i) ∨ ev = .sentCb ∨ ev = .recvCb) : s'.main ≠ .hsVerified := by
  cl_cases a hs
  all_goals first
    | (intro h; cases h; done)
    | (intro h; cases hw h; done)
    | (exfalso; simp [State.closeReady, State.closeReaderDone, State.closeWriterDone, State.closeClientDone, State.report, State.send, State.setCall] at hl; done)
    | (exfalso; simp [State.closeReady, State.closeReaderDone, State.closeWriterDone, State.closeClientDone, State.report, State.send, State.setCall] at hl; subst hl; simp at hev; done)

/-- The argument of an `Ack` in a callback is the verified ID, or zero. -/
theorem acks_connected {side : Side} {c c' : Cl.State ε} {act : Cl.Action ε} (h : Cl.Reachable side c') (hs : Cl.step c act = some c') (e : ID) (he : e ∈ acks c c') (hz : e.id ≠ zeroPublicKey) : .connected (some e) ∈ c'.log := by
  have hcb := CbInv.reach h
  have hci := ConnInv.reach h
  have hid : ∀ i, c'.id = some i → c'.main ≠ .hsVerified → .connected (some i) ∈ c'.log := by
    intro i hi hm
    have h6 := hcb.conn
    rw [if_neg, hi] at h6
    · simp only [Option.isSome_some, if_true] at h6
      have : some i ∈ connectedOf c'.log := by rw [h6]; simp
      unfold connectedOf at this
      obtain ⟨ev, h1, h2⟩ := List.mem_filterMap.1 this
      cases ev <;> simp at h2
      subst h2; exact h1
    · rintro (x | x)
      · rw [hcb.preHs x] at hi; cases hi
      · exact hm x
  have hget : clientID c' = e → c'.main ≠ .hsVerified → .connected (some e) ∈ c'.log := by
    intro hc hm
    unfold clientID at hc
    cases hi : c'.id with
    | none => rw [hi] at hc; simp only [Option.getD_none] at hc; subst hc; exact absurd rfl hz
    | some i => rw [hi] at hc; simp only [Option.getD_some] at hc; subst hc; exact hid i hi hm
  obtain ⟨ev, h1, h2⟩ := List.mem_filterMap.1 he
  have hnv : c'.main ≠ .hsVerified := by
    rcases log_step_one hs with hl | ⟨x, hl⟩
    · rw [hl, List.drop_length] at h1; cases h1
    · rw [hl, List.drop_left, List.mem_singleton] at h1
      subst h1
      refine callback_step (fun hm => hci.early (by rw [hm]; rfl)) hs hl ?_
      cases ev <;> simp at h2 ⊢
  cases ev <;> simp only [Option.some.injEq, reduceCtorEq] at h2
  all_goals exact hget h2 hnv

structure Inv (me : ID) (s : State ε) : Prop where
  conns : ∀ c ∈ s.conns, ∃ side, Cl.Reachable side c
  src : Src (Known me s) s.kad

theorem Inv.step {me : ID} {s s' : State ε} {a : Action ε} (h : Inv me s) (hs : KadNode.step s a = some s') : Inv me s' := by
  simp only [KadNode.step] at hs
  split at hs
  · cases hs
  · cases a with
    | connect side =>
      injection hs with hs; subst hs
      refine ⟨?_, h.src.mono ?_⟩
      · intro c hc
        rcases List.mem_append.1 hc with hc | hc
        · exact h.conns c hc
        · rw [List.mem_singleton] at hc; subst hc; exact ⟨side, [], rfl⟩
      · rintro e (he | he | ⟨c, hc, he⟩)
        · exact .inl he
        · exact .inr (.inl he)
        · exact .inr (.inr ⟨c, List.mem_append_left _ hc, he⟩)
    | conn i act =>
      simp only at hs
      split at hs
      · rename_i c hi
        cases hst : Cl.step c act with
        | none => rw [hst] at hs; cases hs
        | some c' =>
          rw [hst] at hs
          simp only [Option.map_some, Option.some.injEq] at hs
          subst hs
          obtain ⟨side, hr⟩ := h.conns c (List.mem_of_getElem? hi)
          have hr' := hr.step hst
          have hlt := (List.getElem?_eq_some_iff.1 hi).1
          have hc' : c' ∈ s.conns.set i c' := List.mem_iff_getElem?.2 ⟨i, List.getElem?_set_self hlt⟩
          have hmono : ∀ e, Known me s e → Known me { s with conns := s.conns.set i c' } e := by
            rintro e (he | he | ⟨d, hd, he⟩)
            · exact .inl he
            · exact .inr (.inl he)
            · obtain ⟨j, hj⟩ := List.mem_iff_getElem?.1 hd
              by_cases e : j = i
              · subst e
                rw [hj] at hi; injection hi with hi; subst hi
                refine .inr (.inr ⟨c', hc', ?_⟩)
                rcases log_step_one hst with hl | ⟨x, hl⟩
                · rw [hl]; exact he
                · rw [hl]; exact List.mem_append_left _ he
              · exact .inr (.inr ⟨d, List.mem_iff_getElem?.2 ⟨j, by rw [List.getElem?_set_ne (Ne.symm e)]; exact hj⟩, he⟩)
          refine ⟨?_, ?_⟩
          · intro d hd
            rcases List.mem_or_eq_of_mem_set hd with hd | rfl
            · exact h.conns d hd
            · exact ⟨side, hr'⟩
          · exact (h.src.mono hmono).spawn _ fun e he hz => .inr (.inr ⟨c', hc', acks_connected hr' hst e he hz⟩)
      · cases hs
    | dialFailed a =>
      cases hk : Kad.step s.kad (.pingFailed a) with
      | none => simp only [hk] at hs; cases hs
      | some k =>
        simp only [hk, Option.map_some, Option.some.injEq] at hs
        subst hs
        exact ⟨h.conns, h.src.step hk (fun e x => (by cases x)) (fun e x => (by cases x))⟩
    | step i =>
      cases hk : Kad.step s.kad (.step i) with
      | none => simp only [hk] at hs; cases hs
      | some k =>
        simp only [hk, Option.map_some, Option.some.injEq] at hs
        subst hs
        exact ⟨h.conns, h.src.step hk (fun e x => (by cases x)) (fun e x => (by cases x))⟩
    | pinged i pong =>
      cases hk : Kad.step s.kad (.pinged i pong) with
      | none => simp only [hk] at hs; cases hs
      | some k =>
        simp only [hk, Option.map_some, Option.some.injEq] at hs
        subst hs
        exact ⟨h.conns, h.src.step hk (fun e x => (by cases x)) (fun e x => (by cases x))⟩
    | userAck e =>
      cases hk : Kad.step s.kad (.ack e) with
      | none => simp only [hk] at hs; cases hs
      | some k =>
        simp only [hk, Option.map_some, Option.some.injEq] at hs
        subst hs
        have hm : ∀ x, Known me s x → Known me { s with kad := k, user := s.user ++ [e] } x := by
          rintro x (hx | hx | hx)
          · exact .inl hx
          · exact .inr (.inl (List.mem_append_left _ hx))
          · exact .inr (.inr hx)
        exact ⟨h.conns, (h.src.mono hm).step hk (fun x hx _ => by injection hx with hx; subst hx; exact .inr (.inl (by simp))) (fun e x => (by cases x))⟩
    | userTable op =>
      cases hk : Kad.step s.kad (.table op) with
      | none => simp only [hk] at hs; cases hs
      | some k =>
        simp only [hk, Option.map_some, Option.some.injEq] at hs
        subst hs
        cases op with
        | update e =>
          have hm : ∀ x, Known me s x → Known me { s with kad := k, user := s.user ++ [e] } x := by
            rintro x (hx | hx | hx)
            · exact .inl hx
            · exact .inr (.inl (List.mem_append_left _ hx))
            · exact .inr (.inr hx)
          exact ⟨h.conns, (h.src.mono hm).step hk (fun e x => (by cases x)) (fun x hx => by injection hx with hx; injection hx with hx; subst hx; exact .inr (.inl (by simp)))⟩
        | delete key => exact ⟨h.conns, h.src.step hk (fun e x => (by cases x)) (fun e x => by injection x with x; cases x)⟩
        | deleteByAddress a => exact ⟨h.conns, h.src.step hk (fun e x => (by cases x)) (fun e x => by injection x with x; cases x)⟩

theorem Inv.reach {me : ID} {s : State ε} (h : Reachable me s) : Inv me s := by
  obtain ⟨t, ht, hr⟩ := h
  refine hr.inv (P := Inv me) (fun _ _ _ h hs => h.step hs) ⟨fun c hc => (by cases hc), ⟨?_, fun th h => (by cases h), fun th h => (by cases h), fun th h => (by cases h), fun e => ⟨fun h => (by cases h), fun h => (by cases h), fun h => (by cases h)⟩⟩⟩
  intro e he
  unfold newTable at ht
  split at ht
  · rename_i t' b hu
    injection ht with ht; subst ht
    have he : e ∈ ((Table.mk (fun _ => []) me 0).update me).1.all := by rw [hu]; exact he
    rcases mem_update he with he | ⟨rfl, _⟩
    · simp [Table.all] at he
    · exact .inl rfl
  · cases ht

end Noise.KadNode
