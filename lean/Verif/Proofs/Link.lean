import Verif.Proofs.LinkEff
import Verif.Proofs.Worker
import Verif.Proofs.Requests
/-! # Two nodes joined by a connection: invariants -/
namespace Noise.Link
open Spec
variable {ε : Type}

/-! ### Steps of the parts -/

/-- What the handlers of B have sent back on this connection, in order. -/
def respOf (w : Wk.State ε) : List Message :=
  w.log.filterMap fun | .sendOk k _ n d => (w.items[k]?).bind fun it => if it.client = 0 then some ⟨n, d⟩ else none | _ => none

theorem Cl_reach_hand {side : Cl.Side} {s : Cl.State ε} (h : Cl.Reachable side s) : toHandlersOf s.log = deliveredOf s.log ++ s.main.undelivered := by
  obtain ⟨as, h⟩ := h
  exact (Cl.reads_run h rfl).2

theorem processedOf_other {s s' : Cl.State ε} (h : ∃ es, s'.log = s.log ++ es ∧ ∀ e ∈ es, ∀ m b, e ≠ Cl.Event.processed m b) :
    processedOf s'.log = processedOf s.log ∧ ∀ m b, .processed m b ∈ s'.log ↔ .processed m b ∈ s.log := by
  obtain ⟨es, e, hne⟩ := h
  constructor
  · rw [e, Cl.processedOf_append]
    have : processedOf es = [] := by
      unfold processedOf
      rw [List.filterMap_eq_nil_iff]
      intro x hx
      have := hne x hx
      cases x <;> simp_all
    rw [this, List.append_nil]
  · intro m b
    rw [e]
    constructor
    · intro hm
      rcases List.mem_append.1 hm with h | h
      · exact h
      · exact absurd rfl (hne _ h m b)
    · exact fun h => List.mem_append_left _ h

/-- What a step of the workers does to the log and the items. -/
inductive WEff (s s' : Wk.State ε) : Wk.Action ε → Prop
  | enqueue {it} : s'.items = s.items ++ [it] → s'.log = s.log → WEff s s' (.enqueue it)
  | sendOk {k h data it} : s.items[k]? = some it → (it.msg.isRequest = false ∨ s.sent k h = false) → s'.items = s.items →
      s'.log = s.log ++ [.sendOk k h it.msg.nonce data] → WEff s s' (.send k h data)
  | sendErr {k h data it} : s.items[k]? = some it → ¬ (it.msg.isRequest = false ∨ s.sent k h = false) → s'.items = s.items →
      s'.log = s.log ++ [.sendErr k h] → WEff s s' (.send k h data)
  | other {act} : s'.items = s.items → (∃ es, s'.log = s.log ++ es ∧ ∀ e ∈ es, ∀ k h n d, e ≠ Wk.Event.sendOk k h n d) → (∀ it, act ≠ .enqueue it) → (∀ k h d, act ≠ .send k h d) → WEff s s' act

theorem weff_step {s s' : Wk.State ε} {a : Wk.Action ε} (hs : Wk.step s a = some s') : WEff s s' a := by
  cases a with
  | enqueue it =>
    simp only [Wk.step] at hs
    repeat' split at hs
    all_goals try (cases hs; done)
    injection hs with hs; subst hs
    exact .enqueue rfl rfl
  | send k h data =>
    simp only [Wk.step] at hs
    repeat' split at hs
    all_goals try (cases hs; done)
    rename_i it hit _
    injection hs with hs; subst hs
    unfold Wk.State.ctxSend
    by_cases hr : it.msg.isRequest = true
    · by_cases hst : s.sent k h = true
      · rw [if_pos hr, if_pos hst]; exact .sendErr hit (by simp [hr, hst]) rfl rfl
      · rw [if_pos hr, if_neg hst]; exact .sendOk hit (Or.inr (by simpa using hst)) rfl rfl
    · rw [if_neg hr]; exact .sendOk hit (Or.inl (by simpa using hr)) rfl rfl
  | _ =>
    simp only [Wk.step] at hs
    repeat' split at hs
    all_goals try (cases hs; done)
    all_goals
      injection hs with hs; subst hs
      refine .other rfl ?_ (by simp) (by simp)
      first
        | exact ⟨[], (List.append_nil _).symm, by simp⟩
        | exact ⟨_, rfl, by simp⟩

/-- Messages that have been read, in order: processed and in hand. -/
def readBy (c : Cl.State ε) : List Message := processedOf c.log ++ c.main.unrouted

structure Base (N H : Nat) (s : State ε) : Prop where
  ra : Cl.Reachable .outbound s.a
  rb : Cl.Reachable .inbound s.b
  rw : Wk.Reachable N H s.w
  readA : readBy s.a = (wroteOf s.b.log).take s.readA
  leA : s.readA ≤ (wroteOf s.b.log).length
  readB : readBy s.b = (wroteOf s.a.log).take s.readB
  leB : s.readB ≤ (wroteOf s.a.log).length
  noB : s.b.calls = []
  allB : toHandlersOf s.b.log = processedOf s.b.log
  items : (s.w.items.filter fun it => it.client = 0).map Wk.Item.msg = deliveredOf s.b.log
  sent : submittedOf s.b.log = respOf s.w

theorem readBy_step {s s' : Cl.State ε} {a : Cl.Action ε} (hs : Cl.step s a = some s') : readBy s' = readBy s ++ readsOf [a] := (Cl.reads_step hs).1

theorem take_mono {l l' : List Message} (h : l <+: l') {n : Nat} (hn : n ≤ l.length) : l'.take n = l.take n := by
  obtain ⟨t, rfl⟩ := h
  exact List.take_append_of_le_length hn

theorem take_next {l : List Message} {n : Nat} {m : Message} (h : l[n]? = some m) : l.take (n + 1) = l.take n ++ [m] ∧ n + 1 ≤ l.length := by
  have hlt := (List.getElem?_eq_some_iff.1 h).1
  refine ⟨?_, hlt⟩
  rw [List.take_add_one, h]; rfl

/-- The part of `Base` about A and its reads, for a step of A that keeps B and the workers. -/
theorem Base.stepA {N H : Nat} {s : State ε} (i : Base N H s) {a' : Cl.State ε} {act : Cl.Action ε} (hs : Cl.step s.a act = some a') (n : Nat)
    (hn : (readsOf [act] = [] ∧ n = s.readA) ∨ (∃ m, readsOf [act] = [m] ∧ (wroteOf s.b.log)[s.readA]? = some m ∧ n = s.readA + 1)) :
    Base N H { s with a := a', readA := n } := by
  obtain ⟨h1, h2, h3, h4, h5, h6, h7, h8, h9, h10, h11⟩ := i
  have hw := Cl.wrote_mono hs
  refine ⟨Cl.Reachable.step h1 hs, h2, h3, ?_, ?_, ?_, ?_, h8, h9, h10, h11⟩
  · rcases hn with ⟨e, rfl⟩ | ⟨m, e, hm, rfl⟩
    · rw [readBy_step hs, e, List.append_nil]; exact h4
    · rw [readBy_step hs, e, (take_next hm).1, h4]
  · rcases hn with ⟨e, rfl⟩ | ⟨m, e, hm, rfl⟩
    · exact h5
    · exact (take_next hm).2
  · show readBy s.b = _
    rw [take_mono hw h7]; exact h6
  · exact Nat.le_trans h7 hw.length_le

theorem no_entries {side : Cl.Side} {s : Cl.State ε} (h : Cl.Reachable side s) (hc : s.calls = []) (n : UInt64) : s.reqs.entries n = none := by
  cases he : s.reqs.entries n with
  | none => rfl
  | some i =>
    obtain ⟨c, h1, _⟩ := (Cl.ReqsOK.reach h).entCall n i he
    rw [hc] at h1; cases h1

/-- A step of B that makes no call and submits nothing. -/
theorem Base.stepB {N H : Nat} {s : State ε} (i : Base N H s) {b' : Cl.State ε} {act : Cl.Action ε} (hs : Cl.step s.b act = some b') (n : Nat)
    (hn : (readsOf [act] = [] ∧ n = s.readB) ∨ (∃ m, readsOf [act] = [m] ∧ (wroteOf s.a.log)[s.readB]? = some m ∧ n = s.readB + 1))
    (hq : ∀ d, act ≠ .reqStart d) (w' : Wk.State ε) (hw' : Wk.Reachable N H w')
    (hitems : (w'.items.filter fun it => it.client = 0).map Wk.Item.msg = deliveredOf b'.log) (hsent : submittedOf b'.log = respOf w') :
    Base N H { s with b := b', w := w', readB := n } := by
  obtain ⟨h1, h2, h3, h4, h5, h6, h7, h8, h9, h10, h11⟩ := i
  have hw := Cl.wrote_mono hs
  have eff := Cl.eff_step hs
  have hcalls : b'.calls = [] := by
    have : b'.calls.map Cl.Call.nd = s.b.calls.map Cl.Call.nd := by
      cases eff with
      | start => exact absurd rfl (hq _)
      | refused _ _ e => rw [e]
      | reqSend _ _ _ e => exact e
      | send _ e => rw [e]
      | route _ _ e => exact e
      | other _ e => exact e
    rw [h8] at this
    simpa using this
  refine ⟨h1, Cl.Reachable.step h2 hs, hw', ?_, ?_, ?_, ?_, hcalls, ?_, hitems, hsent⟩
  · show readBy s.a = _
    rw [take_mono hw h5]; exact h4
  · exact Nat.le_trans h5 hw.length_le
  · rcases hn with ⟨e, rfl⟩ | ⟨m, e, hm, rfl⟩
    · rw [readBy_step hs, e, List.append_nil]; exact h6
    · rw [readBy_step hs, e, (take_next hm).1, h6]
  · rcases hn with ⟨e, rfl⟩ | ⟨m, e, hm, rfl⟩
    · exact h7
    · exact (take_next hm).2
  · show toHandlersOf b'.log = processedOf b'.log
    have stay : (∃ es, b'.log = s.b.log ++ es ∧ ∀ e ∈ es, ∀ m b, e ≠ Cl.Event.processed m b) → toHandlersOf b'.log = processedOf b'.log := by
      rintro hes
      rw [(processedOf_other hes).1, ← h9]
      obtain ⟨es, e, hne⟩ := hes
      rw [e]
      have : toHandlersOf es = [] := by
        unfold toHandlersOf
        rw [List.filterMap_eq_nil_iff]
        intro x hx
        have := hne x hx
        cases x <;> simp_all
      rw [Cl.toHandlersOf_append, this, List.append_nil]
    cases eff with
    | start => exact absurd rfl (hq _)
    | refused => exact absurd rfl (hq _)
    | reqSend _ _ _ _ e => exact stay ⟨_, e, by simp⟩
    | send _ _ e => exact stay ⟨_, e, by simp⟩
    | @route m _ _ _ e =>
      have : (s.b.reqs.findRequest m.nonce).2 = none := by simp [RequestMap.findRequest, no_entries h2 h8]
      rw [e, this]
      simpa [toHandlersOf, processedOf] using h9
    | other _ _ _ e => exact stay e

theorem deliveredOf_step {s s' : Cl.State ε} {a : Cl.Action ε} (hs : Cl.step s a = some s') (ha : a ≠ .deliver) : deliveredOf s'.log = deliveredOf s.log := by
  cl_cases a hs
  all_goals simp_all [Cl.State.closeReady, Cl.State.closeReaderDone, Cl.State.closeWriterDone, Cl.State.closeClientDone, Cl.State.report, Cl.State.send,
    Cl.State.setCall, deliveredOf]

theorem filterMap_congr_mem {α β : Type} {f g : α → Option β} {l : List α} (h : ∀ x ∈ l, f x = g x) : l.filterMap f = l.filterMap g := by
  induction l with
  | nil => rfl
  | cons a l ih =>
    rw [List.filterMap_cons, List.filterMap_cons, h a List.mem_cons_self, ih fun x hx => h x (List.mem_cons_of_mem _ hx)]

theorem respOf_mono {N H : Nat} {w : Wk.State ε} (h : Wk.Reachable N H w) {w' : Wk.State ε} {es : List (Wk.Event ε)} {l : List Wk.Item} (hi : w'.items = w.items ++ l)
    (hl : w'.log = w.log ++ es) :
    respOf w' = respOf w ++ es.filterMap fun | .sendOk k _ n d => (w'.items[k]?).bind fun it => if it.client = 0 then some ⟨n, d⟩ else none | _ => none := by
  unfold respOf
  rw [hl, List.filterMap_append]
  congr 1
  apply filterMap_congr_mem
  intro e he
  cases e with
  | sendOk k j n d =>
    obtain ⟨_, it, hit, _⟩ := (Wk.SendInv.reach h).started k j n d he
    dsimp only
    rw [hi, Wk.getElem?_append_some hit, hit]
  | _ => rfl

theorem submitted_quiet {s s' : Cl.State ε} {a : Cl.Action ε} (hs : Cl.step s a = some s') (h1 : ∀ m, a ≠ .send m) (h2 : ∀ i, a ≠ .reqSend i) :
    submittedOf s'.log = submittedOf s.log := by
  cases Cl.eff_step hs with
  | start _ _ _ e => exact e
  | refused _ _ _ e => rw [e]
  | reqSend => exact absurd rfl (h2 _)
  | send => exact absurd rfl (h1 _)
  | route _ _ _ e => rw [e]; simp [submittedOf]
  | other _ _ e => exact e

theorem mem_wire {c : Cl.State ε} : wire c = wroteOf c.log := rfl

theorem Base.new (N H : Nat) : Base N H (State.new (ε := ε) N H) := by
  refine ⟨⟨[], rfl⟩, ⟨[], rfl⟩, .refl _, ?_, ?_, ?_, ?_, rfl, rfl, ?_, ?_⟩ <;> simp [State.new, readBy, Cl.State.new, processedOf, wroteOf, Wk.State.new, deliveredOf, submittedOf, respOf, Cl.MainPc.unrouted]

/-- A step of B only: no call, nothing submitted, nothing delivered. -/
theorem Base.quietB {N H : Nat} {s : State ε} (i : Base N H s) {b' : Cl.State ε} {act : Cl.Action ε} (hs : Cl.step s.b act = some b') (n : Nat)
    (hn : (readsOf [act] = [] ∧ n = s.readB) ∨ (∃ m, readsOf [act] = [m] ∧ (wroteOf s.a.log)[s.readB]? = some m ∧ n = s.readB + 1))
    (hq : ∀ d, act ≠ .reqStart d) (h1 : ∀ m, act ≠ .send m) (h2 : act ≠ .deliver) : Base N H { s with b := b', readB := n } := by
  refine i.stepB hs n hn hq s.w i.rw ?_ ?_
  · rw [deliveredOf_step hs h2]; exact i.items
  · rw [← i.sent]
    cases Cl.eff_step hs with
    | start => exact absurd rfl (hq _)
    | refused => exact absurd rfl (hq _)
    | reqSend hc => rw [i.noB] at hc; cases hc
    | send => exact absurd rfl (h1 _)
    | route _ _ _ e => rw [e]; simp [submittedOf]
    | other _ _ e => exact e

theorem Base.stepW {N H : Nat} {s : State ε} (i : Base N H s) {w' : Wk.State ε} (hw : Wk.Reachable N H w')
    (hitems : (w'.items.filter fun it => it.client = 0).map Wk.Item.msg = deliveredOf s.b.log) (hsent : submittedOf s.b.log = respOf w') :
    Base N H { s with w := w' } := ⟨i.ra, i.rb, hw, i.readA, i.leA, i.readB, i.leB, i.noB, i.allB, hitems, hsent⟩

theorem Base.step {N H : Nat} {s s' : State ε} {a : Action ε} (i : Base N H s) (hs : step s a = some s') : Base N H s' := by
  cases a with
  | a act =>
    simp only [Link.step, Link.stepA] at hs
    split at hs
    · rename_i m
      split at hs
      · rename_i hm
        obtain ⟨a', ha, rfl⟩ := Option.map_eq_some_iff.1 hs
        exact i.stepA ha _ (Or.inr ⟨m, rfl, hm, rfl⟩)
      · cases hs
    · split at hs
      · obtain ⟨a', ha, rfl⟩ := Option.map_eq_some_iff.1 hs
        exact i.stepA ha _ (Or.inl ⟨rfl, rfl⟩)
      · cases hs
    · rename_i hne _
      obtain ⟨a', ha, rfl⟩ := Option.map_eq_some_iff.1 hs
      refine i.stepA ha _ (Or.inl ⟨?_, rfl⟩)
      cases act <;> first | rfl | exact absurd rfl (hne _)
  | b act =>
    simp only [Link.step, Link.stepB] at hs
    split at hs
    · rename_i m
      split at hs
      · rename_i hm
        obtain ⟨b', hb, rfl⟩ := Option.map_eq_some_iff.1 hs
        exact i.quietB hb _ (Or.inr ⟨m, rfl, hm, rfl⟩) (by simp) (by simp) (by simp)
      · cases hs
    · cases hs
    · cases hs
    · split at hs
      · rename_i m hm
        obtain ⟨b', hb, hs⟩ := Option.bind_eq_some_iff.1 hs
        obtain ⟨w', hw, rfl⟩ := Option.map_eq_some_iff.1 hs
        have hw' := i.rw.snoc hw
        cases weff_step hw with
        | enqueue e1 e2 =>
          refine i.stepB hb s.readB (Or.inl ⟨rfl, rfl⟩) (by simp) w' hw' ?_ ?_
          · simp only [Cl.step, hm, Option.some.injEq] at hb
            subst hb
            rw [e1, List.filter_append, List.map_append, i.items]
            simp [deliveredOf]
          · rw [submitted_quiet hb (by simp) (by simp), i.sent, respOf_mono i.rw e1 (es := []) (by simpa using e2)]
            simp
        | other _ _ e => exact absurd rfl (e _)
      · cases hs
    · rename_i h1 h2 h3 h4
      obtain ⟨b', hb, rfl⟩ := Option.map_eq_some_iff.1 hs
      refine i.quietB hb _ (Or.inl ⟨?_, rfl⟩) (fun d e => h3 d e) (fun m e => h2 m e) (fun e => h4 e)
      cases act <;> first | rfl | exact absurd rfl (h1 _)
  | w act =>
    simp only [Link.step, Link.stepW] at hs
    split at hs
    · rename_i it
      split at hs
      · cases hs
      · rename_i hne
        obtain ⟨w', hw, rfl⟩ := Option.map_eq_some_iff.1 hs
        cases weff_step hw with
        | enqueue e1 e2 =>
          refine i.stepW (i.rw.snoc hw) ?_ ?_
          · rw [e1, List.filter_append, List.map_append, i.items]; simp [hne]
          · rw [i.sent, respOf_mono i.rw e1 (es := []) (by simpa using e2)]; simp
        | other _ _ e => exact absurd rfl (e _)
    · rename_i k h data
      split at hs
      · rename_i it hit
        split at hs
        · rename_i hc
          obtain ⟨w', hw, hs⟩ := Option.bind_eq_some_iff.1 hs
          obtain ⟨b', hb, rfl⟩ := Option.map_eq_some_iff.1 hs
          cases weff_step hw with
          | sendOk hit' _ e1 e2 =>
            rw [hit] at hit'; injection hit' with hit'; subst hit'
            refine i.stepB hb s.readB (Or.inl ⟨rfl, rfl⟩) (by simp) w' (i.rw.snoc hw) ?_ ?_
            · rw [e1, i.items, deliveredOf_step hb (by simp)]
            · rw [respOf_mono i.rw (l := []) (by simpa using e1) e2, ← i.sent]
              simp only [Cl.step, Option.some.injEq] at hb
              subst hb
              simp [Cl.State.send, submittedOf, e1, hit, hc.1]
          | sendErr hit' hn =>
            rw [hit] at hit'; injection hit' with hit'; subst hit'
            exact absurd hc.2 hn
          | other _ _ _ e => exact absurd rfl (e _ _ _)
        · rename_i hc
          obtain ⟨w', hw, rfl⟩ := Option.map_eq_some_iff.1 hs
          cases weff_step hw with
          | sendOk hit' hr e1 e2 =>
            rw [hit] at hit'; injection hit' with hit'; subst hit'
            refine i.stepW (i.rw.snoc hw) (by rw [e1]; exact i.items) ?_
            rw [respOf_mono i.rw (l := []) (by simpa using e1) e2, ← i.sent]
            have : it.client ≠ 0 := fun h0 => hc ⟨h0, hr⟩
            simp [e1, hit, this]
          | sendErr hit' hn e1 e2 =>
            refine i.stepW (i.rw.snoc hw) (by rw [e1]; exact i.items) ?_
            rw [respOf_mono i.rw (l := []) (by simpa using e1) e2, ← i.sent]
            simp
          | other _ _ _ e => exact absurd rfl (e _ _ _)
      · cases hs
    · rename_i h1 h2
      obtain ⟨w', hw, rfl⟩ := Option.map_eq_some_iff.1 hs
      cases weff_step hw with
      | enqueue => exact absurd rfl (h1 _)
      | sendOk => exact absurd rfl (h2 _ _ _)
      | sendErr => exact absurd rfl (h2 _ _ _)
      | other e1 e2 =>
        obtain ⟨es, e2, hne⟩ := e2
        refine i.stepW (i.rw.snoc hw) (by rw [e1]; exact i.items) ?_
        rw [respOf_mono i.rw (l := []) (by simpa using e1) e2, ← i.sent]
        rw [List.filterMap_eq_nil_iff.2, List.append_nil]
        intro x hx
        cases x with
        | sendOk => exact absurd rfl (hne _ hx _ _ _ _)
        | _ => rfl

theorem Base.reach {N H : Nat} {s : State ε} (h : Reachable N H s) : Base N H s := ReachFrom.inv (fun _ _ _ => Base.step) h (Base.new N H)

/-! ### Consequences: what arrives -/

theorem Base.deliveredB {N H : Nat} {s : State ε} (i : Base N H s) : deliveredOf s.b.log <+: submittedOf s.a.log := by
  have h1 : deliveredOf s.b.log <+: toHandlersOf s.b.log := ⟨_, (Cl_reach_hand i.rb).symm⟩
  rw [i.allB] at h1
  have h2 : processedOf s.b.log <+: readBy s.b := ⟨_, rfl⟩
  rw [i.readB] at h2
  exact h1.trans (h2.trans ((List.take_prefix _ _).trans (Cl.Fifo.reach i.ra).pre))

theorem Base.readA_pre {N H : Nat} {s : State ε} (i : Base N H s) : readBy s.a <+: submittedOf s.b.log := by
  rw [i.readA]
  exact (List.take_prefix _ _).trans (Cl.Fifo.reach i.rb).pre

/-- Everything A reads was sent by a handler of B for an item that A had submitted. -/
theorem Base.origin {N H : Nat} {s : State ε} (i : Base N H s) {m : Message} (hm : m ∈ readBy s.a) :
    ∃ k h it, s.w.items[k]? = some it ∧ it.client = 0 ∧ it.msg.nonce = m.nonce ∧ .sendOk k h m.nonce m.data ∈ s.w.log ∧ it.msg ∈ submittedOf s.a.log := by
  have h1 := i.readA_pre.subset hm
  rw [i.sent] at h1
  obtain ⟨e, he, hx⟩ := List.mem_filterMap.1 h1
  cases e with
  | sendOk k h n d =>
    obtain ⟨_, it, hit, hn⟩ := (Wk.SendInv.reach i.rw).started k h n d he
    simp only [hit, Option.bind_some] at hx
    split at hx
    · rename_i hc
      injection hx with hx
      subst hx
      refine ⟨k, h, it, hit, hc, hn, he, ?_⟩
      apply i.deliveredB.subset
      rw [← i.items]
      exact List.mem_map.2 ⟨it, List.mem_filter.2 ⟨List.mem_of_getElem? hit, by simpa using hc⟩, rfl⟩
    · cases hx
  | _ => cases hx

/-! ### Requests and their responses -/

structure Rpc (s : State ε) : Prop where
  nonce : s.a.reqs.nonce.toNat = s.a.calls.length
  callN : ∀ (i : Nat) c, s.a.calls[i]? = some c → c.nonce.toNat = i + 1
  sub : ∀ m ∈ submittedOf s.a.log, m.nonce.toNat ≤ s.a.calls.length
  opn : ∀ (i : Nat) c, s.a.calls[i]? = some c → s.a.reqs.entries c.nonce = some i →
    (∀ m ∈ processedOf s.a.log, m.nonce ≠ c.nonce) ∧ ∀ m ∈ submittedOf s.a.log, m.nonce = c.nonce → m.data = c.data
  resp : ∀ m, .processed m true ∈ s.a.log → ∀ (i : Nat) c, s.a.calls[i]? = some c → c.nonce = m.nonce →
    ∃ k h, s.w.items[k]? = some ⟨0, ⟨c.nonce, c.data⟩⟩ ∧ .sendOk k h m.nonce m.data ∈ s.w.log

theorem Rpc.mono {s s' : State ε} (i : Rpc s) (ha : s'.a = s.a) (hi : s.w.items <+: s'.w.items) (hl : s.w.log <+: s'.w.log) : Rpc s' := by
  obtain ⟨h1, h2, h3, h4, h5⟩ := i
  refine ⟨by rw [ha]; exact h1, by rw [ha]; exact h2, by rw [ha]; exact h3, by rw [ha]; exact h4, ?_⟩
  rw [ha]
  intro m hm j c hc hn
  obtain ⟨k, h, e1, e2⟩ := h5 m hm j c hc hn
  obtain ⟨t, ht⟩ := hi
  exact ⟨k, h, by rw [← ht]; exact Wk.getElem?_append_some e1, hl.subset e2⟩

theorem call_of_nd {l l' : List Cl.Call} (h : l'.map Cl.Call.nd = l.map Cl.Call.nd) {i : Nat} {c : Cl.Call} (hc : l'[i]? = some c) :
    ∃ c0, l[i]? = some c0 ∧ c0.nonce = c.nonce ∧ c0.data = c.data := by
  have : (l'.map Cl.Call.nd)[i]? = some c.nd := by simp [hc]
  rw [h, List.getElem?_map, Option.map_eq_some_iff] at this
  obtain ⟨c0, e1, e2⟩ := this
  simp only [Cl.Call.nd, Prod.mk.injEq] at e2
  exact ⟨c0, e1, e2.1, e2.2⟩

theorem processed_mem {m : Message} {b : Bool} {l : List (Cl.Event ε)} (h : .processed m b ∈ l) : m ∈ processedOf l := List.mem_filterMap.2 ⟨_, h, rfl⟩

/-- A step of A. -/
theorem Rpc.stepA {N H : Nat} {s : State ε} (i : Rpc s) (b : Base N H s) (hb : s.a.calls.length < 2 ^ 64 - 1) {a' : Cl.State ε} {act : Cl.Action ε} (hs : Cl.step s.a act = some a')
    (hsend : ∀ m, act = .send m → m.nonce = 0 ∨ hasContext s.a m.nonce = true) (n : Nat) : Rpc { s with a := a', readA := n } := by
  have hcand : s.a.reqs.candidate.toNat = s.a.calls.length + 1 := by
    unfold RequestMap.candidate
    have hne : s.a.reqs.nonce ≠ 18446744073709551615 := by
      intro e
      have := i.nonce
      rw [e] at this
      have : (18446744073709551615 : UInt64).toNat = 18446744073709551615 := rfl
      omega
    simp only [if_neg hne, UInt64.toNat_add, i.nonce]
    have : (1 : UInt64).toNat = 1 := rfl
    omega
  have hfree : s.a.reqs.entries s.a.reqs.candidate = none := by
    cases he : s.a.reqs.entries s.a.reqs.candidate with
    | none => rfl
    | some j =>
      obtain ⟨c, h1, h2, _⟩ := (Cl.ReqsOK.reach b.ra).entCall _ j he
      have := i.callN j c h1
      have hlt := (List.getElem?_eq_some_iff.1 h1).1
      rw [h2] at this
      omega
  have hproc : ∀ m ∈ processedOf s.a.log, m.nonce.toNat ≤ s.a.calls.length := by
    intro m hm
    obtain ⟨_, _, it, _, _, h3, _, h5⟩ := b.origin (m := m) (List.mem_append_left _ hm)
    rw [← h3]
    exact i.sub _ h5
  have other : a'.reqs = s.a.reqs → a'.calls.map Cl.Call.nd = s.a.calls.map Cl.Call.nd → submittedOf a'.log = submittedOf s.a.log →
      (∃ es, a'.log = s.a.log ++ es ∧ ∀ e ∈ es, ∀ m b, e ≠ .processed m b) → Rpc { s with a := a', readA := n } := by
    intro e1 e2 e3 e4
    have hlen : a'.calls.length = s.a.calls.length := by simpa using congrArg List.length e2
    obtain ⟨p1, p2⟩ := processedOf_other e4
    refine ⟨by simp only; rw [e1, hlen]; exact i.nonce, ?_, by simp only; rw [e3, hlen]; exact i.sub, ?_, ?_⟩
    · intro j c hc
      obtain ⟨c0, h1, h2, h3⟩ := call_of_nd e2 hc
      rw [← h2]; exact i.callN j c0 h1
    · intro j c hc hent
      obtain ⟨c0, h1, h2, h3⟩ := call_of_nd e2 hc
      simp only at hent ⊢
      rw [p1, e3, ← h2, ← h3]
      rw [e1, ← h2] at hent
      exact i.opn j c0 h1 hent
    · intro m hm j c hc hn
      obtain ⟨c0, h1, h2, h3⟩ := call_of_nd e2 hc
      rw [← h2, ← h3]
      exact i.resp m ((p2 m true).1 hm) j c0 h1 (h2.trans hn)
  cases Cl.eff_step hs with
  | @start data r n' hn e1 e2 e3 e4 =>
    simp only [RequestMap.nextNonce, hfree, Prod.mk.injEq, Option.some.injEq] at hn
    obtain ⟨hr, hn⟩ := hn
    have hn' : n'.toNat = s.a.calls.length + 1 := by rw [← hn]; exact hcand
    have hlen : a'.calls.length = s.a.calls.length + 1 := by simpa using congrArg List.length e2
    obtain ⟨p1, p2⟩ := processedOf_other ⟨_, e4, by simp⟩
    have hget : ∀ (j : Nat) c, a'.calls[j]? = some c → (∃ c0, s.a.calls[j]? = some c0 ∧ c0.nonce = c.nonce ∧ c0.data = c.data) ∨
        (j = s.a.calls.length ∧ c.nonce = n' ∧ c.data = data) := by
      intro j c hc
      have h0 : (a'.calls.map Cl.Call.nd)[j]? = some c.nd := by simp [hc]
      rw [e2] at h0
      rcases Nat.lt_or_ge j s.a.calls.length with hlt | hge
      · left
        rw [List.getElem?_append_left (by simpa using hlt), List.getElem?_map, Option.map_eq_some_iff] at h0
        obtain ⟨c0, q1, q2⟩ := h0
        simp only [Cl.Call.nd, Prod.mk.injEq] at q2
        exact ⟨c0, q1, q2.1, q2.2⟩
      · right
        have hlt := (List.getElem?_eq_some_iff.1 hc).1
        have hj : j = s.a.calls.length := by omega
        subst hj
        rw [List.getElem?_append_right (by simp)] at h0
        simp only [List.length_map, Nat.sub_self, List.getElem?_cons_zero, Option.some.injEq, Cl.Call.nd, Prod.mk.injEq] at h0
        exact ⟨rfl, h0.1.symm, h0.2.symm⟩
    refine ⟨?_, ?_, ?_, ?_, ?_⟩
    · simp only; rw [e1, ← hr, hlen]; exact hcand
    · intro j c hc
      rcases hget j c hc with ⟨c0, q1, q2, q3⟩ | ⟨q1, q2, q3⟩
      · rw [← q2]; exact i.callN j c0 q1
      · rw [q2, q1]; exact hn'
    · simp only; rw [e3, hlen]
      intro m hm
      exact Nat.le_succ_of_le (i.sub m hm)
    · intro j c hc hent
      simp only at hent ⊢
      rw [p1, e3]
      rcases hget j c hc with ⟨c0, q1, q2, q3⟩ | ⟨q1, q2, q3⟩
      · have hne : c.nonce ≠ n' := by
          intro e
          have h1 := i.callN j c0 q1
          have hlt := (List.getElem?_eq_some_iff.1 q1).1
          rw [q2, e] at h1
          omega
        rw [e1, ← hr] at hent
        simp only at hent
        rw [if_neg (by rw [hn]; exact hne)] at hent
        rw [← q2, ← q3]
        rw [← q2] at hent
        exact i.opn j c0 q1 hent
      · constructor
        · intro m hm e
          have := hproc m hm
          rw [e, q2] at this
          omega
        · intro m hm e
          have := i.sub m hm
          rw [e, q2] at this
          omega
    · intro m hm j c hc hne
      have hm' := (p2 m true).1 hm
      rcases hget j c hc with ⟨c0, q1, q2, q3⟩ | ⟨q1, q2, q3⟩
      · rw [← q2, ← q3]
        exact i.resp m hm' j c0 q1 (q2.trans hne)
      · have := hproc m (processed_mem hm')
        rw [← hne, q2] at this
        omega
  | refused hn =>
    simp [RequestMap.nextNonce, hfree] at hn
  | @reqSend j c hc hst e1 e2 e3 =>
    have hlen : a'.calls.length = s.a.calls.length := by simpa using congrArg List.length e2
    obtain ⟨p1, p2⟩ := processedOf_other ⟨_, e3, by simp⟩
    have hsub : submittedOf a'.log = submittedOf s.a.log ++ [⟨c.nonce, c.data⟩] := by rw [e3]; simp [submittedOf]
    refine ⟨by simp only; rw [e1, hlen]; exact i.nonce, ?_, ?_, ?_, ?_⟩
    · intro j c hc
      obtain ⟨c0, h1, h2, h3⟩ := call_of_nd e2 hc
      rw [← h2]; exact i.callN j c0 h1
    · simp only; rw [hsub, hlen]
      intro m hm
      rcases List.mem_append.1 hm with hm | hm
      · exact i.sub m hm
      · rw [List.mem_singleton] at hm; subst hm
        have := i.callN j c hc
        have hlt := (List.getElem?_eq_some_iff.1 hc).1
        simp only; omega
    · intro j' c' hc' hent
      obtain ⟨c0, h1, h2, h3⟩ := call_of_nd e2 hc'
      simp only at hent ⊢
      rw [p1, hsub, ← h2, ← h3]
      rw [e1, ← h2] at hent
      obtain ⟨o1, o2⟩ := i.opn j' c0 h1 hent
      refine ⟨o1, ?_⟩
      intro m hm hmn
      rcases List.mem_append.1 hm with hm | hm
      · exact o2 m hm hmn
      · rw [List.mem_singleton] at hm; subst hm
        have q1 := i.callN j c hc
        have q2 := i.callN j' c0 h1
        simp only at hmn
        rw [hmn] at q1
        have : j = j' := by omega
        subst this
        rw [hc] at h1; injection h1 with h1; subst h1
        rfl
    · intro m hm j c hc hn
      obtain ⟨c0, h1, h2, h3⟩ := call_of_nd e2 hc
      rw [← h2, ← h3]
      exact i.resp m ((p2 m true).1 hm) j c0 h1 (h2.trans hn)
  | @send m0 e1 e2 e3 =>
    obtain ⟨p1, p2⟩ := processedOf_other ⟨_, e3, by simp⟩
    have hsub : submittedOf a'.log = submittedOf s.a.log ++ [m0] := by rw [e3]; simp [submittedOf]
    have hctx : m0.nonce = 0 ∨ ∃ m1 ∈ processedOf s.a.log, m1.nonce = m0.nonce := by
      rcases hsend m0 rfl with h | h
      · exact Or.inl h
      · right
        unfold hasContext at h
        obtain ⟨e, he, hx⟩ := List.any_eq_true.1 h
        cases e with
        | delivered m1 x y =>
          have hd : m1 ∈ deliveredOf s.a.log := List.mem_filterMap.2 ⟨_, he, rfl⟩
          have hh : m1 ∈ toHandlersOf s.a.log := by rw [Cl_reach_hand b.ra]; exact List.mem_append_left _ hd
          refine ⟨m1, ?_, by simpa using hx⟩
          obtain ⟨e', he', hx'⟩ := List.mem_filterMap.1 hh
          cases e' with
          | processed m2 bb =>
            cases bb with
            | false => simp only [Option.some.injEq] at hx'; subst hx'; exact processed_mem he'
            | true => cases hx'
          | _ => cases hx'
        | _ => cases hx
    refine ⟨by simp only; rw [e1, e2]; exact i.nonce, by simp only; rw [e2]; exact i.callN, ?_, ?_, ?_⟩
    · simp only; rw [hsub, e2]
      intro m hm
      rcases List.mem_append.1 hm with hm | hm
      · exact i.sub m hm
      · rw [List.mem_singleton] at hm; subst hm
        rcases hctx with h | ⟨m1, h1, h2⟩
        · rw [h]; exact Nat.zero_le _
        · rw [← h2]; exact hproc m1 h1
    · simp only; rw [e2, e1, p1, hsub]
      intro j c hc hent
      obtain ⟨o1, o2⟩ := i.opn j c hc hent
      refine ⟨o1, ?_⟩
      intro m hm hmn
      rcases List.mem_append.1 hm with hm | hm
      · exact o2 m hm hmn
      · rw [List.mem_singleton] at hm; subst hm
        exfalso
        rcases hctx with h | ⟨m1, h1, h2⟩
        · have := i.callN j c hc
          rw [← hmn, h] at this
          have h0 : (0 : UInt64).toNat = 0 := rfl
          omega
        · exact o1 m1 h1 (h2.trans hmn)
    · simp only; rw [e2]
      intro m hm
      exact i.resp m ((p2 m true).1 hm)
  | @route m0 hm0 e1 e2 e3 =>
    have hlen : a'.calls.length = s.a.calls.length := by simpa using congrArg List.length e2
    have hsub : submittedOf a'.log = submittedOf s.a.log := by rw [e3]; simp [submittedOf]
    have hpr : processedOf a'.log = processedOf s.a.log ++ [m0] := by rw [e3]; simp [processedOf]
    have hnonce : (s.a.reqs.findRequest m0.nonce).1.nonce = s.a.reqs.nonce := by unfold RequestMap.findRequest; split <;> rfl
    have hentry : ∀ x j, (s.a.reqs.findRequest m0.nonce).1.entries x = some j → x ≠ m0.nonce ∧ s.a.reqs.entries x = some j := by
      intro x j hx
      unfold RequestMap.findRequest at hx
      split at hx
      · simp only at hx
        split at hx
        · cases hx
        · exact ⟨by assumption, hx⟩
      · rename_i hnone
        simp only at hx
        refine ⟨?_, hx⟩
        rintro rfl
        rw [hnone] at hx; cases hx
    have hread : m0 ∈ readBy s.a := List.mem_append_right _ (by rw [hm0]; simp [Cl.MainPc.unrouted])
    refine ⟨by simp only; rw [e1, hnonce, hlen]; exact i.nonce, ?_, by simp only; rw [hsub, hlen]; exact i.sub, ?_, ?_⟩
    · intro j c hc
      obtain ⟨c0, h1, h2, h3⟩ := call_of_nd e2 hc
      rw [← h2]; exact i.callN j c0 h1
    · intro j c hc hent
      obtain ⟨c0, h1, h2, h3⟩ := call_of_nd e2 hc
      simp only at hent ⊢
      rw [hpr, hsub, ← h2, ← h3]
      rw [e1, ← h2] at hent
      obtain ⟨hne, hent⟩ := hentry _ _ hent
      obtain ⟨o1, o2⟩ := i.opn j c0 h1 hent
      refine ⟨?_, o2⟩
      intro m hm
      rcases List.mem_append.1 hm with hm | hm
      · exact o1 m hm
      · rw [List.mem_singleton] at hm; subst hm; exact Ne.symm hne
    · intro m hm j c hc hn
      obtain ⟨c0, h1, h2, h3⟩ := call_of_nd e2 hc
      rw [← h2, ← h3]
      have hm : (.processed m true : Cl.Event ε) ∈ a'.log := hm
      rw [e3] at hm
      rcases List.mem_append.1 hm with hm | hm
      · exact i.resp m hm j c0 h1 (h2.trans hn)
      · simp only [List.mem_singleton, Cl.Event.processed.injEq] at hm
        obtain ⟨rfl, hsome⟩ := hm
        have hent : ∃ j', s.a.reqs.entries m.nonce = some j' := by
          cases he : s.a.reqs.entries m.nonce with
          | some j' => exact ⟨j', rfl⟩
          | none => simp [RequestMap.findRequest, he] at hsome
        obtain ⟨j', hent⟩ := hent
        obtain ⟨c1, q1, q2, _⟩ := (Cl.ReqsOK.reach b.ra).entCall _ _ hent
        have r1 := i.callN j' c1 q1
        have r2 := i.callN j c0 h1
        rw [q2] at r1
        rw [h2, hn] at r2
        have : j' = j := by omega
        subst this
        rw [q1] at h1; injection h1 with h1; subst h1
        obtain ⟨_, o2⟩ := i.opn j' c1 q1 (by rw [q2]; exact hent)
        obtain ⟨k, h, it, f1, f2, f3, f4, f5⟩ := b.origin hread
        refine ⟨k, h, ?_, f4⟩
        rw [f1]
        have hd := o2 _ f5 (f3.trans q2.symm)
        obtain ⟨cl, mn, md⟩ := it
        simp only at f2 f3 hd
        subst f2
        rw [q2, ← f3, ← hd]
  | other e1 e2 e3 e4 => exact other e1 e2 e3 e4

theorem Rpc.new (N H : Nat) : Rpc (State.new (ε := ε) N H) := by
  refine ⟨rfl, ?_, ?_, ?_, ?_⟩ <;> simp [State.new, Cl.State.new, submittedOf]

theorem calls_len {s s' : Cl.State ε} {a : Cl.Action ε} (hs : Cl.step s a = some s') : s.calls.length ≤ s'.calls.length := by
  cases Cl.eff_step hs with
  | start _ _ e => have := congrArg List.length e; simp at this; omega
  | refused _ _ e => rw [e]; exact Nat.le_refl _
  | reqSend _ _ _ e => have := congrArg List.length e; simp at this; omega
  | send _ e => rw [e]; exact Nat.le_refl _
  | route _ _ e => have := congrArg List.length e; simp at this; omega
  | other _ e => have := congrArg List.length e; simp at this; omega

theorem w_mono {s s' : Wk.State ε} {a : Wk.Action ε} (hs : Wk.step s a = some s') : s.items <+: s'.items ∧ s.log <+: s'.log := by
  cases weff_step hs with
  | enqueue e1 e2 => exact ⟨⟨_, e1.symm⟩, by rw [e2]; exact List.prefix_refl _⟩
  | sendOk _ _ e1 e2 => exact ⟨by rw [e1]; exact List.prefix_refl _, ⟨_, e2.symm⟩⟩
  | sendErr _ _ e1 e2 => exact ⟨by rw [e1]; exact List.prefix_refl _, ⟨_, e2.symm⟩⟩
  | other e1 e2 =>
    obtain ⟨es, e2, _⟩ := e2
    exact ⟨by rw [e1]; exact List.prefix_refl _, ⟨_, e2.symm⟩⟩

/-- The three kinds of steps. -/
theorem step_kinds {s s' : State ε} {a : Action ε} (hs : step s a = some s') :
    (∃ act a' n, Cl.step s.a act = some a' ∧ s' = { s with a := a', readA := n } ∧ ∀ m, act = .send m → m.nonce = 0 ∨ hasContext s.a m.nonce = true) ∨
    (s'.a = s.a ∧ s.w.items <+: s'.w.items ∧ s.w.log <+: s'.w.log) := by
  cases a with
  | a act =>
    left
    simp only [Link.step, Link.stepA] at hs
    split at hs
    · split at hs
      · obtain ⟨a', ha, rfl⟩ := Option.map_eq_some_iff.1 hs
        exact ⟨_, a', _, ha, rfl, by simp⟩
      · cases hs
    · split at hs
      · rename_i m hc
        obtain ⟨a', ha, rfl⟩ := Option.map_eq_some_iff.1 hs
        exact ⟨_, a', s.readA, ha, rfl, by rintro m' ⟨⟩; exact hc⟩
      · cases hs
    · rename_i _ hne
      obtain ⟨a', ha, rfl⟩ := Option.map_eq_some_iff.1 hs
      exact ⟨_, a', s.readA, ha, rfl, fun m e => absurd e (hne m)⟩
  | b act =>
    right
    simp only [Link.step, Link.stepB] at hs
    repeat' split at hs
    all_goals try cases hs
    all_goals first
      | (obtain ⟨b', hb, rfl⟩ := Option.map_eq_some_iff.1 hs; exact ⟨rfl, List.prefix_refl _, List.prefix_refl _⟩)
      | (obtain ⟨b', hb, hs⟩ := Option.bind_eq_some_iff.1 hs
         obtain ⟨w', hw, rfl⟩ := Option.map_eq_some_iff.1 hs
         exact ⟨rfl, w_mono hw⟩)
  | w act =>
    right
    simp only [Link.step, Link.stepW] at hs
    repeat' split at hs
    all_goals try cases hs
    all_goals first
      | (obtain ⟨b', hb, hs⟩ := Option.bind_eq_some_iff.1 hs
         obtain ⟨w', hw, rfl⟩ := Option.map_eq_some_iff.1 hs
         exact ⟨rfl, w_mono hb⟩)
      | (obtain ⟨w', hw, rfl⟩ := Option.map_eq_some_iff.1 hs; exact ⟨rfl, w_mono hw⟩)

theorem Rpc.reach {N H : Nat} {s : State ε} (h : Reachable N H s) (hb : s.a.calls.length < 2 ^ 64 - 1) : Rpc s := by
  refine ReachFrom.ind (P := fun s => s.a.calls.length < 2 ^ 64 - 1 → Rpc s) (fun _ => Rpc.new N H) ?_ h hb
  intro s a s' hr ih hs hb'
  rcases step_kinds hs with ⟨act, a', n, ha, rfl, hsend⟩ | ⟨h1, h2, h3⟩
  · have hlt : s.a.calls.length < 2 ^ 64 - 1 := Nat.lt_of_le_of_lt (calls_len ha) hb'
    exact (ih hlt).stepA (Base.reach hr) hlt ha hsend n
  · exact (ih (by rw [← h1]; exact hb')).mono h1 h2 h3

end Noise.Link
