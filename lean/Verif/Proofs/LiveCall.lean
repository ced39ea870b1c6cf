import Verif.Proofs.LiveLink
/-! # Fair executions of two connected nodes: requests -/
namespace Noise.Cl
open Spec
variable {ε : Type}

/-- What a step does to a call that has no response yet and whose entry is in the table. -/
theorem chan_step {s s' : State ε} {a : Action ε} {i : Nat} {c : Call} (hs : step s a = some s') (hc : s.calls[i]? = some c) :
    ∃ c', s'.calls[i]? = some c' ∧ c'.nonce = c.nonce ∧ (c.chan.isSome = true → c'.chan.isSome = true) ∧
      (s.reqs.entries c.nonce = some i → c'.chan.isSome = true ∨ (s'.reqs.entries c.nonce = some i ∧ ∃ l, processedOf s'.log = processedOf s.log ++ l ∧ ∀ m ∈ l, m.nonce ≠ c.nonce)) := by
  have same : s'.calls = s.calls → s'.reqs = s.reqs → processedOf s'.log = processedOf s.log → ∃ c', s'.calls[i]? = some c' ∧ c'.nonce = c.nonce ∧ (c.chan.isSome = true → c'.chan.isSome = true) ∧
      (s.reqs.entries c.nonce = some i → c'.chan.isSome = true ∨ (s'.reqs.entries c.nonce = some i ∧ ∃ l, processedOf s'.log = processedOf s.log ++ l ∧ ∀ m ∈ l, m.nonce ≠ c.nonce)) := by
    intro h1 h2 h3
    exact ⟨c, by rw [h1]; exact hc, rfl, id, fun h => Or.inr ⟨by rw [h2]; exact h, [], by rw [h3]; simp, by simp⟩⟩
  have set : ∀ {j : Nat} {d : Call} (st : CallSt), s.calls[j]? = some d → s'.calls = s.calls.set j { d with st := st } → s'.reqs = s.reqs → processedOf s'.log = processedOf s.log →
      ∃ c', s'.calls[i]? = some c' ∧ c'.nonce = c.nonce ∧ (c.chan.isSome = true → c'.chan.isSome = true) ∧
      (s.reqs.entries c.nonce = some i → c'.chan.isSome = true ∨ (s'.reqs.entries c.nonce = some i ∧ ∃ l, processedOf s'.log = processedOf s.log ++ l ∧ ∀ m ∈ l, m.nonce ≠ c.nonce)) := by
    intro j d st hd h1 h2 h3
    by_cases e : j = i
    · subst e
      rw [hc] at hd; injection hd with hd; subst hd
      exact ⟨{ c with st := st }, by rw [h1, List.getElem?_set_self (List.getElem?_eq_some_iff.1 hc).1], rfl, id,
        fun h => Or.inr ⟨by rw [h2]; exact h, [], by rw [h3]; simp, by simp⟩⟩
    · exact ⟨c, by rw [h1, List.getElem?_set_ne e]; exact hc, rfl, id, fun h => Or.inr ⟨by rw [h2]; exact h, [], by rw [h3]; simp, by simp⟩⟩
  cl_cases a hs
  all_goals first
    | exact same rfl rfl rfl
    | exact same rfl rfl (by simp [processedOf, State.closeReady, State.closeReaderDone, State.closeWriterDone, State.closeClientDone, State.report, State.send])
    | (rename_i m _ _ r j hf
       obtain ⟨h1, h2⟩ := findRequest_some hf
       simp only [List.getElem?_modify, hc, Option.map_eq_map, Option.map_some, Option.some.injEq, exists_eq_left', h2, processedOf_append]
       refine ⟨by split <;> rfl, by split <;> simp, ?_⟩
       intro he
       by_cases hj : j = i
       · left; rw [if_pos hj]; rfl
       · right
         have hn : c.nonce ≠ m.nonce := by intro e; rw [e, h1] at he; injection he with he; exact hj he
         refine ⟨by rw [if_neg hn]; exact he, [m], rfl, ?_⟩
         intro x hx; rw [List.mem_singleton] at hx; subst hx; exact fun e => hn e.symm)
    | (rename_i m _ _ r hf
       obtain ⟨h1, h2⟩ := findRequest_none hf
       subst h2
       refine ⟨c, hc, rfl, id, fun he => Or.inr ⟨he, [m], by simp [processedOf], ?_⟩⟩
       intro x hx; rw [List.mem_singleton] at hx; subst hx
       intro e; rw [e, he] at h1; cases h1)
    | (rename_i r n hf
       obtain ⟨h1, h2, h3⟩ := nextNonce_some hf
       refine ⟨c, getElem?_append_some hc _, rfl, id, fun he => Or.inr ⟨?_, [], by simp [processedOf], by simp⟩⟩
       simp only [h3]
       rw [if_neg]; · exact he
       · intro e; rw [e, h1] at he; cases he)
    | (rename_i r hf
       refine ⟨c, hc, rfl, id, fun he => Or.inr ⟨by simp only [nextNonce_none hf]; exact he, [], by simp, by simp⟩⟩)
    | (rename_i hd _; exact set _ hd rfl rfl (by simp [processedOf, State.send, State.setCall]))
    | (rename_i hd _ _ _ _ _ _; exact set _ hd rfl rfl (by simp [processedOf, State.send, State.setCall]))

/-- A call without response is in the table. -/
def OpenInv (s : State ε) : Prop := ∀ (i : Nat) c, s.calls[i]? = some c → c.chan.isSome = true ∨ s.reqs.entries c.nonce = some i

theorem OpenInv.step {s s' : State ε} {a : Action ε} (h : OpenInv s) (hs : Cl.step s a = some s') : OpenInv s' := by
  intro i c' hc'
  cases hc : s.calls[i]? with
  | some c =>
    obtain ⟨c'', h1, h2, h3, h4⟩ := chan_step hs hc
    rw [hc'] at h1; injection h1 with h1; subst h1
    rw [h2]
    rcases h i c hc with h | h
    · exact Or.inl (h3 h)
    · rcases h4 h with h | ⟨h, _⟩
      · exact Or.inl h
      · exact Or.inr h
  | none =>
    have hge : s.calls.length ≤ i := by simpa using hc
    by_cases hst : ∃ d, a = .reqStart d
    · obtain ⟨d, rfl⟩ := hst
      simp only [Cl.step] at hs
      split at hs
      · rename_i r n hf
        injection hs with hs; subst hs
        obtain ⟨h1, h2, h3⟩ := nextNonce_some hf
        simp only at hc'
        rw [List.getElem?_append_right hge] at hc'
        obtain ⟨hlt, e⟩ := List.getElem?_eq_some_iff.1 hc'
        simp only [List.length_singleton] at hlt
        have : i = s.calls.length := by omega
        subst this
        simp only [Nat.sub_self, List.getElem_cons_zero] at e
        subst e
        right; simp [h3]
      · injection hs with hs; subst hs
        simp only at hc'; rw [hc] at hc'; cases hc'
    · exfalso
      have hlen : s'.calls.map Call.nd = s.calls.map Call.nd := by
        cases eff_step hs with
        | start => exact absurd ⟨_, rfl⟩ hst
        | refused => exact absurd ⟨_, rfl⟩ hst
        | reqSend _ _ _ e => exact e
        | send _ e => rw [e]
        | route _ _ e => exact e
        | other _ e => exact e
      have := congrArg List.length hlen
      simp only [List.length_map] at this
      have := (List.getElem?_eq_some_iff.1 hc').1
      omega

theorem OpenInv.reach {side : Side} {s : State ε} (h : Reachable side s) : OpenInv s :=
  reach_inv (P := OpenInv) (by intro i c hc; simp [State.new] at hc) (fun _ _ _ => OpenInv.step) h

/-- What can happen to a call that waits. -/
theorem waiting_step {s s' : State ε} {a : Action ε} {i : Nat} {c : Call} (hs : step s a = some s') (hc : s.calls[i]? = some c) (hw : c.st = .waiting) :
    (∃ c', s'.calls[i]? = some c' ∧ c'.st = .waiting ∧ a ≠ .reqTake i) ∨ a = .reqCancel i ∨ (∃ c', s'.calls[i]? = some c' ∧ c'.st = .eof) ∨ ∃ m c', .returned i m ∈ s'.log ∧ s'.calls[i]? = some c' ∧ c'.st = .returned m := by
  have set : ∀ {j : Nat} {d : Call}, j ≠ i → s'.calls = s.calls.set j d → a ≠ .reqTake i →
      (∃ c', s'.calls[i]? = some c' ∧ c'.st = .waiting ∧ a ≠ .reqTake i) := by
    intro j d hj h1 h2
    exact ⟨c, by rw [h1, List.getElem?_set_ne hj]; exact hc, hw, h2⟩
  cl_cases a hs
  all_goals first
    | exact Or.inl ⟨c, hc, hw, by simp⟩
    | exact Or.inl ⟨c, getElem?_append_some hc _, hw, by simp⟩
    | (rename_i m _ _ r j hf
       left
       simp only [List.getElem?_modify, hc, Option.map_eq_map, Option.map_some, Option.some.injEq, exists_eq_left']
       refine ⟨?_, by simp⟩
       split <;> exact hw)
    | (rename_i j _ d hd hst
       by_cases e : j = i
       · subst e
         rw [hc] at hd; injection hd with hd; subst hd
         rw [hw] at hst; cases hst
       · exact Or.inl (set e rfl (by simp)))
    | (rename_i j _ d hd hst
       by_cases e : j = i
       · subst e; exact Or.inr (Or.inl rfl)
       · exact Or.inl (set e rfl (by simp)))
    | (rename_i j _ d hd hst _ m p hch hz
       by_cases e : j = i
       · subst e
         right; right; left
         exact ⟨_, List.getElem?_set_self (List.getElem?_eq_some_iff.1 hc).1, rfl⟩
       · exact Or.inl (set e rfl (by simpa using e)))
    | (rename_i j _ d hd hst _ m p hch hz
       by_cases e : j = i
       · subst e
         right; right; right
         exact ⟨m, _, List.mem_append_right _ (List.mem_singleton.2 rfl), List.getElem?_set_self (List.getElem?_eq_some_iff.1 hc).1, rfl⟩
       · exact Or.inl (set e rfl (by simpa using e)))

end Noise.Cl

namespace Noise.Link
open Spec
variable {ε : Type} {N H : Nat} {σ : Nat → State ε} {βa βb : Nat → Option (Cl.Action ε)} {γ : Nat → Option (Wk.Action ε)}

/-- Both ends of a connection and the workers of the accepting node in an execution in which nothing fails and everything goes on: `βa`, `βb` and `γ` are what they do. -/
structure Parts (N H : Nat) (σ : Nat → State ε) (βa βb : Nat → Option (Cl.Action ε)) (γ : Nat → Option (Wk.Action ε)) : Prop where
  base : ∀ t, Base N H (σ t)
  endA : Cl.End .outbound (fun t => (σ t).a) βa (fun t => (σ t).readA) (fun t => flushedOf (σ t).b.log)
  endB : Cl.End .inbound (fun t => (σ t).b) βb (fun t => (σ t).readB) (fun t => flushedOf (σ t).a.log)
  workers : Wk.Run N H (fun t => (σ t).w) γ

/-- From time `t` on, call `i` sends its request or takes the response if it stays able to. -/
def CallFair (σ : Nat → State ε) (βa : Nat → Option (Cl.Action ε)) (t i : Nat) : Prop :=
  ∀ x, t ≤ x → ∃ x', x ≤ x' ∧ ((βa x' = some (.reqSend i) ∨ βa x' = some (.reqTake i)) ∨ ((Cl.step (σ x').a (.reqSend i)).isSome = false ∧ (Cl.step (σ x').a (.reqTake i)).isSome = false))

/-- Where an element of a filtered list stands in the list itself. -/
theorem index_of_filter {β : Type} (P : β → Bool) (l : List β) {p : Nat} {x : β} (h : (l.filter P)[p]? = some x) :
    ∃ k : Nat, l[k]? = some x ∧ P x = true ∧ ((l.take k).filter P).length = p := by
  induction l generalizing p with
  | nil => simp at h
  | cons y l ih =>
    rw [List.filter_cons] at h
    by_cases hy : P y = true
    · rw [if_pos hy] at h
      cases p with
      | zero =>
        rw [List.getElem?_cons_zero] at h; injection h with h; subst h
        exact ⟨0, rfl, hy, rfl⟩
      | succ p =>
        rw [List.getElem?_cons_succ] at h
        obtain ⟨k, h1, h2, h3⟩ := ih h
        refine ⟨k + 1, by rw [List.getElem?_cons_succ]; exact h1, h2, ?_⟩
        rw [List.take_succ_cons, List.filter_cons, if_pos hy, List.length_cons, h3]
    · rw [if_neg hy] at h
      obtain ⟨k, h1, h2, h3⟩ := ih h
      refine ⟨k + 1, by rw [List.getElem?_cons_succ]; exact h1, h2, ?_⟩
      rw [List.take_succ_cons, List.filter_cons, if_neg hy, h3]

/-- Everything submitted at A is put on B's queue. -/
theorem Parts.delivered (r : Parts N H σ βa βb γ) {t p : Nat} (hp : p < (submittedOf (σ t).a.log).length) : ∃ t', t ≤ t' ∧ p < (deliveredOf (σ t').b.log).length := by
  obtain ⟨t1, h1, h2⟩ := r.endA.flushes hp
  obtain ⟨t2, h3, h4⟩ := r.endB.processes (t0 := t1) h2
  have b := r.base t2
  have e := Cl_reach_hand b.rb
  rw [b.allB] at e
  have el := congrArg List.length e
  rw [List.length_append] at el
  by_cases hd : p < (deliveredOf (σ t2).b.log).length
  · exact ⟨t2, by omega, hd⟩
  · have h4 : p < (processedOf (σ t2).b.log).length := h4
    cases hm : (σ t2).b.main with
    | delivering m =>
      rw [hm] at el
      simp only [Cl.MainPc.undelivered, List.length_singleton] at el
      obtain ⟨t3, h5, h6⟩ := r.endB.deliver t2 m hm
      refine ⟨t3 + 1, by omega, ?_⟩
      rcases r.endB.step t3 with ⟨e1, _⟩ | ⟨a, e1, _, e2⟩
      · rw [h6] at e1; cases e1
      · rw [h6] at e1; injection e1 with e1; subst e1
        obtain ⟨l, hl⟩ := r.endB.log_mono h5
        have hl : (σ t2).b.log ++ l = (σ t3).b.log := hl
        have hle : (deliveredOf (σ t2).b.log).length ≤ (deliveredOf (σ t3).b.log).length := by
          rw [← hl]; unfold deliveredOf; rw [List.filterMap_append, List.length_append]; omega
        simp only [Cl.step] at e2
        split at e2
        · injection e2 with e2
          rw [← e2]
          simp only [deliveredOf, List.filterMap_append, List.length_append] at hle ⊢
          simp
          unfold deliveredOf at hd el
          omega
        · cases e2
    | _ =>
      rw [hm] at el
      simp only [Cl.MainPc.undelivered, List.length_nil] at el
      omega

/-- What is submitted at A stands at the right place of B's queue. -/
theorem Base.item {s : State ε} (b : Base N H s) {p : Nat} {m : Message} (hp : p < (deliveredOf s.b.log).length) (hm : (submittedOf s.a.log)[p]? = some m) :
    ∃ k : Nat, s.w.items[k]? = some ⟨0, m⟩ ∧ ((s.w.items.take k).filter fun it => it.client = 0).length = p := by
  obtain ⟨l, hl⟩ := b.deliveredB
  rw [← hl, List.getElem?_append_left hp, ← b.items, List.getElem?_map, Option.map_eq_some_iff] at hm
  obtain ⟨it, h1, h2⟩ := hm
  obtain ⟨k, h3, h4, h5⟩ := index_of_filter _ _ h1
  obtain ⟨c, m'⟩ := it
  simp only [decide_eq_true_eq] at h2 h4
  subst h2 h4
  exact ⟨k, h3, h5⟩

theorem Parts.w_log (r : Parts N H σ βa βb γ) {t t' : Nat} (h : t ≤ t') : (σ t).w.log <+: (σ t').w.log := by
  refine Fair.stays (P := fun x => (σ t).w.log <+: (σ x).w.log) (fun x hp => hp.trans ?_) h (List.prefix_refl _)
  rcases r.workers.step x with ⟨_, e⟩ | ⟨a, _, _, e⟩
  · rw [e]; exact List.prefix_refl _
  · exact (w_mono e).2

/-- Everything submitted at A is put on B's queue, taken by a worker and given to all handlers. -/
theorem Parts.handled (r : Parts N H σ βa βb γ) (hN : 0 < N) {t p : Nat} {m : Message} (hm : (submittedOf (σ t).a.log)[p]? = some m) (Q : Nat → Nat → Nat → Prop)
    (hQ : ∀ k h t, Q k h t → Q k h (t + 1))
    (hret : ∀ t i k h, (σ t).w.items[k]? = some ⟨0, m⟩ → (σ t).w.workers[i]? = some (.inside k h) → γ t = some (.handlerReturn i none) → Q k h (t + 1)) :
    ∃ (t' k i : Nat), (σ t').w.items[k]? = some ⟨0, m⟩ ∧ (((σ t').w.items.take k).filter fun it => it.client = 0).length = p ∧
      handlingOf k (σ t').w.log = handledUpTo i k H ∧ ∀ h, h < H → Q k h t' := by
  obtain ⟨t1, h1, h2⟩ := r.delivered (List.getElem?_eq_some_iff.1 hm).1
  have hm1 : (submittedOf (σ t1).a.log)[p]? = some m := by
    obtain ⟨l, hl⟩ := r.endA.log_mono h1
    have hl : (σ t).a.log ++ l = (σ t1).a.log := hl
    rw [← hl, Cl.submittedOf_append, List.getElem?_append_left (List.getElem?_eq_some_iff.1 hm).1]; exact hm
  obtain ⟨k, h3, h4⟩ := (r.base t1).item h2 hm1
  have hk := (List.getElem?_eq_some_iff.1 h3).1
  have hat : ∀ x it, (σ x).w.items[k]? = some it → it = ⟨0, m⟩ := by
    intro x it hx
    rcases Nat.le_total x t1 with h | h
    · obtain ⟨l, hl⟩ := (r.workers.mono h).1
      have hl : (σ x).w.items ++ l = (σ t1).w.items := hl
      rw [← hl, List.getElem?_append_left (List.getElem?_eq_some_iff.1 hx).1, hx] at h3
      injection h3
    · obtain ⟨l, hl⟩ := (r.workers.mono h).1
      have hl : (σ t1).w.items ++ l = (σ x).w.items := hl
      rw [← hl, List.getElem?_append_left hk, h3] at hx
      injection hx with hx; exact hx.symm
  have hin : ∀ x, (∃ (i h : Nat), (σ x).w.workers[i]? = some (Wk.Pc.inside k h)) → (σ x).w.items[k]? = some ⟨0, m⟩ := by
    rintro x ⟨i, h, hw⟩
    have g := (r.workers.good x).1
    have := (g.pc i _ hw).1
    have := g.head
    have hlt : k < (σ x).w.items.length := by omega
    have := hat x _ (List.getElem?_eq_getElem hlt)
    rw [← this]; exact List.getElem?_eq_getElem hlt
  obtain ⟨t2, i, h5, h6⟩ := r.workers.handled hN (t0 := t1) hk (fun h t => Q k h t) (fun h t => hQ k h t) (by
    intro x i h hw hg
    exact hret x i k h (hin x ⟨i, h, hw⟩) hw hg)
  have g := (r.workers.good t2).1
  have g1 := (g.pc i _ h5).1
  have g2 := (g.pc i _ h5).2.2
  have g3 := g.head
  have hlt : k < (σ t2).w.items.length := by omega
  have e := hat t2 _ (List.getElem?_eq_getElem hlt)
  refine ⟨t2, k, i, by rw [← e]; exact List.getElem?_eq_getElem hlt, ?_, g2, h6⟩
  rw [← h4]
  rcases Nat.le_total t2 t1 with h | h
  · obtain ⟨l, hl⟩ := (r.workers.mono h).1
    have hl : (σ t2).w.items ++ l = (σ t1).w.items := hl
    rw [← hl, List.take_append_of_le_length (by omega)]
  · obtain ⟨l, hl⟩ := (r.workers.mono h).1
    have hl : (σ t1).w.items ++ l = (σ t2).w.items := hl
    rw [← hl, List.take_append_of_le_length (by omega)]

/-- A registered call submits its request. -/
theorem Parts.sends (r : Parts N H σ βa βb γ) {t i : Nat} (hfair : CallFair σ βa t i) {c : Cl.Call} (hc : (σ t).a.calls[i]? = some c) (hst : c.st = .registered) :
    ∃ (T : Nat) (d : Cl.Call), t ≤ T ∧ βa T = some (.reqSend i) ∧ (σ T).a.calls[i]? = some d ∧ d.st = .registered ∧ d.nonce = c.nonce ∧ d.data = c.data := by
  by_cases hex : ∃ (T : Nat) (d : Cl.Call), t ≤ T ∧ βa T = some (.reqSend i) ∧ (σ T).a.calls[i]? = some d ∧ d.st = .registered ∧ d.nonce = c.nonce ∧ d.data = c.data
  · exact hex
  · exfalso
    have hstay : ∀ x, t ≤ x → ∃ d, (σ x).a.calls[i]? = some d ∧ d.st = .registered ∧ d.nonce = c.nonce ∧ d.data = c.data := by
      intro x hx
      refine (Fair.stays (P := fun x => t ≤ x ∧ ∃ d, (σ x).a.calls[i]? = some d ∧ d.st = .registered ∧ d.nonce = c.nonce ∧ d.data = c.data) ?_ hx ⟨Nat.le_refl _, c, hc, hst, rfl, rfl⟩).2
      rintro x ⟨hx, d, h1, h2, h3, h4⟩
      refine ⟨by omega, ?_⟩
      rcases r.endA.step x with ⟨_, e⟩ | ⟨act, e1, _, e2⟩
      · rw [e]; exact ⟨d, h1, h2, h3, h4⟩
      · obtain ⟨d', g1, g2, g3, g4⟩ := Cl.call_step h1 e2
        rcases g4 with ⟨g4, _⟩ | ⟨g4, _⟩ | ⟨g4, _⟩
        · exact ⟨d', g1, g4.trans h2, g2.trans h3, g3.trans h4⟩
        · rw [g4] at e1
          exact absurd ⟨x, d, hx, e1, h1, h2, h3, h4⟩ hex
        · rw [h2] at g4; cases g4
    obtain ⟨x, hx, h⟩ := hfair t (Nat.le_refl _)
    obtain ⟨d, h1, h2, h3, h4⟩ := hstay x hx
    rcases h with (ha | ha) | h
    · exact hex ⟨x, d, hx, ha, h1, h2, h3, h4⟩
    · rcases r.endA.step x with ⟨e, _⟩ | ⟨act, e1, _, e2⟩
      · rw [ha] at e; cases e
      · rw [ha] at e1; injection e1 with e1; subst e1
        simp [Cl.step, h1, h2] at e2
    · have := h.1
      simp [Cl.step, h1, h2] at this

/-- A call that waits and whose channel has the response returns, unless it is cancelled. -/
theorem Parts.returns (r : Parts N H σ βa βb γ) {t i : Nat} (hfair : CallFair σ βa t i) (hcan : ∀ x, t ≤ x → βa x ≠ some (.reqCancel i)) {c : Cl.Call} (hc : (σ t).a.calls[i]? = some c) (hst : c.st = .waiting)
    {T : Nat} {d : Cl.Call} (hd : (σ T).a.calls[i]? = some d) (hch : d.chan.isSome = true) : ∃ t' m c', t ≤ t' ∧ .returned i m ∈ (σ t').a.log ∧ (σ t').a.calls[i]? = some c' ∧ c'.st = .returned m := by
  by_cases hex : ∃ t' m c', t ≤ t' ∧ .returned i m ∈ (σ t').a.log ∧ (σ t').a.calls[i]? = some c' ∧ c'.st = .returned m
  · exact hex
  · exfalso
    have hstay : ∀ x, t ≤ x → ∃ d, (σ x).a.calls[i]? = some d ∧ d.st = .waiting := by
      intro x hx
      refine (Fair.stays (P := fun x => t ≤ x ∧ ∃ d, (σ x).a.calls[i]? = some d ∧ d.st = .waiting) ?_ hx ⟨Nat.le_refl _, c, hc, hst⟩).2
      rintro x ⟨hx, d, h1, h2⟩
      refine ⟨by omega, ?_⟩
      rcases r.endA.step x with ⟨_, e⟩ | ⟨act, e1, _, e2⟩
      · rw [e]; exact ⟨d, h1, h2⟩
      · rcases Cl.waiting_step e2 h1 h2 with ⟨c', g1, g2, _⟩ | rfl | ⟨c', g1, g2⟩ | ⟨m, c', g⟩
        · exact ⟨c', g1, g2⟩
        · exact absurd e1 (hcan x hx)
        · exact absurd g2 ((Cl.ReqsOK.reach (r.base (x + 1)).ra).noEof i c' g1)
        · exact absurd ⟨x + 1, m, c', by omega, g⟩ hex
    have hchan : ∀ x, T ≤ x → ∃ d, (σ x).a.calls[i]? = some d ∧ d.chan.isSome = true := by
      intro x hx
      refine Fair.stays (P := fun x => ∃ d, (σ x).a.calls[i]? = some d ∧ d.chan.isSome = true) ?_ hx ⟨d, hd, hch⟩
      rintro x ⟨d, h1, h2⟩
      rcases r.endA.step x with ⟨_, e⟩ | ⟨act, e1, _, e2⟩
      · rw [e]; exact ⟨d, h1, h2⟩
      · obtain ⟨d', g1, _, g2, _⟩ := Cl.chan_step e2 h1
        exact ⟨d', g1, g2 h2⟩
    obtain ⟨x, hx, h⟩ := hfair (max t T) (by omega)
    obtain ⟨d1, h1, h2⟩ := hstay x (by omega)
    obtain ⟨d2, h3, h4⟩ := hchan x (by omega)
    rw [h1] at h3; injection h3 with h3; subst h3
    rcases h with (ha | ha) | h
    · rcases r.endA.step x with ⟨e, _⟩ | ⟨act, e1, _, e2⟩
      · rw [ha] at e; cases e
      · rw [ha] at e1; injection e1 with e1; subst e1
        simp [Cl.step, h1, h2] at e2
    · rcases r.endA.step x with ⟨e, _⟩ | ⟨act, e1, _, e2⟩
      · rw [ha] at e; cases e
      · rw [ha] at e1; injection e1 with e1; subst e1
        rcases Cl.waiting_step e2 h1 h2 with ⟨c', g1, g2, g3⟩ | g | ⟨c', g1, g2⟩ | ⟨m, c', g⟩
        · exact g3 rfl
        · cases g
        · exact absurd g2 ((Cl.ReqsOK.reach (r.base (x + 1)).ra).noEof i c' g1)
        · exact absurd ⟨x + 1, m, c', by omega, g⟩ hex
    · obtain ⟨⟨m, p⟩, hm⟩ := Option.isSome_iff_exists.1 h4
      have h5 := h.2
      simp only [Cl.step, h1, h2, if_true, hm] at h5
      split at h5 <;> cases h5

/-- A call is answered by any message with its nonce that is processed after it was registered. -/
theorem Parts.claims (r : Parts N H σ βa βb γ) {t i : Nat} {c : Cl.Call} (hc : (σ t).a.calls[i]? = some c) {T q : Nat} (hT : t ≤ T) {m : Message}
    (hq : (processedOf (σ t).a.log).length ≤ q) (hm : (processedOf (σ T).a.log)[q]? = some m) (hn : m.nonce = c.nonce) :
    ∃ d, (σ T).a.calls[i]? = some d ∧ d.chan.isSome = true := by
  have : ∃ d, (σ T).a.calls[i]? = some d ∧ d.nonce = c.nonce ∧ (d.chan.isSome = true ∨
      ∃ l, processedOf (σ T).a.log = processedOf (σ t).a.log ++ l ∧ ∀ m ∈ l, m.nonce ≠ c.nonce) := by
    refine Fair.stays (P := fun x => ∃ d, (σ x).a.calls[i]? = some d ∧ d.nonce = c.nonce ∧ (d.chan.isSome = true ∨
      ∃ l, processedOf (σ x).a.log = processedOf (σ t).a.log ++ l ∧ ∀ m ∈ l, m.nonce ≠ c.nonce)) ?_ hT ⟨c, hc, rfl, Or.inr ⟨[], by simp, by simp⟩⟩
    rintro x ⟨d, h1, h2, h3⟩
    rcases r.endA.step x with ⟨_, e⟩ | ⟨act, e1, _, e2⟩
    · rw [e]; exact ⟨d, h1, h2, h3⟩
    · obtain ⟨d', g1, g2, g3, g4⟩ := Cl.chan_step e2 h1
      refine ⟨d', g1, g2.trans h2, ?_⟩
      rcases h3 with h3 | ⟨l, h3, h4⟩
      · exact Or.inl (g3 h3)
      · rcases Cl.OpenInv.reach (r.base x).ra i d h1 with h5 | h5
        · exact Or.inl (g3 h5)
        · rcases g4 h5 with g4 | ⟨_, l', g4, g5⟩
          · exact Or.inl g4
          · right
            refine ⟨l ++ l', by rw [g4, h3, List.append_assoc], ?_⟩
            intro m hm
            rcases List.mem_append.1 hm with hm | hm
            · exact h4 m hm
            · rw [← h2]; exact g5 m hm
  obtain ⟨d, h1, h2, h3 | ⟨l, h3, h4⟩⟩ := this
  · exact ⟨d, h1, h3⟩
  · exfalso
    rw [h3, List.getElem?_append_right hq] at hm
    exact h4 m (List.mem_of_getElem? hm) hn

/-- A message that a handler of B sends back is processed at A. -/
theorem Parts.answer (r : Parts N H σ βa βb γ) {t q : Nat} {m : Message} (hm : (submittedOf (σ t).b.log)[q]? = some m) :
    ∃ t', t ≤ t' ∧ (processedOf (σ t').a.log)[q]? = some m := by
  obtain ⟨t1, h1, h2⟩ := r.endB.flushes (List.getElem?_eq_some_iff.1 hm).1
  obtain ⟨t2, h3, h4⟩ := r.endA.processes (t0 := t1) h2
  refine ⟨t2, by omega, ?_⟩
  have b := r.base t2
  have hp : processedOf (σ t2).a.log <+: submittedOf (σ t2).b.log := (List.prefix_append _ _).trans b.readA_pre
  obtain ⟨l, hl⟩ := hp
  obtain ⟨l', hl'⟩ := r.endB.log_mono (t := t) (t' := t2) (by omega)
  have hl' : (σ t).b.log ++ l' = (σ t2).b.log := hl'
  have h4 : q < (processedOf (σ t2).a.log).length := h4
  have : (submittedOf (σ t2).b.log)[q]? = some m := by
    rw [← hl', Cl.submittedOf_append, List.getElem?_append_left (List.getElem?_eq_some_iff.1 hm).1]; exact hm
  rw [← hl, List.getElem?_append_left h4] at this
  exact this

/-- A call returns a response if B's handler number `h0` answers every request with the data of this one. -/
theorem Parts.request (r : Parts N H σ βa βb γ) (hN : 0 < N) {h0 : Nat} (hh : h0 < H)
    {c : Cl.Call}
    (hans : ∀ t w k it, γ t = some (.handlerReturn w none) → (σ t).w.workers[w]? = some (.inside k h0) → (σ t).w.items[k]? = some it → it.client = 0 → it.msg.isRequest = true → it.msg.data = c.data → h0 ∈ respondersOf k (σ t).w.log)
    {t i : Nat} (hc : (σ t).a.calls[i]? = some c) (hreg : c.st = .registered) (hfair : CallFair σ βa t i) (hcan : ∀ x, t ≤ x → βa x ≠ some (.reqCancel i)) :
    ∃ t' m c', t ≤ t' ∧ .returned i m ∈ (σ t').a.log ∧ (σ t').a.calls[i]? = some c' ∧ c'.st = .returned m := by
  obtain ⟨T, d, hT, hact, hd, hst, hn, hdt⟩ := r.sends hfair hc hreg
  -- it submits its request
  obtain ⟨act, e1, _, e2⟩ : ∃ act, βa T = some act ∧ act.calm = true ∧ Cl.step (σ T).a act = some (σ (T + 1)).a := by
    rcases r.endA.step T with ⟨e, _⟩ | h
    · rw [hact] at e; cases e
    · exact h
  rw [hact] at e1; injection e1 with e1; subst e1
  obtain ⟨c1, hc1, hn1, hd1, hs1⟩ := Cl.call_step hd e2
  obtain ⟨hw1, hlog⟩ : c1.st = .waiting ∧ (σ (T + 1)).a.log = (σ T).a.log ++ [.submitted ⟨d.nonce, d.data⟩] := by
    rcases hs1 with ⟨_, h⟩ | ⟨_, _, h1, h2⟩ | ⟨h, _⟩
    · exact absurd rfl h
    · exact ⟨h1, h2⟩
    · rw [hst] at h; cases h
  have hsub : (submittedOf (σ (T + 1)).a.log)[(submittedOf (σ T).a.log).length]? = some ⟨d.nonce, d.data⟩ := by
    rw [hlog, Cl.submittedOf_append, List.getElem?_append_right (Nat.le_refl _), Nat.sub_self]; rfl
  have hreq : (⟨d.nonce, d.data⟩ : Message).isRequest = true := by
    have := (Cl.ReqsOK.reach (r.base T).ra).nz i d hd
    unfold Message.isRequest; simp [UInt64.pos_iff_ne_zero, this]
  -- B's handler answers it
  obtain ⟨t1, k, w, g1, g2, _, g3⟩ := r.handled hN hsub (fun k h t => h = h0 → h ∈ respondersOf k (σ t).w.log)
    (by
      intro k h x hx e
      obtain ⟨l, hl⟩ := r.w_log (Nat.le_succ x)
      rw [← hl]
      unfold respondersOf
      rw [List.filterMap_append]
      exact List.mem_append_left _ (hx e))
    (by
      intro x j k h hit hin hret e
      subst e
      obtain ⟨l, hl⟩ := r.w_log (Nat.le_succ x)
      rw [← hl]
      unfold respondersOf
      rw [List.filterMap_append]
      exact List.mem_append_left _ (hans x j k _ hret hin hit rfl hreq hdt))
  obtain ⟨n, dat, hok⟩ := Wk.mem_respondersOf.1 (g3 h0 hh rfl)
  -- after the request was submitted
  have hTt : T < t1 ∨ t1 ≤ T := by omega
  have hcount : ∀ x, x ≤ T → ((σ x).w.items.filter fun it => it.client = 0).length ≤ (submittedOf (σ T).a.log).length := by
    intro x hx
    have b := r.base x
    have h1 := congrArg List.length b.items
    rw [List.length_map] at h1
    rw [h1]
    refine Nat.le_trans b.deliveredB.length_le ?_
    obtain ⟨l, hl⟩ := r.endA.log_mono hx
    have hl : (σ x).a.log ++ l = (σ T).a.log := hl
    rw [← hl, Cl.submittedOf_append, List.length_append]; omega
  have hnot : ∀ x, x ≤ T → (σ x).w.items.length ≤ k := by
    intro x hx
    by_cases hk : (σ x).w.items.length ≤ k
    · exact hk
    · exfalso
      have hc := hcount x hx
      have hlt : k < (σ x).w.items.length := by omega
      have hpre : (σ x).w.items[k]? = some ⟨0, ⟨d.nonce, d.data⟩⟩ ∧ (((σ x).w.items.take k).filter fun it => it.client = 0) = (((σ t1).w.items.take k).filter fun it => it.client = 0) := by
        have hlt1 := (List.getElem?_eq_some_iff.1 g1).1
        rcases Nat.le_total x t1 with h | h
        · obtain ⟨l, hl⟩ := (r.workers.mono h).1
          have hl : (σ x).w.items ++ l = (σ t1).w.items := hl
          rw [← hl, List.getElem?_append_left hlt] at g1
          exact ⟨g1, by rw [← hl, List.take_append_of_le_length (by omega)]⟩
        · obtain ⟨l, hl⟩ := (r.workers.mono h).1
          have hl : (σ t1).w.items ++ l = (σ x).w.items := hl
          rw [← hl, List.getElem?_append_left hlt1, List.take_append_of_le_length (by omega)]
          exact ⟨g1, rfl⟩
      obtain ⟨q1, q2⟩ := hpre
      have e : (σ x).w.items = (σ x).w.items.take k ++ (σ x).w.items[k] :: (σ x).w.items.drop (k + 1) := by rw [List.getElem_cons_drop, List.take_append_drop]
      have q3 : (σ x).w.items[k] = ⟨0, ⟨d.nonce, d.data⟩⟩ := by
        rw [List.getElem?_eq_getElem hlt] at q1; injection q1
      rw [e, q3, List.filter_append, q2, List.length_append, g2, List.filter_cons] at hc
      simp only [decide_true, if_true, List.length_cons] at hc
      omega
  have hT1 : T ≤ t1 := by
    rcases hTt with h | h
    · omega
    · have := hnot t1 h
      have := (List.getElem?_eq_some_iff.1 g1).1
      omega
  -- so its answer comes after everything that A had processed when it submitted the request
  obtain ⟨es, hes⟩ := r.w_log hT1
  obtain ⟨il, hil⟩ := (r.workers.mono hT1).1
  have hresp := Link.respOf_mono (r.base T).rw hil.symm hes.symm
  have hin : Wk.Event.sendOk k h0 n dat ∈ es := by
    rw [← hes] at hok
    rcases List.mem_append.1 hok with h | h
    · obtain ⟨_, it, hit, _⟩ := (Wk.SendInv.reach (r.base T).rw).started _ _ _ _ h
      have := (List.getElem?_eq_some_iff.1 hit).1
      have := hnot T (Nat.le_refl _)
      omega
    · exact h
  have hnn : n = d.nonce := by
    obtain ⟨_, it, hit, e⟩ := (Wk.SendInv.reach (r.base t1).rw).started _ _ _ _ hok
    rw [g1] at hit; injection hit with hit; subst hit
    exact e.symm
  obtain ⟨j, hj⟩ := List.getElem?_of_mem (List.mem_filterMap.2 ⟨_, hin, by dsimp only; rw [g1]; rfl⟩ :
    (⟨n, dat⟩ : Message) ∈ es.filterMap fun | .sendOk k _ n d => ((σ t1).w.items[k]?).bind fun it => if it.client = 0 then some ⟨n, d⟩ else none | _ => none)
  have hsubB : (submittedOf (σ t1).b.log)[(submittedOf (σ T).b.log).length + j]? = some ⟨n, dat⟩ := by
    rw [(r.base t1).sent, (r.base T).sent, hresp, List.getElem?_append_right (by omega), Nat.add_sub_cancel_left]
    exact hj
  obtain ⟨t2, h2, hproc⟩ := r.answer hsubB
  have hle : (processedOf (σ T).a.log).length ≤ (submittedOf (σ T).b.log).length :=
    (((List.prefix_append _ _).trans (r.base T).readA_pre).length_le : (processedOf (σ T).a.log).length ≤ _)
  obtain ⟨c2, hc2, hch⟩ := r.claims hd (T := t2) (by omega) (Nat.le_trans hle (Nat.le_add_right _ _)) hproc hnn
  obtain ⟨t', m, c', h3, h4⟩ := r.returns (t := T + 1) (fun x hx => hfair x (by omega)) (fun x hx => hcan x (by omega)) hc1 hw1 hc2 hch
  exact ⟨t', m, c', by omega, h4⟩


/-- A fair execution of two connected nodes has such parts. -/
theorem FairRun.toParts {α : Nat → Option (Action ε)} (r : FairRun N H σ α) (hN : 0 < N) : Parts N H σ (fun t => actA (α t)) (fun t => actB (σ t) (α t)) (fun t => actW (σ t) (α t)) :=
  ⟨r.base, r.endA, r.endB hN, r.workers⟩

theorem FairRun.call {α : Nat → Option (Action ε)} (r : FairRun N H σ α) (t i : Nat) : CallFair σ (fun t => actA (α t)) t i := by
  intro x _
  obtain ⟨x', h1, h2⟩ := r.runs (.call i) x
  refine ⟨x', h1, ?_⟩
  rcases h2 with ⟨a, h3, rfl | rfl⟩ | h2
  · left; left; simp only [h3, actA]
  · left; right; simp only [h3, actA]
  · right
    constructor
    · rw [← Bool.not_eq_true]
      intro h
      exact h2 ⟨.a (.reqSend i), ⟨Or.inl rfl, trivial⟩, by simp only [step, stepA, Option.isSome_map]; exact h⟩
    · rw [← Bool.not_eq_true]
      intro h
      exact h2 ⟨.a (.reqTake i), ⟨Or.inr rfl, trivial⟩, by simp only [step, stepA, Option.isSome_map]; exact h⟩

end Noise.Link
