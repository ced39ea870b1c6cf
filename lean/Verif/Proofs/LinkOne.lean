import Verif.Proofs.Link
/-! # Two nodes: with a single handler, no response goes astray -/
namespace Noise.Link
open Spec
variable {ε : Type}

/-- No nonce but 0 occurs twice. -/
abbrev Distinct (l : List Message) : Prop := l.Pairwise fun m m' => m.nonce = m'.nonce → m.nonce = 0

theorem Distinct.pre {l l' : List Message} (h : Distinct l') (hp : l <+: l') : Distinct l := List.Pairwise.sublist hp.sublist h

theorem distinct_snoc {l : List Message} {m : Message} (h : Distinct l) (hm : m.nonce = 0 ∨ ∀ x ∈ l, x.nonce ≠ m.nonce) : Distinct (l ++ [m]) := by
  rw [Distinct, List.pairwise_append]
  refine ⟨h, List.pairwise_singleton _ _, ?_⟩
  intro a ha b hb e
  rw [List.mem_singleton] at hb; subst hb
  rcases hm with h0 | hne
  · rw [e]; exact h0
  · exact absurd e (hne a ha)

/-- With at most one handler, B answers every request at most once. -/
theorem Base.distinctB {N H : Nat} {s : State ε} (b : Base N H s) (hH : H ≤ 1) (hd : Distinct (submittedOf s.a.log)) : Distinct (submittedOf s.b.log) := by
  have h1 : Distinct (deliveredOf s.b.log) := hd.pre b.deliveredB
  rw [← b.items, Distinct, List.pairwise_map, List.pairwise_filter] at h1
  have hidx : ∀ (k k' : Nat) it it', s.w.items[k]? = some it → s.w.items[k']? = some it' → it.client = 0 → it'.client = 0 → it.msg.nonce = it'.msg.nonce → it.msg.nonce ≠ 0 → k = k' := by
    intro k k' it it' e e' c c' en hn
    have key : ∀ (p q : Nat) x y, s.w.items[p]? = some x → s.w.items[q]? = some y → x.client = 0 → y.client = 0 → x.msg.nonce = y.msg.nonce → x.msg.nonce ≠ 0 → ¬ p < q := by
      intro p q x y ep eq cx cy exy hnx hlt
      obtain ⟨hp, rfl⟩ := List.getElem?_eq_some_iff.1 ep
      obtain ⟨hq, rfl⟩ := List.getElem?_eq_some_iff.1 eq
      exact hnx (List.pairwise_iff_getElem.1 h1 p q hp hq hlt (by simpa using cx) (by simpa using cy) exy)
    rcases Nat.lt_trichotomy k k' with h | h | h
    · exact absurd h (key k k' it it' e e' c c' en hn)
    · exact h
    · exact absurd h (key k' k it' it e' e c' c en.symm (en ▸ hn))
  have sv := Wk.SendInv.reach b.rw
  rw [b.sent, Distinct]
  unfold respOf
  rw [List.pairwise_filterMap, List.pairwise_iff_getElem]
  intro p q hp hq hlt m hm m' hm' en
  have hep : s.w.log[p] ∈ s.w.log := List.getElem_mem hp
  have heq : s.w.log[q] ∈ s.w.log := List.getElem_mem hq
  generalize hE : s.w.log[p] = E at hm hep
  generalize hE' : s.w.log[q] = E' at hm' heq
  cases E with
  | sendOk k h n d =>
    cases E' with
    | sendOk k' h' n' d' =>
      obtain ⟨st, it, hit, hn⟩ := sv.started k h n d hep
      obtain ⟨st', it', hit', hn'⟩ := sv.started k' h' n' d' heq
      simp only [hit, Option.bind_some] at hm
      simp only [hit', Option.bind_some] at hm'
      split at hm
      · rename_i hc
        split at hm'
        · rename_i hc'
          injection hm with hm; subst hm
          injection hm' with hm'; subst hm'
          simp only at en ⊢
          apply Classical.byContradiction
          intro hne
          have hkk : k = k' := hidx k k' it it' hit hit' hc hc' (hn.trans (en.trans hn'.symm)) (by rw [hn]; exact hne)
          subst hkk
          have hh : h = h' := by
            have a1 := Wk.started_lt b.rw st
            have a2 := Wk.started_lt b.rw st'
            omega
          subst hh
          have hreq : it.msg.isRequest = true := by
            unfold Message.isRequest; rw [hn]; simpa [UInt64.pos_iff_ne_zero] using hne
          have nd := sv.nodup k it hit hreq
          unfold respondersOf at nd
          rw [List.Nodup, List.pairwise_filterMap, List.pairwise_iff_getElem] at nd
          exact nd p q hp hq hlt h (by rw [hE]; simp) h (by rw [hE']; simp) rfl
        · cases hm'
      · cases hm
    | _ => cases hm'
  | _ => cases hm

structure One (s : State ε) : Prop where
  pw : Distinct (submittedOf s.a.log)
  zero : ∀ m ∈ toHandlersOf s.a.log, m.nonce = 0
  fresh : ∀ (i : Nat) c, s.a.calls[i]? = some c → c.st = .registered → ∀ m ∈ submittedOf s.a.log, m.nonce ≠ c.nonce

theorem toHandlersOf_other {s s' : Cl.State ε} (h : ∃ es, s'.log = s.log ++ es ∧ ∀ e ∈ es, ∀ m b, e ≠ Cl.Event.processed m b) : toHandlersOf s'.log = toHandlersOf s.log := by
  obtain ⟨es, e, hne⟩ := h
  have : toHandlersOf es = [] := by
    unfold toHandlersOf
    rw [List.filterMap_eq_nil_iff]
    intro x hx
    have := hne x hx
    cases x <;> simp_all
  rw [e, Cl.toHandlersOf_append, this, List.append_nil]

theorem One.stepA {N H : Nat} (hH : H ≤ 1) {s : State ε} (i : One s) (b : Base N H s) (r : Rpc s) {a' : Cl.State ε} {act : Cl.Action ε} (hs : Cl.step s.a act = some a')
    (r' : ∀ n, Rpc { s with a := a', readA := n })
    (hsend : ∀ m, act = .send m → m.nonce = 0 ∨ hasContext s.a m.nonce = true) (n : Nat) : One { s with a := a', readA := n } := by
  -- calls that are still registered were so before, or are new
  have hold : ∀ (j : Nat) c, a'.calls[j]? = some c → c.st = .registered → (∃ c0, s.a.calls[j]? = some c0 ∧ c0.st = .registered ∧ c0.nonce = c.nonce ∧ act ≠ .reqSend j) ∨ s.a.calls.length ≤ j := by
    intro j c hc hst
    rcases Nat.lt_or_ge j s.a.calls.length with hlt | hge
    · left
      obtain ⟨c', h1, h2, h3, h4⟩ := Cl.call_step (List.getElem?_eq_getElem hlt) hs
      rw [hc] at h1; injection h1 with h1; subst h1
      refine ⟨_, List.getElem?_eq_getElem hlt, ?_, h2.symm, ?_⟩
      · rcases h4 with ⟨e, _⟩ | ⟨_, _, e, _⟩ | ⟨_, e, _⟩
        · rw [← e]; exact hst
        · rw [e] at hst; cases hst
        · exact absurd hst e
      · rcases h4 with ⟨_, e⟩ | ⟨_, _, e, _⟩ | ⟨_, _, e⟩
        · exact e
        · rw [e] at hst; cases hst
        · exact e
    · exact Or.inr hge
  have hnew : ∀ (j : Nat) c, a'.calls[j]? = some c → s.a.calls.length ≤ j → ∀ m ∈ submittedOf s.a.log, m.nonce ≠ c.nonce := by
    intro j c hc hge m hm e
    have h1 := (r' 0).callN j c hc
    have h2 := r.sub m hm
    rw [e] at h2
    omega
  have quiet : submittedOf a'.log = submittedOf s.a.log → toHandlersOf a'.log = toHandlersOf s.a.log → One { s with a := a', readA := n } := by
    intro e1 e2
    refine ⟨by simp only; rw [e1]; exact i.pw, by simp only; rw [e2]; exact i.zero, ?_⟩
    simp only; rw [e1]
    intro j c hc hst
    rcases hold j c hc hst with ⟨c0, h1, h2, h3, _⟩ | hge
    · rw [← h3]; exact i.fresh j c0 h1 h2
    · exact hnew j c hc hge
  cases Cl.eff_step hs with
  | start _ _ _ e3 e4 => exact quiet e3 (toHandlersOf_other ⟨_, e4, by simp⟩)
  | refused _ _ _ e => exact quiet (by rw [e]) (by rw [e])
  | @reqSend j c hc hst e1 e2 e3 =>
    have hsub : submittedOf a'.log = submittedOf s.a.log ++ [⟨c.nonce, c.data⟩] := by rw [e3]; simp [submittedOf]
    refine ⟨?_, ?_, ?_⟩
    · simp only; rw [hsub]
      exact distinct_snoc i.pw (Or.inr (i.fresh j c hc hst))
    · simp only; rw [toHandlersOf_other ⟨_, e3, by simp⟩]; exact i.zero
    · simp only; rw [hsub]
      intro j' c' hc' hst' m hm
      have hlen : a'.calls.length = s.a.calls.length := by simpa using congrArg List.length e2
      rcases hold j' c' hc' hst' with ⟨c0, h1, h2, h3, h4⟩ | hge
      · rcases List.mem_append.1 hm with hm | hm
        · rw [← h3]; exact i.fresh j' c0 h1 h2 m hm
        · rw [List.mem_singleton] at hm; subst hm
          simp only
          intro e
          have q1 := r.callN j c hc
          have q2 := r.callN j' c0 h1
          rw [e, ← h3] at q1
          have : j = j' := by omega
          subst this
          exact h4 rfl
      · have := (List.getElem?_eq_some_iff.1 hc').1; omega
  | @send m0 e1 e2 e3 =>
    have hsub : submittedOf a'.log = submittedOf s.a.log ++ [m0] := by rw [e3]; simp [submittedOf]
    have h0 : m0.nonce = 0 := by
      rcases hsend m0 rfl with h | h
      · exact h
      · obtain ⟨e, he, hx⟩ := List.any_eq_true.1 h
        cases e with
        | delivered m1 x y =>
          have hd : m1 ∈ deliveredOf s.a.log := List.mem_filterMap.2 ⟨_, he, rfl⟩
          have := i.zero m1 (by rw [Cl_reach_hand b.ra]; exact List.mem_append_left _ hd)
          rw [← this]; simpa using (of_decide_eq_true hx).symm
        | _ => cases hx
    refine ⟨?_, ?_, ?_⟩
    · simp only; rw [hsub]; exact distinct_snoc i.pw (Or.inl h0)
    · simp only; rw [toHandlersOf_other ⟨_, e3, by simp⟩]; exact i.zero
    · simp only; rw [hsub, e2]
      intro j c hc hst m hm
      rcases List.mem_append.1 hm with hm | hm
      · exact i.fresh j c hc hst m hm
      · rw [List.mem_singleton] at hm; subst hm
        rw [h0]
        intro e
        have := r.callN j c hc
        rw [← e] at this
        have h0 : (0 : UInt64).toNat = 0 := rfl
        omega
  | @route m0 hm0 e1 e2 e3 =>
    have hsub : submittedOf a'.log = submittedOf s.a.log := by rw [e3]; simp [submittedOf]
    have hread : readBy s.a = processedOf s.a.log ++ [m0] := by rw [readBy, hm0]; rfl
    have hz : ∀ m ∈ toHandlersOf a'.log, m.nonce = 0 := by
      intro m hm
      rw [e3, Cl.toHandlersOf_append] at hm
      rcases List.mem_append.1 hm with hm | hm
      · exact i.zero m hm
      · cases hb : (s.a.reqs.findRequest m0.nonce).2.isSome with
        | true => rw [hb] at hm; cases hm
        | false =>
          rw [hb] at hm
          have : m = m0 := by simpa [toHandlersOf] using hm
          subst this
          apply Classical.byContradiction
          intro hne
          have hent : s.a.reqs.entries m.nonce = none := by
            cases he : s.a.reqs.entries m.nonce with
            | none => rfl
            | some j => simp [RequestMap.findRequest, he] at hb
          -- a call has this nonce
          obtain ⟨_, _, it, _, _, f3, _, f5⟩ := b.origin (m := m) (by rw [hread]; simp)
          have hle := r.sub _ f5
          rw [f3] at hle
          have hpos : 0 < m.nonce.toNat := by
            rcases Nat.eq_zero_or_pos m.nonce.toNat with h | h
            · exact absurd (UInt64.toNat_inj.1 (h.trans rfl : m.nonce.toNat = (0 : UInt64).toNat)) hne
            · exact h
          have hlt : m.nonce.toNat - 1 < s.a.calls.length := by omega
          have hc := List.getElem?_eq_getElem hlt
          have hcn := r.callN _ _ hc
          have hn : (s.a.calls[m.nonce.toNat - 1]).nonce = m.nonce := UInt64.toNat_inj.1 (by omega)
          have ok := Cl.ReqsOK.reach b.ra
          have hreg := (ok.reg (m.nonce.toNat - 1) m.nonce).2 ⟨_, hc, hn⟩
          obtain ⟨l1, l2, hl⟩ := List.append_of_mem hreg
          have hnw : ¬ Cl.Waiting s.a.log m.nonce (m.nonce.toNat - 1) := by
            intro hw
            have := (ok.entIff _ _).2 hw
            rw [hent] at this; cases this
          apply hnw
          refine ⟨l1, l2, hl, ?_⟩
          intro m' b' hm' e
          have hp : m' ∈ processedOf s.a.log := processed_mem (b := b') (by rw [hl]; simp [hm'])
          have hd : Distinct (readBy s.a) := (b.distinctB hH i.pw).pre b.readA_pre
          rw [hread, Distinct, List.pairwise_append] at hd
          exact hne (e ▸ hd.2.2 m' hp m (by simp) e)
    refine ⟨by simp only; rw [hsub]; exact i.pw, hz, ?_⟩
    simp only; rw [hsub]
    intro j c hc hst
    rcases hold j c hc hst with ⟨c0, h1, h2, h3, _⟩ | hge
    · rw [← h3]; exact i.fresh j c0 h1 h2
    · exact hnew j c hc hge
  | other e1 e2 e3 e4 => exact quiet e3 (toHandlersOf_other e4)

theorem One.reach {N H : Nat} (hH : H ≤ 1) {s : State ε} (h : Reachable N H s) (hb : s.a.calls.length < 2 ^ 64 - 1) : One s := by
  refine ReachFrom.ind (P := fun s => s.a.calls.length < 2 ^ 64 - 1 → One s) ?_ ?_ h hb
  · intro _
    refine ⟨?_, ?_, ?_⟩ <;> simp [State.new, Cl.State.new, submittedOf, toHandlersOf, Distinct]
  intro s a s' hr ih hs hb'
  rcases step_kinds hs with ⟨act, a', n, ha, rfl, hsend⟩ | ⟨h1, h2, h3⟩
  · have hlt : s.a.calls.length < 2 ^ 64 - 1 := Nat.lt_of_le_of_lt (calls_len ha) hb'
    exact (ih hlt).stepA hH (Base.reach hr) (Rpc.reach hr hlt) ha (fun n => (Rpc.reach hr hlt).stepA (Base.reach hr) hlt ha hsend n) hsend n
  · obtain ⟨i1, i2, i3⟩ := ih (by rw [← h1]; exact hb')
    exact ⟨by rw [h1]; exact i1, by rw [h1]; exact i2, by rw [h1]; exact i3⟩

end Noise.Link
