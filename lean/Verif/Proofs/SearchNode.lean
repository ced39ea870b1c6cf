import Verif.Proofs.NetConn
import Verif.Spec.Search
import Verif.Proofs.NodeKeep
import Mathlib.Data.List.Perm.Subperm
/-! # What is needed of a node for the searches that run on it -/
namespace Noise.Node
variable {ε : Type}

/-- Kind and address of a call stay. -/
theorem call_keeps {cfg : Cfg ε} {s s' : State ε} {a : Action ε} {k : Nat} {c : Call ε} (hr : Reachable cfg s) (h : step cfg s a = some s') (hk : s.calls[k]? = some c) :
    ∃ c', s'.calls[k]? = some c' ∧ c'.kind = c.kind ∧ c'.addr = c.addr ∧ Next c c' := by
  obtain ⟨c', h1, h2⟩ := next_step h hk
  have hlt := (List.getElem?_eq_some_iff.1 hk).1
  refine ⟨c', h1, ?_⟩
  cases step_callEff hr h with
  | same h => rw [h, hk] at h1; cases h1; exact ⟨rfl, rfl, h2⟩
  | call d h _ => rw [h, List.getElem?_append_left hlt, hk] at h1; cases h1; exact ⟨rfl, rfl, h2⟩
  | set i d d' hd h hkind haddr =>
    rw [h, List.getElem?_set] at h1
    split at h1
    · subst i; rw [hk] at hd; cases hd
      simp only [hlt, if_true] at h1; cases h1; exact ⟨hkind, haddr, h2⟩
    · rw [hk] at h1; cases h1; exact ⟨rfl, rfl, h2⟩
  | asks i j d d' x x' data q hd h hkind haddr =>
    rw [h, List.getElem?_set] at h1
    split at h1
    · subst i; rw [hk] at hd; cases hd
      simp only [hlt, if_true] at h1; cases h1; exact ⟨hkind, haddr, h2⟩
    · rw [hk] at h1; cases h1; exact ⟨rfl, rfl, h2⟩

/-- The outbound connections that have not removed themselves are in the pool, or being evicted. -/
def Covered (s : State ε) : Prop := ∀ j x, s.conns[j]? = some x → x.c.side = .outbound → ¬ past x.c → (∃ e ∈ (s.pool .outbound).entries, e.2 = j) ∨ ∃ k, ev s (.call k) = some j

theorem Mild.covered {s s' : State ε} (h : Mild s s') (hc : Covered s) {j : Nat} {x : Conn ε} (hx : s'.conns[j]? = some x) (hs : x.c.side = .outbound) (hp : ¬ past x.c) :
    (∃ e ∈ (s.pool .outbound).entries, e.2 = j) ∨ ∃ k, ev s (.call k) = some j := by
  have hlt := (List.getElem?_eq_some_iff.1 hx).1
  rw [h.len] at hlt
  obtain ⟨x', h1, h2, h3, h4⟩ := h.old j s.conns[j] (List.getElem?_eq_getElem hlt)
  rw [hx] at h1; cases h1
  exact hc j _ (List.getElem?_eq_getElem hlt) (h3 ▸ hs) (fun h => hp (h4.2 h))

theorem Covered.step {cfg : Cfg ε} {s s' : State ε} {a : Action ε} (hr : Reachable cfg s) (hc : Covered s) (h : step cfg s a = some s') : Covered s' := by
  have hi := Inv.reach hr
  rcases step_eff h with h | rfl
  swap
  · exact hc
  cases h with
  | quiet hp hm he =>
    intro j x hx hs hpa
    rw [hp, he]; exact hm.covered hc hx hs hpa
  | found d e hl hf hp hcn he =>
    intro j x hx hs hpa
    rw [hcn] at hx
    rw [hp, he]
    rcases hc j x hx hs hpa with ⟨q, hq, h2⟩ | h2
    · left
      simp only
      split
      · subst d
        by_cases hqe : q.1 = e.1
        · refine ⟨e, List.mem_cons_self .., ?_⟩
          have := find_fst (hi.nodup _) hq
          rw [hqe, hf] at this
          rw [Option.some.inj this]; exact h2
        · exact ⟨q, List.mem_cons_of_mem _ (List.mem_filter.2 ⟨hq, by simpa using hqe⟩), h2⟩
      · exact ⟨q, hq, h2⟩
    · exact .inr h2
  | added d a hl hf hn hp hcn he =>
    intro j x hx hs hpa
    rw [hp, he]
    rw [hcn, List.getElem?_append] at hx
    split at hx
    · rcases hc j x hx hs hpa with ⟨q, hq, h2⟩ | h2
      · left
        simp only
        split
        · subst d; exact ⟨q, List.mem_cons_of_mem _ hq, h2⟩
        · exact ⟨q, hq, h2⟩
      · exact .inr h2
    · next hge =>
      have hj : j = s.conns.length := by
        have := (List.getElem?_eq_some_iff.1 hx).1
        simp only [List.length_singleton] at this
        omega
      rw [hj, Nat.sub_self] at hx
      cases hx
      left
      have : d = .outbound := hs
      subst this
      exact ⟨(a, s.conns.length), by simp, hj.symm⟩
  | evict t e hl hn hg hp hm he0 he heo =>
    intro j x hx hs hpa
    have h0 := hm.covered hc hx hs hpa
    rw [hp]
    cases t with
    | accept =>
      simp only [Tid.side]
      rcases h0 with h0 | ⟨k, h0⟩
      · left; simpa using h0
      · exact .inr ⟨k, by rw [heo _ (by simp)]; exact h0⟩
    | call i =>
      rcases h0 with ⟨q, hq, h2⟩ | ⟨k, h0⟩
      · simp only [Tid.side] at hg hq ⊢
        rw [eq_dropLast_append hg] at hq
        rcases List.mem_append.1 hq with hq | hq
        · left; exact ⟨q, by simpa using hq, h2⟩
        · rw [List.mem_singleton] at hq
          subst hq
          exact .inr ⟨i, by rw [he, h2]⟩
      · have := (hi.evict _ _ h0).1
        simp only [Tid.side] at this hl
        rw [hl] at this; cases this
  | evicted t v a he0 hd hp hcn he heo =>
    intro j x hx hs hpa
    obtain ⟨hlock, y, hy, hys, hyp⟩ := hi.evict _ _ he0
    exact absurd (done_past (Reaches.reach hr) hy hd) hyp
  | removed i y hy hrm hl hp hlen hcn he =>
    intro j x hx hs hpa
    have hlt := (List.getElem?_eq_some_iff.1 hx).1
    rw [hlen] at hlt
    obtain ⟨x', h1, h2, h3, h4, -⟩ := hcn j s.conns[j] (List.getElem?_eq_getElem hlt)
    rw [hx] at h1; cases h1
    have hxj := List.getElem?_eq_getElem hlt
    have hnp : ¬ past s.conns[j].c := fun h => hpa (h4.2 (.inl h))
    have hne : j ≠ i := fun h => hpa (h4.2 (.inr h))
    rw [hp, he]
    rcases hc j _ hxj (h3 ▸ hs) hnp with ⟨q, hq, h5⟩ | h5
    · left
      simp only
      split
      · next hsd =>
        by_cases hqa : q.1 = y.addr
        · -- the entry of the address belongs to the client that removes itself
          have hnr : ¬ past y.c := by rw [past, hrm]; simp
          rcases hc i y hy hsd.symm hnr with ⟨q', hq', h6⟩ | ⟨k, h6⟩
          · obtain ⟨y', hy', hya, -⟩ := hi.ent _ q' hq'
            rw [h6, hy] at hy'; cases hy'
            have h7 := find_fst (hi.nodup _) hq
            have h8 := find_fst (hi.nodup _) hq'
            rw [hqa, hya, h8] at h7
            cases h7
            exact absurd (h5.symm.trans h6) hne
          · have := (hi.evict _ _ h6).1
            simp only [Tid.side] at this
            rw [hsd, hl] at this; cases this
        · exact ⟨q, List.mem_filter.2 ⟨by rw [← hsd]; exact hq, by simpa using hqa⟩, h5⟩
      · exact ⟨q, hq, h5⟩
    · exact .inr h5
  | released l hl hperm ha hb hp hm he =>
    intro j x hx hs hpa
    rw [hp, he]
    simpa using hm.covered hc hx hs hpa

theorem Covered.reach {cfg : Cfg ε} {s : State ε} (h : Reachable cfg s) : Covered s :=
  h.ind (P := Covered) (fun j x hx => by cases hx) (fun _ _ _ hr hc hs => hc.step hr hs)

/-- There are no more outbound connections that have not removed themselves than the pool may hold. -/
theorem few_out {cfg : Cfg ε} {s : State ε} (h : Reachable cfg s) : ∃ l : List Nat, l.length ≤ cfg.max ∧ ∀ j x, s.conns[j]? = some x → x.c.side = .outbound → ¬ past x.c → j ∈ l := by
  have hi := Inv.reach h
  have hc := Covered.reach h
  cases hl : (s.pool .outbound).lock with
  | none =>
    refine ⟨(s.pool .outbound).entries.map Prod.snd, by simpa using (hi.bound .outbound).1, fun j x hx hs hp => ?_⟩
    rcases hc j x hx hs hp with ⟨e, he, rfl⟩ | ⟨k, hk⟩
    · exact List.mem_map.2 ⟨e, he, rfl⟩
    · have := (hi.evict _ _ hk).1
      simp only [Tid.side] at this
      rw [hl] at this; cases this
  | some t =>
    obtain ⟨h1, h2⟩ := hi.lock _ _ hl
    obtain ⟨v, hv⟩ := Option.ne_none_iff_exists'.1 h2
    refine ⟨v :: (s.pool .outbound).entries.map Prod.snd, ?_, fun j x hx hs hp => ?_⟩
    · have := (hi.bound .outbound).2 (by rw [hl]; simp)
      simp; omega
    · rcases hc j x hx hs hp with ⟨e, he, rfl⟩ | ⟨k, hk⟩
      · exact List.mem_cons_of_mem _ (List.mem_map.2 ⟨e, he, rfl⟩)
      · have := (hi.evict _ _ hk).1
        simp only [Tid.side] at this
        rw [hl] at this; cases this
        rw [hv] at hk; cases hk
        exact List.mem_cons_self ..

/-- How a call goes on by a step of its own. -/
inductive Own (s' : State ε) (c c' : Call ε) : Prop where
  | giveUp (h : c.pc = .get) (hl : c.left = 0) (h' : c'.pc = .failing) (hl' : c'.left = c.left)
  | get (j : Nat) (h : c.pc = .get) (h' : c'.pc = .select j) (hl' : c'.left + 1 = c.left)
  | evict (v : Nat) (h : c.pc = .get) (h' : c'.pc = .evict v false) (hl' : c'.left + 1 = c.left)
  | evicting (v : Nat) (b : Bool) (h : c.pc = .evict v b) (h' : (∃ b', c'.pc = .evict v b') ∨ ∃ j, c'.pc = .select j)
  | select (j : Nat) (h : c.pc = .select j) (h' : c'.pc = .got j ∨ ∃ w, c'.pc = .closing j w) (hl' : c'.left = c.left)
  | closing (j : Nat) (w : Callers.Why ε) (h : c.pc = .closing j w) (h' : c' = c) (hx : ∃ x, s'.conns[j]? = some x ∧ x.c.once = .running)
  | closed (j : Nat) (w : Callers.Why ε) (h : c.pc = .closing j w) (h' : c'.pc = .wait j w) (hl' : c'.left = c.left) (hx : ∃ x, s'.conns[j]? = some x ∧ x.c.once = .done)
  | wait (j : Nat) (w : Callers.Why ε) (h : c.pc = .wait j w) (h' : c'.pc = .get ∨ c'.pc = .failing) (hl' : c'.left = c.left)
  | failing (h : c.pc = .failing) (h' : c'.pc = .returned .dialFailed) (hl' : c'.left = c.left)
  | got (j : Nat) (h : c.pc = .got j) (h' : (∃ r, c'.pc = .returned r) ∨ ∃ i, c'.pc = .reqSend j i) (hl' : c'.left = c.left)
  | send (j i : Nat) (h : c.pc = .reqSend j i) (h' : c'.pc = .reqWait j i) (hl' : c'.left = c.left)
  | take (j i : Nat) (h : c.pc = .reqWait j i) (h' : ∃ r, c'.pc = .returned r) (hl' : c'.left = c.left)

theorem own_step {cfg : Cfg ε} {s s' : State ε} {a : Action ε} {k : Nat} {c : Call ε} (h : step cfg s a = some s') (ha : Spec.Goes k a) (hk : s.calls[k]? = some c) (hcr : s'.crashed = false) :
    ∃ c', s'.calls[k]? = some c' ∧ c'.ended = c.ended ∧ Own s' c c' := by
  have hlt := (List.getElem?_eq_some_iff.1 hk).1
  have new : ∀ (s1 : State ε) (c' : Call ε), s1.calls = s.calls → (s1.setCall k c').calls[k]? = some c' := fun s1 c' h => by simp [State.setCall, h, hlt]
  unfold Node.step at h
  split at h
  · cases h
  rcases ha with rfl | ⟨b, rfl⟩ | rfl | rfl
  · simp only [hk] at h
    unfold State.callStep at h
    split at h
    · next hpc =>
      split at h
      · next hl => cases h; exact ⟨_, new _ _ rfl, rfl, .giveUp hpc hl rfl rfl⟩
      · next n hl =>
        unfold State.get at h
        simp only at h
        split at h
        · cases h
        · split at h
          · next e _ => cases h; exact ⟨_, new _ _ rfl, rfl, .get e.2 hpc rfl hl.symm⟩
          · split at h
            · split at h
              · next e _ => cases h; exact ⟨_, new _ _ (by rw [(drop_same _ _).calls]; rfl), rfl, .evict e.2 hpc rfl hl.symm⟩
              · cases h; cases hcr
            · cases h; exact ⟨_, new _ _ rfl, rfl, .get s.conns.length hpc rfl hl.symm⟩
    · next v hpc =>
      rcases closeClient_some h with rfl | h
      · exact ⟨_, new _ _ rfl, rfl, .evicting v _ hpc (.inl ⟨true, rfl⟩)⟩
      · exact ⟨c, by rw [(stepConn_same h).calls]; exact hk, rfl, .evicting v _ hpc (.inl ⟨_, hpc⟩)⟩
    · next v hpc =>
      split at h
      · cases h; exact ⟨_, new _ _ rfl, rfl, .evicting v _ hpc (.inr ⟨_, rfl⟩)⟩
      · cases h
    · next j w hpc =>
      unfold State.closeClient at h
      split at h
      · next x hx =>
        split at h
        · next hon =>
          obtain ⟨y, y', hy, hst, hs'⟩ := stepConn_some h
          rw [hx] at hy; cases hy
          refine ⟨c, by rw [(stepConn_same h).calls]; exact hk, rfl, .closing j w hpc rfl ?_⟩
          subst hs'
          refine ⟨_, List.getElem?_set_self (List.getElem?_eq_some_iff.1 hx).1, ?_⟩
          simp only [Cl.step, Cl.State.closeBegin, hon, if_true, Option.some.injEq] at hst
          subst hst; rfl
        · cases h
        · next hon => cases h; exact ⟨_, new _ _ rfl, rfl, .closed j w hpc rfl rfl ⟨x, hx, hon⟩⟩
      · cases h
    · next j w hpc =>
      split at h
      · cases h
        refine ⟨_, new _ _ rfl, rfl, .wait j w hpc ?_ rfl⟩
        simp only
        split <;> simp
      · cases h
    · next hpc => cases h; exact ⟨_, new _ _ rfl, rfl, .failing hpc rfl rfl⟩
    · next j hpc =>
      split at h
      · cases h; exact ⟨_, new _ _ rfl, rfl, .got j hpc (.inl ⟨_, rfl⟩) rfl⟩
      · next data _ =>
        cases hq : s.stepConn j (.send ⟨0, data⟩) with
        | none => rw [hq] at h; cases h
        | some s1 => rw [hq] at h; cases h; exact ⟨_, new _ _ (stepConn_same hq).calls, rfl, .got j hpc (.inl ⟨_, rfl⟩) rfl⟩
      · next data _ =>
        split at h
        · cases hq : s.stepConn j (.reqStart data) with
          | none => rw [hq] at h; cases h
          | some s1 =>
            rw [hq] at h; cases h
            split
            · exact ⟨_, new _ _ (stepConn_same hq).calls, rfl, .got j hpc (.inr ⟨_, rfl⟩) rfl⟩
            · exact ⟨_, new _ _ (stepConn_same hq).calls, rfl, .got j hpc (.inl ⟨_, rfl⟩) rfl⟩
        · cases h
    · next j i hpc =>
      cases hq : s.stepConn j (.reqSend i) with
      | none => rw [hq] at h; cases h
      | some s1 => rw [hq] at h; cases h; exact ⟨_, new _ _ (stepConn_same hq).calls, rfl, .send j i hpc rfl rfl⟩
    · cases h
  · simp only [hk] at h
    split at h
    · next j hpc =>
      split at h
      · split at h
        · split at h
          · cases h; exact ⟨_, new _ _ rfl, rfl, .select j hpc (.inl rfl) rfl⟩
          · cases h; exact ⟨_, new _ _ rfl, rfl, .select j hpc (.inr ⟨_, rfl⟩) rfl⟩
        · cases h
      · cases h
    · cases h
  · simp only [hk] at h
    split at h
    · next j i hpc =>
      split at h
      · next s1 h1 =>
        split at h
        · split at h <;> · cases h; exact ⟨_, new _ _ (stepConn_same h1).calls, rfl, .take j i hpc ⟨_, rfl⟩ rfl⟩
        · cases h
      · cases h
    · cases h
  · simp only [hk] at h
    split at h
    · next j i hpc =>
      split at h
      · cases hq : s.stepConn j (.reqCancel i) with
        | none => rw [hq] at h; cases h
        | some s1 => rw [hq] at h; cases h; exact ⟨_, new _ _ (stepConn_same hq).calls, rfl, .take j i hpc ⟨_, rfl⟩ rfl⟩
      · cases h
    · cases h

/-- Wherever a call has got past the pool, there is or was a connection to its address. -/
def Placed (s : State ε) : Prop := ∀ (k : Nat) (c : Call ε), s.calls[k]? = some c → c.waits ∨ (∃ v b, c.pc = .evict v b) ∨ ∃ j x, At s j c.addr x

theorem Placed.step {cfg : Cfg ε} {s s' : State ε} {a : Action ε} (hat : 0 < cfg.attempts) (hr : Reachable cfg s) (hc : Placed s) (h : step cfg s a = some s') (hcr : s'.crashed = false) : Placed s' := by
  have hg := step_grows h
  have hr' : Reachable cfg s' := hr.snoc h
  obtain ⟨f, hmine, -⟩ := Mine.reach hr'
  intro k c' hk'
  have keep : ∀ a, (∃ j x, At s j a x) → ∃ j x, At s' j a x := by
    rintro a ⟨j, x, hx⟩
    obtain ⟨x', hx', -⟩ := hg.at hx
    exact ⟨j, x', hx'⟩
  by_cases hlt : k < s.calls.length
  swap
  · rcases step_calls h with h1 | ⟨kd, ad, -, h1⟩ | ⟨i, c0, c2, g1, g2, -, -⟩
    · rw [h1, List.getElem?_eq_none (by omega)] at hk'; cases hk'
    · rw [h1, List.getElem?_append_right (by omega)] at hk'
      have := List.mem_of_getElem? hk'
      rw [List.mem_singleton] at this
      subst this
      exact .inl ⟨rfl, hat⟩
    · rw [g2, List.getElem?_eq_none (by simp; omega)] at hk'; cases hk'
  have hk : s.calls[k]? = some s.calls[k] := List.getElem?_eq_getElem hlt
  generalize s.calls[k] = c at hk
  obtain ⟨c2, g1, g2, g3, -⟩ := call_keeps hr h hk
  rw [hk'] at g1; cases g1
  have hgot := hmine k c' hk'
  have sel : ∀ j, c'.pc = .select j → ∃ j x, At s' j c'.addr x := fun j hj => by
    unfold Got at hgot; rw [hj] at hgot
    exact ⟨j, hgot⟩
  rcases hc k c hk with hw | hw | hw
  · rcases call_alone h hk with h1 | rfl | ha
    · rw [hk'] at h1; cases h1; exact .inl hw
    · unfold Node.step at h
      split at h
      · cases h
      simp only [hk, Option.map_some, Option.some.injEq] at h
      subst h
      simp only [State.setCall, List.getElem?_set_self hlt, Option.some.injEq] at hk'
      subst hk'
      exact .inl hw
    · obtain ⟨c2, g4, g5, ho⟩ := own_step h ha hk hcr
      rw [hk'] at g4; cases g4
      have hp := hw.1
      cases ho with
      | giveUp _ hl => have := hw.2; omega
      | get j _ h' => exact .inr (.inr (sel j h'))
      | evict v _ h' => exact .inr (.inl ⟨v, _, h'⟩)
      | evicting v b h => rw [hp] at h; cases h
      | select j h => rw [hp] at h; cases h
      | closing j w h => rw [hp] at h; cases h
      | closed j w h => rw [hp] at h; cases h
      | wait j w h => rw [hp] at h; cases h
      | failing h => rw [hp] at h; cases h
      | got j h => rw [hp] at h; cases h
      | send j i h => rw [hp] at h; cases h
      | take j i h => rw [hp] at h; cases h
  · obtain ⟨v, b, hp⟩ := hw
    rcases call_alone h hk with h1 | rfl | ha
    · rw [hk'] at h1; cases h1; exact .inr (.inl ⟨v, b, hp⟩)
    · unfold Node.step at h
      split at h
      · cases h
      simp only [hk, Option.map_some, Option.some.injEq] at h
      subst h
      simp only [State.setCall, List.getElem?_set_self hlt, Option.some.injEq] at hk'
      subst hk'
      exact .inr (.inl ⟨v, b, hp⟩)
    · obtain ⟨c2, g4, g5, ho⟩ := own_step h ha hk hcr
      rw [hk'] at g4; cases g4
      cases ho with
      | evicting v b h h' =>
        rcases h' with ⟨b', h'⟩ | ⟨j, h'⟩
        · exact .inr (.inl ⟨_, _, h'⟩)
        · exact .inr (.inr (sel j h'))
      | giveUp h => rw [hp] at h; cases h
      | get j h => rw [hp] at h; cases h
      | evict v h => rw [hp] at h; cases h
      | select j h => rw [hp] at h; cases h
      | closing j w h => rw [hp] at h; cases h
      | closed j w h => rw [hp] at h; cases h
      | wait j w h => rw [hp] at h; cases h
      | failing h => rw [hp] at h; cases h
      | got j h => rw [hp] at h; cases h
      | send j i h => rw [hp] at h; cases h
      | take j i h => rw [hp] at h; cases h
  · rw [← g3] at hw; exact .inr (.inr (keep _ hw))

/-- A node that has crashed does nothing any more. -/
theorem crashed_stuck {cfg : Cfg ε} {s s' : State ε} {a : Action ε} (h : step cfg s a = some s') : s.crashed = false := by
  unfold Node.step at h
  split at h
  · cases h
  · next hc => simpa using hc

theorem Placed.reach {cfg : Cfg ε} {s : State ε} (hat : 0 < cfg.attempts) (h : Reachable cfg s) (hcr : s.crashed = false) : Placed s :=
  h.ind (P := fun s => s.crashed = false → Placed s) (fun _ k c hk => by cases hk) (fun _ _ _ hr hc hs hcr => (hc (crashed_stuck hs)).step hat hr hs hcr) hcr

/-- A call that waits for a client to end has closed it. -/
def Waited (s : State ε) : Prop := ∀ (k : Nat) (c : Call ε), s.calls[k]? = some c → ∀ j w, c.pc = .wait j w → ∃ x : Conn ε, s.conns[j]? = some x ∧ x.c.once = .done

theorem once_stays {cfg : Cfg ε} {s s' : State ε} {a : Action ε} (h : step cfg s a = some s') {j : Nat} (hx : ∃ x : Conn ε, s.conns[j]? = some x ∧ x.c.once = .done) : ∃ x : Conn ε, s'.conns[j]? = some x ∧ x.c.once = .done := by
  obtain ⟨x, hx, ho⟩ := hx
  obtain ⟨x', hx', -, -, as, has⟩ := step_grows h j x hx
  exact ⟨x', hx', run_once has ho⟩

theorem Waited.step {cfg : Cfg ε} {s s' : State ε} {a : Action ε} (hc : Waited s) (h : step cfg s a = some s') (hcr : s'.crashed = false) : Waited s' := by
  intro k c' hk' j w hp'
  by_cases hlt : k < s.calls.length
  swap
  · rcases step_calls h with h1 | ⟨kd, ad, -, h1⟩ | ⟨i, c0, c2, g1, g2, -, -⟩
    · rw [h1, List.getElem?_eq_none (by omega)] at hk'; cases hk'
    · rw [h1, List.getElem?_append_right (by omega)] at hk'
      have := List.mem_of_getElem? hk'
      rw [List.mem_singleton] at this
      subst this
      cases hp'
    · rw [g2, List.getElem?_eq_none (by simp; omega)] at hk'; cases hk'
  have hk : s.calls[k]? = some s.calls[k] := List.getElem?_eq_getElem hlt
  generalize s.calls[k] = c at hk
  rcases call_alone h hk with h1 | rfl | ha
  · rw [hk'] at h1; cases h1; exact once_stays h (hc k _ hk j w hp')
  · have h0 := h
    unfold Node.step at h
    split at h
    · cases h
    simp only [hk, Option.map_some, Option.some.injEq] at h
    subst h
    simp only [State.setCall, List.getElem?_set_self hlt, Option.some.injEq] at hk'
    subst hk'
    exact once_stays h0 (hc k c hk j w hp')
  · obtain ⟨c2, g4, g5, ho⟩ := own_step h ha hk hcr
    rw [hk'] at g4; cases g4
    cases ho with
    | giveUp _ _ h' => rw [h'] at hp'; cases hp'
    | get _ _ h' => rw [h'] at hp'; cases hp'
    | evict _ _ h' => rw [h'] at hp'; cases hp'
    | evicting v b h h' => rcases h' with ⟨_, h'⟩ | ⟨_, h'⟩ <;> rw [h'] at hp' <;> cases hp'
    | select j h h' => rcases h' with h' | ⟨_, h'⟩ <;> rw [h'] at hp' <;> cases hp'
    | closing j w h h' => rw [h', h] at hp'; cases hp'
    | closed j w h h' _ hx => rw [h'] at hp'; cases hp'; exact hx
    | wait j w h h' => rcases h' with h' | h' <;> rw [h'] at hp' <;> cases hp'
    | failing h h' => rw [h'] at hp'; cases hp'
    | got j h h' => rcases h' with ⟨_, h'⟩ | ⟨_, h'⟩ <;> rw [h'] at hp' <;> cases hp'
    | send j i h h' => rw [h'] at hp'; cases hp'
    | take j i h h' => obtain ⟨_, h'⟩ := h'; rw [h'] at hp'; cases hp'

theorem Waited.reach {cfg : Cfg ε} {s : State ε} (h : Reachable cfg s) (hcr : s.crashed = false) : Waited s :=
  h.ind (P := fun s => s.crashed = false → Waited s) (fun _ k c hk => by cases hk) (fun _ _ _ _ hc hs hcr => (hc (crashed_stuck hs)).step hs hcr) hcr

/-- How far a call of `Request` is from its return. -/
def rank (c : Call ε) : Nat := match c.pc with
  | .get => 12 * c.left + 8
  | .select _ => 12 * c.left + 11
  | .closing _ _ => 12 * c.left + 10
  | .wait _ _ => 12 * c.left + 9
  | .evict _ _ => 0
  | .failing => 1
  | .got _ => 4
  | .reqSend _ _ => 3
  | .reqWait _ _ => 2
  | .returned _ => 0

theorem Own.rank {s' : State ε} {c c' : Call ε} (h : Own s' c c') (hn : ∀ v b, c.pc ≠ .evict v b) (hn' : ∀ v b, c'.pc ≠ .evict v b) :
    rank c' < rank c ∨ (c'.pc = c.pc ∧ c'.left = c.left ∧ ∃ j w, c.pc = .closing j w ∧ ∃ x : Conn ε, s'.conns[j]? = some x ∧ x.c.once = .running) := by
  cases h with
  | giveUp h hl h' hl' => left; simp only [Node.rank, h, h']; omega
  | get j h h' hl' => left; simp only [Node.rank, h, h']; omega
  | evict v h h' => exact (hn' _ _ h').elim
  | evicting v b h => exact (hn _ _ h).elim
  | select j h h' hl' => left; rcases h' with h' | ⟨_, h'⟩ <;> simp only [Node.rank, h, h'] <;> omega
  | closing j w h h' hx => right; exact ⟨by rw [h'], by rw [h'], j, w, h, hx⟩
  | closed j w h h' hl' => left; simp only [Node.rank, h, h']; omega
  | wait j w h h' hl' => left; rcases h' with h' | h' <;> simp only [Node.rank, h, h'] <;> omega
  | failing h h' => left; simp only [Node.rank, h, h']; omega
  | got j h h' => left; rcases h' with ⟨_, h'⟩ | ⟨_, h'⟩ <;> simp only [Node.rank, h, h'] <;> omega
  | send j i h h' => left; simp only [Node.rank, h, h']; omega
  | take j i h h' => left; obtain ⟨_, h'⟩ := h'; simp only [Node.rank, h, h']; omega

/-- When the goroutine of a call of `Request`, the context of which has ended, can go on. -/
def Ready (s : State ε) (c : Call ε) : Prop := match c.pc with
  | .get => (s.pool .outbound).lock = none
  | .evict _ _ => False
  | .closing j _ => ∃ x : Conn ε, s.conns[j]? = some x ∧ (x.c.once = .fresh ∨ x.c.once = .done)
  | .wait j _ => ∃ x : Conn ε, s.conns[j]? = some x ∧ x.c.clientDone = true
  | .returned _ => False
  | _ => True

theorem Ready.able {cfg : Cfg ε} {s : State ε} {k : Nat} {c : Call ε} {data : Bytes} (hr : Reachable cfg s) (hcr : s.crashed = false) (hk : s.calls[k]? = some c) (he : c.ended = true) (hd : c.kind = .request data)
    (h : Ready s c) : ∃ a s', Spec.Goes k a ∧ step cfg s a = some s' := by
  obtain ⟨f, hmine, -⟩ := Mine.reach hr
  have hgot := hmine k c hk
  unfold Got at hgot
  unfold Ready at h
  cases hp : c.pc with
  | get =>
    simp only [hp] at h
    refine ⟨.callStep k, ?_⟩
    simp only [Node.step, hcr, Bool.false_eq_true, if_false, hk, State.callStep, hp]
    cases hl : c.left with
    | zero => exact ⟨_, .inl rfl, rfl⟩
    | succ n =>
      simp only [State.get, h, ne_eq, not_true_eq_false, if_false]
      split
      · exact ⟨_, .inl rfl, rfl⟩
      · split
        · split <;> exact ⟨_, .inl rfl, rfl⟩
        · exact ⟨_, .inl rfl, rfl⟩
  | evict v b => simp only [hp] at h
  | select j =>
    simp only [hp] at hgot
    obtain ⟨x, hx, -⟩ := hgot
    refine ⟨.select k .ctxDone, ?_⟩
    simp only [Node.step, hcr, Bool.false_eq_true, if_false, hk, hp, hx, Callers.Branch.enabled, he, if_true, Callers.Branch.error]
    exact ⟨_, .inr (.inl ⟨_, rfl⟩), rfl⟩
  | closing j w =>
    simp only [hp] at h
    obtain ⟨x, hx, ho | ho⟩ := h
    · refine ⟨.callStep k, ?_⟩
      simp only [Node.step, hcr, Bool.false_eq_true, if_false, hk, State.callStep, hp, State.closeClient, hx, ho, State.stepConn, Cl.step, Cl.State.closeBegin, if_true, Option.map_some]
      exact ⟨_, .inl rfl, rfl⟩
    · refine ⟨.callStep k, ?_⟩
      simp only [Node.step, hcr, Bool.false_eq_true, if_false, hk, State.callStep, hp, State.closeClient, hx, ho]
      exact ⟨_, .inl rfl, rfl⟩
  | wait j w =>
    simp only [hp] at h
    obtain ⟨x, hx, ho⟩ := h
    refine ⟨.callStep k, ?_⟩
    simp only [Node.step, hcr, Bool.false_eq_true, if_false, hk, State.callStep, hp, State.isDone, hx, ho, if_true]
    exact ⟨_, .inl rfl, rfl⟩
  | failing =>
    refine ⟨.callStep k, ?_⟩
    simp only [Node.step, hcr, Bool.false_eq_true, if_false, hk, State.callStep, hp]
    exact ⟨_, .inl rfl, rfl⟩
  | got j =>
    simp only [hp] at hgot
    obtain ⟨x, ⟨hx, -⟩, -⟩ := hgot
    refine ⟨.callStep k, ?_⟩
    simp only [Node.step, hcr, Bool.false_eq_true, if_false, hk, State.callStep, hp, hd, hx, State.stepConn, Cl.step]
    rcases hnn : x.c.reqs.nextNonce x.c.calls.length with ⟨r, _ | n⟩ <;> simp only [Option.map_some] <;> exact ⟨_, .inl rfl, rfl⟩
  | reqSend j i =>
    obtain ⟨x, d, hx, hd, hst⟩ := stOf_some.1 (Asked.reach hr k c (j, i) .registered hk (by rw [hp]; rfl))
    simp only at hx hd
    refine ⟨.callStep k, ?_⟩
    simp only [Node.step, hcr, Bool.false_eq_true, if_false, hk, State.callStep, hp, State.stepConn, hx, Cl.step, hd, hst, if_true, Option.map_some]
    exact ⟨_, .inl rfl, rfl⟩
  | reqWait j i =>
    obtain ⟨x, d, hx, hd, hst⟩ := stOf_some.1 (Asked.reach hr k c (j, i) .waiting hk (by rw [hp]; rfl))
    simp only at hx hd
    refine ⟨.cancel k, ?_⟩
    simp only [Node.step, hcr, Bool.false_eq_true, if_false, hk, hp, he, State.stepConn, hx, Cl.step, hd, hst, if_true, Option.map_some]
    exact ⟨_, .inr (.inr (.inr rfl)), rfl⟩
  | returned r => simp only [hp] at h

/-- The outbound connection has ended, or at least removed itself from the pool. -/
def ended (x : Conn ε) : Bool := x.c.side = .outbound ∧ (x.c.main = .done ∨ x.c.main = .finished)

theorem ended_iff (x : Conn ε) : ended x = true ↔ x.c.side = .outbound ∧ past x.c := by simp [ended, past]

/-- The addresses that a node has ever had outbound connections to are no more than the pool may hold, and the connections that have ended. -/
theorem few_addresses {cfg : Cfg ε} {s : State ε} (h : Reachable cfg s) {L : List Text} (hn : L.Nodup) (hL : ∀ a ∈ L, ∃ j x, At s j a x) : L.length ≤ cfg.max + s.conns.countP ended := by
  obtain ⟨l, hl, hin⟩ := few_out h
  let A : List Text := l.map (fun j => ((s.conns[j]?).map Conn.addr).getD []) ++ (s.conns.filter ended).map Conn.addr
  have hsub : L ⊆ A := by
    intro a ha
    obtain ⟨j, x, hx, hxa, hxs⟩ := hL a ha
    by_cases hp : past x.c
    · refine List.mem_append_right _ (List.mem_map.2 ⟨x, List.mem_filter.2 ⟨List.mem_of_getElem? hx, (ended_iff x).2 ⟨hxs, hp⟩⟩, hxa⟩)
    · exact List.mem_append_left _ (List.mem_map.2 ⟨j, hin j x hx hxs hp, by simp [hx, hxa]⟩)
  have := (hn.subperm hsub).length_le
  simp only [A, List.length_append, List.length_map] at this
  rw [List.countP_eq_length_filter]
  omega

end Noise.Node
