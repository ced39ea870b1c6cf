import Verif.Proofs.NodeCalls
/-! # The whole node: requests under way -/
namespace Noise
variable {ε : Type}

namespace Cl

/-- The requests of a client are where they are, except through their own steps. -/
theorem st_step {s s' : State ε} {a : Action ε} {i : Nat} {c : Call} (hc : s.calls[i]? = some c) (hs : step s a = some s') (h1 : a ≠ .reqSend i) (h2 : a ≠ .reqTake i) (h3 : a ≠ .reqCancel i) :
    ∃ c', s'.calls[i]? = some c' ∧ c'.st = c.st := by
  have same : s'.calls = s.calls → ∃ c', s'.calls[i]? = some c' ∧ c'.st = c.st := fun h => ⟨c, by rw [h]; exact hc, rfl⟩
  have other : ∀ (j : Nat) (d : Call), i ≠ j → s'.calls = s.calls.set j d → ∃ c', s'.calls[i]? = some c' ∧ c'.st = c.st :=
    fun j d hij h => ⟨c, by rw [h, List.getElem?_set_ne (Ne.symm hij)]; exact hc, rfl⟩
  cases a with
  | main =>
    simp only [step, State.mainStep] at hs
    repeat' split at hs
    all_goals try (cases hs; done)
    all_goals try (injection hs with hs; subst hs; exact same rfl)
    · rename_i m _
      injection hs with hs
      unfold State.route at hs
      split at hs
      · rename_i r k hf
        subst hs
        simp only [List.getElem?_modify]
        by_cases hik : k = i
        · simp [hik, hc]
        · simp [hik, hc]
      · subst hs; exact same rfl
    · unfold State.closeBegin at hs
      repeat' split at hs
      all_goals (injection hs with hs; subst hs; exact same rfl)
  | reqStart data =>
    simp only [step] at hs
    split at hs
    · injection hs with hs; subst hs
      exact ⟨c, getElem?_append_some hc _, rfl⟩
    · injection hs with hs; subst hs; exact same rfl
  | reqSend j =>
    have hij : i ≠ j := fun h => h1 (by rw [h])
    simp only [step] at hs
    repeat' split at hs
    all_goals try (cases hs; done)
    all_goals (injection hs with hs; subst hs; exact other j _ hij rfl)
  | reqTake j =>
    have hij : i ≠ j := fun h => h2 (by rw [h])
    simp only [step] at hs
    repeat' split at hs
    all_goals try (cases hs; done)
    all_goals (injection hs with hs; subst hs; exact other j _ hij rfl)
  | reqCancel j =>
    have hij : i ≠ j := fun h => h3 (by rw [h])
    simp only [step] at hs
    repeat' split at hs
    all_goals try (cases hs; done)
    all_goals (injection hs with hs; subst hs; exact other j _ hij rfl)
  | _ =>
    simp only [step, State.writerStep, State.closeBegin, State.closeConn] at hs
    repeat' split at hs
    all_goals try (cases hs; done)
    all_goals (injection hs with hs; subst hs; exact same rfl)

end Cl

namespace Node

/-- Where request `i` of client `j` is. -/
def State.stOf (s : State ε) (j i : Nat) : Option Cl.CallSt := (s.conns[j]?).bind fun x => (x.c.calls[i]?).map fun c => c.st

theorem stOf_some {s : State ε} {j i : Nat} {st : Cl.CallSt} : s.stOf j i = some st ↔ ∃ x c, s.conns[j]? = some x ∧ x.c.calls[i]? = some c ∧ c.st = st := by
  unfold State.stOf
  constructor
  · intro h
    obtain ⟨x, h1, h2⟩ := Option.bind_eq_some_iff.1 h
    obtain ⟨c, h3, h4⟩ := Option.map_eq_some_iff.1 h2
    exact ⟨x, c, h1, h3, h4⟩
  · rintro ⟨x, c, h1, h2, h3⟩
    simp [h1, h2, h3]

/-- Requests other than `p` are where they were. -/
def Still (p : Option (Nat × Nat)) (s s' : State ε) : Prop := ∀ j i st, p ≠ some (j, i) → s.stOf j i = some st → s'.stOf j i = some st

theorem Still.refl (p : Option (Nat × Nat)) (s : State ε) : Still p s s := fun _ _ _ _ h => h
theorem Still.of_eq {p : Option (Nat × Nat)} {s s' : State ε} (h : s'.conns = s.conns) : Still p s s' := fun j i st _ hs => by unfold State.stOf at hs ⊢; rw [h]; exact hs
theorem Still.trans {p : Option (Nat × Nat)} {s s1 s2 : State ε} (h1 : Still p s s1) (h2 : Still p s1 s2) : Still p s s2 := fun j i st hp h => h2 j i st hp (h1 j i st hp h)

theorem Still.set {p : Option (Nat × Nat)} {s s' : State ε} {j : Nat} {x x' : Conn ε} {a : Cl.Action ε} (hx : s.conns[j]? = some x) (h : s'.conns = s.conns.set j x') (hc : Cl.step x.c a = some x'.c)
    (ha : ∀ i, p ≠ some (j, i) → a ≠ .reqSend i ∧ a ≠ .reqTake i ∧ a ≠ .reqCancel i) : Still p s s' := by
  intro j' i st hp hs
  rw [stOf_some] at hs ⊢
  obtain ⟨y, c, h1, h2, h3⟩ := hs
  rw [h]
  by_cases hj : j' = j
  · subst hj
    rw [hx] at h1; cases h1
    obtain ⟨c', h4, h5⟩ := Cl.st_step h2 hc (ha i hp).1 (ha i hp).2.1 (ha i hp).2.2
    exact ⟨x', c', List.getElem?_set_self (List.getElem?_eq_some_iff.1 hx).1, h4, h5.trans h3⟩
  · exact ⟨y, c, by rw [List.getElem?_set_ne (Ne.symm hj)]; exact h1, h2, h3⟩

theorem Still.push {p : Option (Nat × Nat)} {s s' : State ε} {y : Conn ε} (h : s'.conns = s.conns ++ [y]) : Still p s s' := by
  intro j i st _ hs
  rw [stOf_some] at hs ⊢
  obtain ⟨x, c, h1, h2, h3⟩ := hs
  exact ⟨x, c, by rw [h, List.getElem?_append_left (List.getElem?_eq_some_iff.1 h1).1]; exact h1, h2, h3⟩

/-- The request that an action of a client is about. -/
def about (j : Nat) : Cl.Action ε → Option (Nat × Nat)
  | .reqSend i | .reqTake i | .reqCancel i => some (j, i)
  | _ => none

theorem about_ne {j i : Nat} {a : Cl.Action ε} (h : about j a ≠ some (j, i)) : a ≠ .reqSend i ∧ a ≠ .reqTake i ∧ a ≠ .reqCancel i := by
  refine ⟨?_, ?_, ?_⟩ <;> rintro rfl <;> exact h rfl

theorem stepConn_still {s s' : State ε} {j : Nat} {a : Cl.Action ε} (h : s.stepConn j a = some s') : Still (about j a) s s' := by
  obtain ⟨x, c, hx, hc, rfl⟩ := stepConn_some h
  exact Still.set (x' := { x with c := c }) hx rfl hc fun i hp => about_ne hp

theorem drop_still (s : State ε) (j : Nat) : Still none s (s.drop j) := by
  unfold State.drop
  cases h : s.stepConn j .poolDrop with
  | none => exact .refl _ _
  | some s' => exact stepConn_still h

theorem drops_still (l : List Nat) (s : State ε) : Still none s (l.foldl State.drop s) := by
  induction l generalizing s with
  | nil => exact .refl _ _
  | cons j l ih => exact (drop_still s j).trans (ih _)

theorem closeClient_still {s s1 s' : State ε} {j : Nat} (h : s.closeClient j s1 = some s') (h1 : s1.conns = s.conns) : Still none s s' := by
  rcases closeClient_some h with rfl | h
  · exact .of_eq h1
  · exact stepConn_still h

theorem get_still {max : Nat} {s s' : State ε} {d : Cl.Side} {t : Tid} {a : Text} {found added evicts : State ε → Nat → State ε} (h : s.get max d t a found added evicts = some s')
    (hf : ∀ s j, (found s j).conns = s.conns) (ha : ∀ s j, (added s j).conns = s.conns) (he : ∀ s j, (evicts s j).conns = s.conns) : Still none s s' := by
  unfold State.get at h
  simp only at h
  split at h
  · cases h
  · split at h
    · cases h; exact .of_eq (hf _ _)
    · split at h
      · split at h
        · cases h
          exact Still.trans (s1 := s.setPool d _) (.of_eq rfl) ((drop_still _ _).trans (.of_eq (he _ _)))
        · cases h; exact .of_eq rfl
      · cases h
        exact Still.trans (s1 := s.push d a) (.push rfl) (.of_eq (ha _ _))

theorem acceptStep_still {cfg : Cfg ε} {s s' : State ε} (h : s.acceptStep cfg = some s') : Still none s s' := by
  unfold State.acceptStep at h
  split at h
  · cases h; exact .of_eq rfl
  · exact get_still h (fun _ _ => rfl) (fun _ _ => rfl) (fun _ _ => rfl)
  · exact closeClient_still h rfl
  · split at h
    · cases h; exact .push (y := _) rfl
    · cases h
  · split at h
    · cases h; exact .of_eq rfl
    · cases h
  · cases h; exact .of_eq rfl
  · exact closeClient_still h rfl
  · split at h
    · cases h; exact .of_eq rfl
    · cases h
  · split at h
    · next w hw =>
      cases hq : Wk.step w .closeQueue with
      | none => rw [hq] at h; cases h
      | some w' => rw [hq] at h; cases h; exact .of_eq rfl
    · cases h
  · split at h
    · split at h
      · cases h; exact .of_eq rfl
      · cases h
    · cases h
  · cases h; exact .of_eq rfl
  · cases h; exact .of_eq rfl
  · cases h

theorem remove_still {s s' : State ε} {j : Nat} {x : Conn ε} (h : s.remove j x = some s') : Still none s s' := by
  unfold State.remove at h
  simp only at h
  split at h
  · cases h
  · split at h
    · next s1 h1 =>
      have hs1 := stepConn_still h1
      split at h
      · cases h
        exact (hs1.trans (s2 := s1.setPool x.c.side _) (.of_eq rfl)).trans (drop_still _ _)
      · cases h; exact hs1.trans (.of_eq rfl)
    · cases h

theorem connStep_still {s s' : State ε} {j : Nat} {a : Cl.Action ε} (h : s.connStep j a = some s') : Still none s s' := by
  unfold State.connStep at h
  split at h
  · next x hx =>
    split at h
    · split at h
      · exact remove_still h
      · unfold State.route at h
        cases hc : Cl.step x.c .main with
        | none => rw [hc] at h; cases h
        | some c => rw [hc] at h; cases h; exact Still.set (a := .main) hx rfl hc fun i _ => ⟨by simp, by simp, by simp⟩
      · exact stepConn_still h
    · unfold State.deliver at h
      split at h
      · split at h
        · cases h
        · split at h
          · cases h
          · split at h
            · cases h; exact .of_eq rfl
            · split at h
              · cases hq : s.stepConn j .deliver with
                | none => rw [hq] at h; cases h
                | some s1 => rw [hq] at h; cases h; exact (stepConn_still hq).trans (.of_eq rfl)
              · cases h
      · cases h
    all_goals try (cases h)
    next hns hrs hrq hrt hrc hhe hcb hpd =>
      have := stepConn_still h
      unfold about at this
      split at this
      · exact absurd rfl (hrq _)
      · exact absurd rfl (hrt _)
      · exact absurd rfl (hrc _)
      · exact this
  · cases h

theorem workStep_still {s s' : State ε} {w : Nat} (h : s.workStep w = some s') : Still none s s' := by
  unfold State.workStep at h
  split at h
  · next q hq =>
    simp only at h
    cases hn : Wk.step q (.work w) with
    | none => rw [hn] at h; split at h <;> simp_all
    | some q' =>
      rw [hn] at h
      split at h
      · split at h
        · next heq =>
          cases heq
          exact Still.trans (s1 := { s with wk := some q' }) (.of_eq rfl) (stepConn_still h)
        · cases h
      · split at h
        · next heq =>
          cases heq
          exact closeClient_still h rfl
        · cases h
      · cases h; exact .of_eq rfl
  · cases h

theorem ctxSend_still {s s' : State ε} {k h : Nat} {data : Bytes} (hs : s.ctxSend k h data = some s') : Still none s s' := by
  unfold State.ctxSend at hs
  split at hs
  · split at hs
    · split at hs
      · cases hs; exact .of_eq rfl
      · next q' it _ _ _ => exact Still.trans (s1 := { s with wk := some q' }) (.of_eq rfl) (stepConn_still hs)
    · cases hs
  · cases hs

/-- The request that a call waits for, and where that request is. -/
def Pc.ask : Pc ε → Option ((Nat × Nat) × Cl.CallSt)
  | .reqSend j i => some ((j, i), .registered)
  | .reqWait j i => some ((j, i), .waiting)
  | _ => none

/-- The requests of the calls are where the calls think they are. -/
def Asked (s : State ε) : Prop := ∀ (k : Nat) (c : Call ε) (p : Nat × Nat) (st : Cl.CallSt), s.calls[k]? = some c → c.pc.ask = some (p, st) → s.stOf p.1 p.2 = some st

theorem Asked.still {s s' : State ε} (h : Asked s) (hc : s'.calls = s.calls) (hs : Still none s s') : Asked s' := fun k c p st hk hp => by
  rw [hc] at hk; exact hs _ _ _ (by simp) (h k c p st hk hp)

theorem Asked.set {s s' : State ε} {k : Nat} {c c' : Call ε} {p : Option (Nat × Nat)} (h : Asked s) (hk : s.calls[k]? = some c) (hc : s'.calls = s.calls.set k c') (hs : Still p s s')
    (hp : ∀ q, p = some q → ∃ st, c.pc.ask = some (q, st)) (hne : ∀ k' c1 q st st', s.calls[k']? = some c1 → c1.pc.ask = some (q, st) → c.pc.ask = some (q, st') → k' = k)
    (hn : ∀ q st, c'.pc.ask = some (q, st) → s'.stOf q.1 q.2 = some st) : Asked s' := by
  intro k' c1 q st hk' hq
  rw [hc] at hk'
  by_cases hkk : k' = k
  · subst hkk
    rw [List.getElem?_set_self (List.getElem?_eq_some_iff.1 hk).1] at hk'
    cases hk'
    exact hn q st hq
  · rw [List.getElem?_set_ne (Ne.symm hkk)] at hk'
    refine hs _ _ _ (fun e => ?_) (h k' c1 q st hk' hq)
    obtain ⟨st', h1⟩ := hp q e
    exact hkk (hne k' c1 q st st' hk' hq h1)

/-- No two calls have the same request. -/
theorem ask_unique {cfg : Cfg ε} {s : State ε} (h : Reachable cfg s) {k k' : Nat} {c c' : Call ε} {q : Nat × Nat} {st st' : Cl.CallSt} (hk : s.calls[k]? = some c) (hk' : s.calls[k']? = some c')
    (h1 : c.pc.ask = some (q, st)) (h2 : c'.pc.ask = some (q, st')) : k = k' := by
  obtain ⟨f, hf, hinj⟩ := Mine.reach h
  have key : ∀ (k : Nat) (c : Call ε) (st : Cl.CallSt), s.calls[k]? = some c → c.pc.ask = some (q, st) → f k = q ∧ c.pc.asks = true := by
    intro k c st hk h1
    have hg := hf k c hk
    unfold Got at hg
    cases hpc : c.pc with
    | reqSend j i => rw [hpc] at hg h1; cases h1; exact ⟨hg.1.symm, rfl⟩
    | reqWait j i => rw [hpc] at hg h1; cases h1; exact ⟨hg.1.symm, rfl⟩
    | _ => rw [hpc] at h1; cases h1
  obtain ⟨e1, a1⟩ := key k c st hk h1
  obtain ⟨e2, a2⟩ := key k' c' st' hk' h2
  exact hinj k k' c c' hk hk' a1 a2 (e1.trans e2.symm)

theorem callStep_asked {cfg : Cfg ε} {s s' : State ε} {k : Nat} {c : Call ε} (hr : Reachable cfg s) (hi : Asked s) (hk : s.calls[k]? = some c) (h : s.callStep cfg k c = some s') : Asked s' := by
  have hne : ∀ (k' : Nat) (c1 : Call ε) (q : Nat × Nat) (st st' : Cl.CallSt), s.calls[k']? = some c1 → c1.pc.ask = some (q, st) → c.pc.ask = some (q, st') → k' = k :=
    fun k' c1 q st st' hk' h1 h2 => ask_unique hr hk' hk h1 h2
  have quiet : ∀ c' : Call ε, c'.pc.ask = none → s'.calls = s.calls.set k c' → Still none s s' → Asked s' :=
    fun c' hc' hcalls hs => hi.set hk hcalls hs (by simp) hne (fun q st hq => by rw [hc'] at hq; cases hq)
  unfold State.callStep at h
  split at h
  · next hpc =>
    split at h
    · cases h; exact quiet _ rfl rfl (.of_eq rfl)
    · next n hl =>
      have hst : Still none s s' := get_still h (fun _ _ => rfl) (fun _ _ => rfl) (fun _ _ => rfl)
      refine get_pres (Q := fun s'' => Still none s s'' → Asked s'') h (fun hs => hi.still rfl hs) (fun conns pool j => ⟨fun hs => ?_, fun hs => ?_, fun hs => ?_⟩) hst
      all_goals exact hi.set hk rfl hs (by simp) hne (fun q st hq => by simp [Pc.ask] at hq)
  · rcases closeClient_some h with rfl | h
    · exact quiet _ rfl rfl (.of_eq rfl)
    · exact hi.still (stepConn_same h).calls (stepConn_still h)
  · split at h
    · cases h
      exact quiet _ rfl rfl (.push (y := _) rfl)
    · cases h
  · rcases closeClient_some h with rfl | h
    · exact quiet _ rfl rfl (.of_eq rfl)
    · exact hi.still (stepConn_same h).calls (stepConn_still h)
  · split at h
    · cases h
      refine quiet _ ?_ rfl (.of_eq rfl)
      simp only
      split <;> rfl
    · cases h
  · cases h; exact quiet _ rfl rfl (.of_eq rfl)
  · next j hpc =>
    split at h
    · cases h; exact quiet _ rfl rfl (.of_eq rfl)
    · next data _ =>
      cases hq : s.stepConn j (.send ⟨0, data⟩) with
      | none => rw [hq] at h; cases h
      | some s1 =>
        rw [hq] at h; cases h
        exact quiet { c with pc := .returned .sent } rfl (by simp only [State.setCall, (stepConn_same hq).calls]) ((stepConn_still hq).trans (.of_eq rfl))
    · next data _ =>
      split at h
      · next x hx =>
        cases hq : s.stepConn j (.reqStart data) with
        | none => rw [hq] at h; cases h
        | some s1 =>
          rw [hq] at h; cases h
          split
          · next n hn =>
            refine hi.set (c' := { c with pc := .reqSend j x.c.calls.length }) hk (by simp only [State.setCall, (stepConn_same hq).calls]) ((stepConn_still hq).trans (.of_eq rfl)) (by simp [about]) hne ?_
            intro q st hq'
            simp only [Pc.ask, Option.some.injEq, Prod.mk.injEq] at hq'
            obtain ⟨rfl, rfl⟩ := hq'
            obtain ⟨y, cc, hy, hcc, rfl⟩ := stepConn_some hq
            rw [hx] at hy; cases hy
            simp only [Cl.step] at hcc
            split at hcc
            · next r n' hr' =>
              cases hcc
              rw [stOf_some]
              exact ⟨_, ⟨n', data, .registered, none⟩, List.getElem?_set_self (List.getElem?_eq_some_iff.1 hx).1, by simp, rfl⟩
            · next hr' => rw [hr'] at hn; cases hn
          · exact hi.set (c' := { c with pc := .returned .noNonce }) hk (by simp only [State.setCall, (stepConn_same hq).calls]) ((stepConn_still hq).trans (.of_eq rfl)) (by simp [about]) hne (fun q st hq' => by simp [Pc.ask] at hq')
      · cases h
  · next j i hpc =>
    cases hq : s.stepConn j (.reqSend i) with
    | none => rw [hq] at h; cases h
    | some s1 =>
      rw [hq] at h; cases h
      refine hi.set (c' := { c with pc := .reqWait j i }) hk (by simp only [State.setCall, (stepConn_same hq).calls]) ((stepConn_still hq).trans (.of_eq rfl)) ?_ hne ?_
      · intro q e
        simp only [about, Option.some.injEq] at e
        subst e
        exact ⟨_, by rw [hpc]; rfl⟩
      · intro q st hq'
        simp only [Pc.ask, Option.some.injEq, Prod.mk.injEq] at hq'
        obtain ⟨rfl, rfl⟩ := hq'
        obtain ⟨x, cc, hx, hcc, rfl⟩ := stepConn_some hq
        simp only [Cl.step] at hcc
        split at hcc
        · next d hd =>
          split at hcc
          · cases hcc
            rw [stOf_some]
            exact ⟨_, { d with st := .waiting }, List.getElem?_set_self (List.getElem?_eq_some_iff.1 hx).1, by simp [Cl.State.setCall, Cl.State.send, (List.getElem?_eq_some_iff.1 hd).1], rfl⟩
          · cases hcc
        · cases hcc
  · cases h

theorem Asked.step {cfg : Cfg ε} {s s' : State ε} {a : Action ε} (hr : Reachable cfg s) (hi : Asked s) (h : step cfg s a = some s') : Asked s' := by
  have hne : ∀ {k : Nat} {c : Call ε}, s.calls[k]? = some c → ∀ (k' : Nat) (c1 : Call ε) (q : Nat × Nat) (st st' : Cl.CallSt), s.calls[k']? = some c1 → c1.pc.ask = some (q, st) → c.pc.ask = some (q, st') → k' = k :=
    fun hk k' c1 q st st' hk' h1 h2 => ask_unique hr hk' hk h1 h2
  have hi' := hi
  unfold Node.step at h
  split at h
  · cases h
  cases a with
  | call kind addr =>
    cases h
    intro k c p st hk hp
    simp only at hk
    by_cases hlt : k < s.calls.length
    · rw [List.getElem?_append_left hlt] at hk; exact hi k c p st hk hp
    · rw [List.getElem?_append_right (by omega)] at hk
      have hm := List.mem_of_getElem? hk
      simp only [List.mem_singleton] at hm
      rw [hm] at hp; cases hp
  | expire k =>
    simp only at h
    cases hc : s.calls[k]? with
    | none => rw [hc] at h; cases h
    | some c =>
      rw [hc] at h; cases h
      exact hi.set (p := none) hc rfl (.of_eq rfl) (by simp) (hne hc) (fun q st hq => hi k c q st hc hq)
  | callStep k =>
    simp only at h
    split at h
    · next c hc => exact callStep_asked hr hi hc h
    · cases h
  | select k b =>
    simp only at h
    split at h
    swap
    · cases h
    next c hc =>
    split at h
    swap
    · cases h
    split at h
    swap
    · cases h
    split at h
    swap
    · cases h
    split at h <;> (cases h; exact hi.set (p := none) hc rfl (.of_eq rfl) (by simp) (hne hc) (fun q st hq => by simp [Pc.ask] at hq))
  | take k =>
    simp only at h
    split at h
    swap
    · cases h
    next c hc =>
    split at h
    swap
    · cases h
    next j i hpc =>
    split at h
    swap
    · cases h
    next s1 hq =>
    split at h
    swap
    · cases h
    have hst := stepConn_still hq
    have hp : ∀ q, about j (.reqTake i : Cl.Action ε) = some q → ∃ st, c.pc.ask = some (q, st) := by
      intro q e
      simp only [about, Option.some.injEq] at e
      subst e
      exact ⟨_, by rw [hpc]; rfl⟩
    split at h
    · next m _ _ =>
      cases h
      exact hi.set (c' := { c with pc := .returned (.response m) }) hc (by simp only [State.setCall, (stepConn_same hq).calls]) (hst.trans (.of_eq rfl)) hp (hne hc) (fun q st hq => by simp [Pc.ask] at hq)
    · cases h
      exact hi.set (c' := { c with pc := .returned .eof }) hc (by simp only [State.setCall, (stepConn_same hq).calls]) (hst.trans (.of_eq rfl)) hp (hne hc) (fun q st hq => by simp [Pc.ask] at hq)
  | cancel k =>
    simp only at h
    split at h
    swap
    · cases h
    next c hc =>
    split at h
    swap
    · cases h
    next j i hpc =>
    split at h
    swap
    · cases h
    cases hq : s.stepConn j (.reqCancel i) with
    | none => rw [hq] at h; cases h
    | some s1 =>
      rw [hq] at h; cases h
      refine hi.set (c' := { c with pc := .returned .cancelled }) hc (by simp only [State.setCall, (stepConn_same hq).calls]) ((stepConn_still hq).trans (.of_eq rfl)) ?_ (hne hc) (fun q st hq => by simp [Pc.ask] at hq)
      intro q e
      simp only [about, Option.some.injEq] at e
      subst e
      exact ⟨_, by rw [hpc]; rfl⟩
  | listen => simp only at h; split at h; cases h; exact hi.still rfl (.of_eq rfl); cases h
  | acceptConn a => simp only at h; split at h; cases h; exact hi.still rfl (.of_eq rfl); cases h
  | acceptFail => simp only at h; split at h; cases h; exact hi.still rfl (.of_eq rfl); cases h
  | acceptStep => exact hi.still (acceptStep_calls h) (acceptStep_still h)
  | acceptRelease l =>
    simp only at h
    split at h
    · split at h
      · cases h; exact hi.still (drops_same l s).calls ((drops_still l s).trans (.of_eq rfl))
      · cases h
    · cases h
  | close => simp only at h; split at h <;> · cases h; exact hi.still rfl (.of_eq rfl)
  | closeListener c => simp only at h; split at h; cases h; exact hi.still rfl (.of_eq rfl); cases h
  | closeRecv c =>
    simp only at h
    split at h
    · split at h
      · cases h; exact hi.still rfl (.of_eq rfl)
      · split at h
        · cases h; exact hi.still rfl (.of_eq rfl)
        · cases h
    · cases h
  | list side => simp only at h; split at h; cases h; exact hi.still rfl (.of_eq rfl); cases h
  | appClose j => exact hi.still (stepConn_same h).calls (stepConn_still h)
  | conn j act => exact hi.still (connStep_calls h) (connStep_still h)
  | work w => exact hi.still (workStep_calls h) (workStep_still h)
  | handlerReturn w r =>
    simp only at h
    split at h
    · next q hq =>
      cases hn : Wk.step q (.handlerReturn w r) with
      | none => rw [hn] at h; cases h
      | some q' => rw [hn] at h; cases h; exact hi.still rfl (.of_eq rfl)
    · cases h
  | ctxSend k h' data => exact hi.still (ctxSend_calls h) (ctxSend_still h)

theorem Asked.reach {cfg : Cfg ε} {s : State ε} (h : Reachable cfg s) : Asked s :=
  (h.inv (P := fun s => Reachable cfg s ∧ Asked s) (fun _ _ _ ⟨h1, h2⟩ hs => ⟨h1.snoc hs, h2.step h1 hs⟩) ⟨.refl _, fun k c p st hk => by simp [State.new] at hk⟩).2


/-- How a call goes on: its context stays ended, a call that has returned has returned, and a call with a request has that request until it returns. -/
structure Next (c c' : Call ε) : Prop where
  ended : c.ended = true → c'.ended = true
  returned : ∀ r, c.pc = .returned r → c'.pc = .returned r
  ask : ∀ p st, c.pc.ask = some (p, st) → (∃ st', c'.pc.ask = some (p, st')) ∨ ∃ r, c'.pc = .returned r

theorem Next.refl (c : Call ε) : Next c c := ⟨id, fun _ h => h, fun _ st h => .inl ⟨st, h⟩⟩

/-- What a step does to the calls. -/
def CallsNext (s s' : State ε) : Prop :=
  s'.calls = s.calls ∨ (∃ c, s'.calls = s.calls ++ [c]) ∨ ∃ (k : Nat) (c c' : Call ε), s.calls[k]? = some c ∧ s'.calls = s.calls.set k c' ∧ Next c c'

theorem CallsNext.set {s s1 : State ε} {k : Nat} {c c' : Call ε} (hc : s.calls[k]? = some c) (h1 : s1.calls = s.calls) (h : Next c c') : CallsNext s (s1.setCall k c') :=
  .inr (.inr ⟨k, c, c', hc, by simp [State.setCall, h1], h⟩)

theorem Next.early {c c' : Call ε} (he : c'.ended = c.ended) (h1 : ∀ r, c.pc ≠ .returned r) (h2 : c.pc.ask = none) : Next c c' :=
  ⟨fun h => he.trans h, fun r h => absurd h (h1 r), fun p st h => by rw [h2] at h; cases h⟩

theorem closeClient_next {s s1 s' : State ε} {j : Nat} (h : s.closeClient j s1 = some s') (hk : CallsNext s s1) : CallsNext s s' := by
  rcases closeClient_some h with rfl | h
  · exact hk
  · exact .inl (stepConn_same h).calls

theorem callStep_next {cfg : Cfg ε} {s s' : State ε} {k : Nat} {c : Call ε} (hc : s.calls[k]? = some c) (h : s.callStep cfg k c = some s') : CallsNext s s' := by
  unfold State.callStep at h
  split at h
  · next hpc =>
    have he : ∀ c' : Call ε, c'.ended = c.ended → Next c c' := fun c' h => .early h (by simp [hpc]) (by simp [hpc, Pc.ask])
    split at h
    · next hl => cases h; exact .set hc rfl (he _ rfl)
    · next n hl =>
      refine get_pres (Q := fun s' => CallsNext s s') h (.inl rfl) (fun _ _ _ => ?_)
      exact ⟨.inr (.inr ⟨k, c, _, hc, rfl, he _ rfl⟩), .inr (.inr ⟨k, c, _, hc, rfl, he _ rfl⟩), .inr (.inr ⟨k, c, _, hc, rfl, he _ rfl⟩)⟩
  · next hpc => exact closeClient_next h (.set hc rfl (.early rfl (by simp [hpc]) (by simp [hpc, Pc.ask])))
  · next hpc =>
    split at h
    · cases h; exact .set (s1 := s.evicted .outbound c.addr) hc rfl (.early rfl (by simp [hpc]) (by simp [hpc, Pc.ask]))
    · cases h
  · next hpc => exact closeClient_next h (.set hc rfl (.early rfl (by simp [hpc]) (by simp [hpc, Pc.ask])))
  · next hpc =>
    split at h
    · cases h; exact .set hc rfl (.early rfl (by simp [hpc]) (by simp [hpc, Pc.ask]))
    · cases h
  · next hpc => cases h; exact .inr (.inr ⟨k, c, _, hc, rfl, .early rfl (by simp [hpc]) (by simp [hpc, Pc.ask])⟩)
  · next j hpc =>
    split at h
    · cases h; exact .set hc rfl (.early rfl (by simp [hpc]) (by simp [hpc, Pc.ask]))
    · next data _ =>
      cases hq : s.stepConn j (.send ⟨0, data⟩) with
      | none => rw [hq] at h; cases h
      | some s1 => rw [hq] at h; cases h; exact .set hc (stepConn_same hq).calls (.early rfl (by simp [hpc]) (by simp [hpc, Pc.ask]))
    · next data _ =>
      split at h
      · cases hq : s.stepConn j (.reqStart data) with
        | none => rw [hq] at h; cases h
        | some s1 =>
          rw [hq] at h; cases h
          split <;> exact .set hc (stepConn_same hq).calls (.early rfl (by simp [hpc]) (by simp [hpc, Pc.ask]))
      · cases h
  · next j i hpc =>
    cases hq : s.stepConn j (.reqSend i) with
    | none => rw [hq] at h; cases h
    | some s1 =>
      rw [hq] at h; cases h
      refine .set hc (stepConn_same hq).calls ⟨id, fun r h => by simp [hpc] at h, fun p st h => .inl ⟨.waiting, ?_⟩⟩
      simp only [hpc, Pc.ask, Option.some.injEq, Prod.mk.injEq] at h ⊢
      exact ⟨h.1, trivial⟩
  · cases h

theorem step_next {cfg : Cfg ε} {s s' : State ε} {a : Action ε} (h : step cfg s a = some s') : CallsNext s s' := by
  unfold Node.step at h
  split at h
  · cases h
  · cases a with
    | listen => simp only at h; split at h; cases h; exact .inl rfl; cases h
    | acceptConn a => simp only at h; split at h; cases h; exact .inl rfl; cases h
    | acceptFail => simp only at h; split at h; cases h; exact .inl rfl; cases h
    | acceptStep => exact .inl (acceptStep_calls h)
    | acceptRelease l =>
      simp only at h
      split at h
      · split at h
        · cases h; exact .inl (drops_same l s).calls
        · cases h
      · cases h
    | close => simp only at h; split at h <;> · cases h; exact .inl rfl
    | closeListener c => simp only at h; split at h; cases h; exact .inl rfl; cases h
    | closeRecv c =>
      simp only at h
      split at h
      · split at h
        · cases h; exact .inl rfl
        · split at h
          · cases h; exact .inl rfl
          · cases h
      · cases h
    | list side => simp only at h; split at h; cases h; exact .inl rfl; cases h
    | appClose j => exact .inl (stepConn_same h).calls
    | call kind addr => cases h; exact .inr (.inl ⟨_, rfl⟩)
    | expire k =>
      simp only at h
      cases hc : s.calls[k]? with
      | none => rw [hc] at h; cases h
      | some c =>
        rw [hc] at h; cases h
        exact .inr (.inr ⟨k, c, _, hc, rfl, ⟨fun _ => rfl, fun _ h => h, fun _ st h => .inl ⟨st, h⟩⟩⟩)
    | callStep k =>
      simp only at h
      split at h
      · next c hc => exact callStep_next hc h
      · cases h
    | select k b =>
      simp only at h
      split at h
      · next c hc =>
        split at h
        · next j hpc =>
          split at h
          · split at h
            · split at h <;> · cases h; exact .set hc rfl (.early rfl (by simp [hpc]) (by simp [hpc, Pc.ask]))
            · cases h
          · cases h
        · cases h
      · cases h
    | take k =>
      simp only at h
      split at h
      · next c hc =>
        split at h
        · next j i hpc =>
          split at h
          · next s1 h1 =>
            split at h
            · split at h <;> · cases h; exact .set hc (stepConn_same h1).calls ⟨id, fun r h => by simp [hpc] at h, fun p st h => .inr ⟨_, rfl⟩⟩
            · cases h
          · cases h
        · cases h
      · cases h
    | cancel k =>
      simp only at h
      split at h
      · next c hc =>
        split at h
        · next j i hpc =>
          split at h
          · cases hq : s.stepConn j (.reqCancel i) with
            | none => rw [hq] at h; cases h
            | some s1 => rw [hq] at h; cases h; exact .set hc (stepConn_same hq).calls ⟨id, fun r h => by simp [hpc] at h, fun p st h => .inr ⟨_, rfl⟩⟩
          · cases h
        · cases h
      · cases h
    | conn j act => exact .inl (connStep_calls h)
    | work w => exact .inl (workStep_calls h)
    | handlerReturn w r =>
      simp only at h
      split at h
      · next q hq =>
        cases hn : Wk.step q (.handlerReturn w r) with
        | none => rw [hn] at h; cases h
        | some q' => rw [hn] at h; cases h; exact .inl rfl
      · cases h
    | ctxSend k h' data => exact .inl (ctxSend_calls h)

theorem next_step {cfg : Cfg ε} {s s' : State ε} {a : Action ε} {k : Nat} {c : Call ε} (h : step cfg s a = some s') (hc : s.calls[k]? = some c) : ∃ c', s'.calls[k]? = some c' ∧ Next c c' := by
  have hlt := (List.getElem?_eq_some_iff.1 hc).1
  rcases step_next h with h | ⟨c1, h⟩ | ⟨i, c0, c', h1, h2, h4⟩
  · exact ⟨c, by rw [h]; exact hc, .refl c⟩
  · exact ⟨c, by rw [h, List.getElem?_append_left hlt]; exact hc, .refl c⟩
  · by_cases hi : i = k
    · subst hi
      rw [hc] at h1; cases h1
      exact ⟨c', by rw [h2]; simp [hlt], h4⟩
    · exact ⟨c, by rw [h2, List.getElem?_set_ne hi]; exact hc, .refl c⟩

end Node
end Noise
