import Verif.Proofs.NetConn
/-! # Fair executions of a network: calls -/
namespace Noise
open Spec
variable {ε : Type}

namespace Wk

theorem about_rn (f : Nat → Nat) (k : Nat) (e : Event ε) : about k (e.rn f) = about k e := by cases e <;> rfl

theorem handlingOf_rn (f : Nat → Nat) (k : Nat) (l : List (Event ε)) : handlingOf k (l.map (Event.rn f)) = handlingOf k l := by
  unfold handlingOf
  rw [List.filter_map]
  have : (about k ∘ Event.rn f : Event ε → Bool) = about k := by funext e; exact about_rn f k e
  rw [this]
  refine (List.map_congr_left fun e he => ?_).trans (List.map_id _)
  have := (List.mem_filter.1 he).2
  cases e <;> first | rfl | cases this

theorem respondersOf_rn (f : Nat → Nat) (k : Nat) (l : List (Event ε)) : respondersOf k (l.map (Event.rn f)) = respondersOf k l := by
  unfold respondersOf
  rw [List.filterMap_map]
  congr 1
  funext e
  cases e <;> rfl

end Wk

namespace Node

/-- A call with a request under way keeps it until it returns a response, unless its context ends. -/
theorem asks_step {cfg : Cfg ε} {s s' : State ε} {a : Action ε} {k j q : Nat} {c : Call ε} {st : Cl.CallSt} (hr : Reachable cfg s) (h : step cfg s a = some s') (hk : s.calls[k]? = some c)
    (hq : c.pc.ask = some ((j, q), st)) (he : c.ended = false) :
    ∃ c', s'.calls[k]? = some c' ∧ ((∃ st', c'.pc.ask = some ((j, q), st')) ∨ ∃ m, c'.pc = .returned (.response m) ∧ ∃ x d, s'.conns[j]? = some x ∧ x.c.calls[q]? = some d ∧ d.st = .returned m) := by
  have hlt := (List.getElem?_eq_some_iff.1 hk).1
  have hr' : Reachable cfg s' := ReachFrom.snoc hr h
  rcases call_alone h hk with h1 | rfl | rfl | ⟨b, rfl⟩ | rfl | rfl
  · exact ⟨c, h1, .inl ⟨st, hq⟩⟩
  · unfold Node.step at h
    split at h
    · cases h
    simp only [hk] at h
    cases h
    exact ⟨_, List.getElem?_set_self hlt, .inl ⟨st, hq⟩⟩
  · unfold Node.step at h
    split at h
    · cases h
    simp only [hk] at h
    unfold State.callStep at h
    cases hpc : c.pc with
    | reqSend j' i =>
      rw [hpc] at hq h
      cases hq
      simp only at h
      cases hs : s.stepConn j (.reqSend q) with
      | none => rw [hs] at h; cases h
      | some s1 =>
        rw [hs] at h; cases h
        exact ⟨{ c with pc := .reqWait j q }, by simp only [State.setCall, (stepConn_same hs).calls, List.getElem?_set_self hlt], .inl ⟨.waiting, rfl⟩⟩
    | reqWait j' i => rw [hpc] at h; cases h
    | _ => rw [hpc] at hq; cases hq
  · unfold Node.step at h
    split at h
    · cases h
    simp only [hk] at h
    cases hpc : c.pc with
    | reqSend j' i => rw [hpc] at h; cases h
    | reqWait j' i => rw [hpc] at h; cases h
    | _ => rw [hpc] at hq; cases hq
  · unfold Node.step at h
    split at h
    · cases h
    simp only [hk] at h
    cases hpc : c.pc with
    | reqSend j' i => rw [hpc] at h; cases h
    | reqWait j' i =>
      rw [hpc] at hq h
      cases hq
      simp only at h
      cases hs : s.stepConn j (.reqTake q) with
      | none => rw [hs] at h; cases h
      | some s1 =>
        rw [hs] at h
        simp only at h
        have hcalls := (stepConn_same hs).calls
        obtain ⟨x, d, hx, hd, rfl⟩ := stepConn_some hs
        have hjlt := (List.getElem?_eq_some_iff.1 hx).1
        simp only [List.getElem?_set_self hjlt] at h
        have heof : ∀ (s2 : State ε), s2.conns = s.conns.set j { x with c := d } → Reachable cfg s2 → ∀ c1 : Cl.Call, d.calls[q]? = some c1 → c1.st ≠ .eof := by
          intro s2 h2 hr2 c1 hc1
          exact (Cl.ReqsOK.reach (Reaches.reach hr2 j { x with c := d } (by rw [h2, List.getElem?_set_self hjlt]))).noEof q c1 hc1
        have key : ∃ c1 : Cl.Call, d.calls[q]? = some c1 ∧ (c1.st = .eof ∨ ∃ m, c1.st = .returned m) := by
          simp only [Cl.step] at hd
          repeat' split at hd
          all_goals try (cases hd; done)
          all_goals
            rename_i hc0 _ _ _ _ _ _
            injection hd with hd; subst hd
            refine ⟨_, List.getElem?_set_self (List.getElem?_eq_some_iff.1 hc0).1, ?_⟩
            first | exact .inl rfl | exact .inr ⟨_, rfl⟩
        obtain ⟨⟨n0, d0, st0, ch0⟩, hc1, hst⟩ := key
        rw [hc1] at h
        simp only at hst
        rcases hst with rfl | ⟨m, rfl⟩
        · simp only at h
          cases h
          exact absurd rfl (heof _ rfl hr' _ hc1)
        · simp only at h
          cases h
          exact ⟨{ c with pc := .returned (.response m) }, by simp [State.setCall, hlt], .inr ⟨m, rfl, _, _, List.getElem?_set_self hjlt, hc1, rfl⟩⟩
    | _ => rw [hpc] at hq; cases hq
  · unfold Node.step at h
    split at h
    · cases h
    simp only [hk] at h
    cases hpc : c.pc with
    | reqSend j' i => rw [hpc] at h; cases h
    | reqWait j' i => rw [hpc, he] at h; cases h
    | _ => rw [hpc] at hq; cases hq

end Node

namespace Cl

theorem run_call (as : List (Action ε)) (s s' : State ε) (h : run s as = some s') {q : Nat} {d : Call} (hd : s.calls[q]? = some d) : ∃ d', s'.calls[q]? = some d' ∧ d'.nonce = d.nonce ∧ d'.data = d.data := by
  induction as generalizing s d with
  | nil => cases h; exact ⟨d, hd, rfl, rfl⟩
  | cons a as ih =>
    simp only [run] at h
    split at h
    · rename_i s1 h1
      obtain ⟨d1, e1, e2, e3, -⟩ := call_step hd h1
      obtain ⟨d2, f1, f2, f3⟩ := ih s1 h e1
      exact ⟨d2, f1, f2.trans e2, f3.trans e3⟩
    · cases h

end Cl

namespace Net
variable {cfg : Nat → Node.Cfg ε} {n : Nat} {σ : Nat → State ε} {α : Nat → Option (Action ε)} {o i : End}

theorem able_node {s : State ε} {m : Nat} {X : Node.State ε} {a : Node.Action ε} {C : Action ε → Prop} (hX : s.nodes[m]? = some X) (hr : ∀ j msg, a ≠ .conn j (.readMsg msg)) (hC : C (.node m a))
    (h : (Node.step (cfg m) X a).isSome = true) : Able (step cfg) (fun b => C b ∧ sure s b) s := by
  refine ⟨.node m a, ⟨hC, fun m' j msg e => ?_⟩, ?_⟩
  · injection e with _ e
    exact absurd e (hr j msg)
  · obtain ⟨X', hX'⟩ := Option.isSome_iff_exists.1 h
    simp only [step, hX]
    rw [hX']; rfl

/-- What call `k` does. -/
def OwnAct (k : Nat) (a : Node.Action ε) : Prop := a = .callStep k ∨ (∃ b, a = .select k b) ∨ a = .take k ∨ a = .cancel k

theorem OwnAct.acts {m k : Nat} {a : Node.Action ε} (h : OwnAct k a) : (Proc.call m k).acts (.node m a) := by
  rcases h with rfl | ⟨b, rfl⟩ | rfl | rfl
  · exact .inl rfl
  · exact .inr (.inl ⟨b, rfl⟩)
  · exact .inr (.inr (.inl rfl))
  · exact .inr (.inr (.inr rfl))

theorem OwnAct.of {m k : Nat} {a : Action ε} (h : (Proc.call m k).acts a) : ∃ b, a = .node m b ∧ OwnAct k b := by
  rcases h with rfl | ⟨b, rfl⟩ | rfl | rfl
  · exact ⟨_, rfl, .inl rfl⟩
  · exact ⟨_, rfl, .inr (.inl ⟨b, rfl⟩)⟩
  · exact ⟨_, rfl, .inr (.inr (.inl rfl))⟩
  · exact ⟨_, rfl, .inr (.inr (.inr rfl))⟩

theorem OwnAct.plain {k : Nat} {a : Node.Action ε} (h : OwnAct k a) (j : Nat) (msg : Message) : a ≠ .conn j (.readMsg msg) := by
  rcases h with rfl | ⟨b, rfl⟩ | rfl | rfl <;> simp

/-- A call that stays able to go on goes on. -/
theorem FairRun.moves (r : FairRun cfg n σ α) {m k t t1 : Nat} {c : Node.Call ε} (hc : CallAt σ m k t c) (hend : Endless σ m k)
    (hable : ∀ t' X, t ≤ t' → t1 ≤ t' → (σ t').nodes[m]? = some X → X.calls[k]? = some c → ∃ a, OwnAct k a ∧ (Node.step (cfg m) X a).isSome = true) :
    ∃ t' X X' a, t ≤ t' ∧ (σ t').nodes[m]? = some X ∧ X.calls[k]? = some c ∧ (σ (t' + 1)).nodes[m]? = some X' ∧ OwnAct k a ∧ Node.step (cfg m) X a = some X' := by
  by_cases hno : ∃ t' X X' a, t ≤ t' ∧ (σ t').nodes[m]? = some X ∧ X.calls[k]? = some c ∧ (σ (t' + 1)).nodes[m]? = some X' ∧ OwnAct k a ∧ Node.step (cfg m) X a = some X'
  · exact hno
  have hstay : ∀ t', t ≤ t' → CallAt σ m k t' c := by
    intro t' hle
    induction hle with
    | refl => exact hc
    | @step t' hle ih =>
      obtain ⟨X, hX, hk⟩ := ih
      obtain ⟨X', hX', ⟨rfl, _⟩ | ⟨a, _, hs⟩⟩ := r.at hX
      · exact ⟨_, hX', hk⟩
      · rcases Node.call_alone hs hk with h | rfl | rfl | ⟨b, rfl⟩ | rfl | rfl
        · exact ⟨X', hX', h⟩
        · have hs' := hs
          unfold Node.step at hs'
          split at hs'
          · cases hs'
          simp only [hk] at hs'
          cases hs'
          have := hend (t' + 1) { c with ended := true } ⟨_, hX', List.getElem?_set_self (List.getElem?_eq_some_iff.1 hk).1⟩
          cases this
        · exact absurd ⟨t', X, X', _, hle, hX, hk, hX', .inl rfl, hs⟩ hno
        · exact absurd ⟨t', X, X', _, hle, hX, hk, hX', .inr (.inl ⟨b, rfl⟩), hs⟩ hno
        · exact absurd ⟨t', X, X', _, hle, hX, hk, hX', .inr (.inr (.inl rfl)), hs⟩ hno
        · exact absurd ⟨t', X, X', _, hle, hX, hk, hX', .inr (.inr (.inr rfl)), hs⟩ hno
  obtain ⟨t', h1, h2⟩ := r.runs (.call m k) (max t t1)
  obtain ⟨X, hX, hk⟩ := hstay t' (by omega)
  rcases h2 with ⟨a, ha, hp⟩ | h2
  · obtain ⟨b, rfl, hb⟩ := OwnAct.of hp
    obtain ⟨X', hX', ⟨_, hn⟩ | ⟨a, ha', hs⟩⟩ := r.at hX
    · exact absurd ha (hn b)
    · rw [ha] at ha'; cases ha'
      exact ⟨t', X, X', _, by omega, hX, hk, hX', hb, hs⟩
  · obtain ⟨a, ha, hs⟩ := hable t' X (by omega) (by omega) hX hk
    exact absurd (able_node hX ha.plain ha.acts hs) h2

/-! ### What is submitted is handled -/

theorem item_back {l : List Wk.Item} {j k : Nat} {m : Message} (h : (l.map (Wk.Item.rn (ren j)))[k]? = some ⟨0, m⟩) : l[k]? = some ⟨j, m⟩ := by
  rw [List.getElem?_map, Option.map_eq_some_iff] at h
  obtain ⟨⟨c, m'⟩, h1, h2⟩ := h
  simp only [Wk.Item.rn, Wk.Item.mk.injEq] at h2
  obtain ⟨h2, rfl⟩ := h2
  have : c = j := by
    by_cases hc : c = j
    · exact hc
    · exact absurd h2 (ren_ne hc)
  rw [h1, this]

theorem count_back (l : List Wk.Item) (j : Nat) : ((l.map (Wk.Item.rn (ren j))).filter fun it => it.client = 0).length = (l.filter fun it => it.client = j).length := by
  rw [List.filter_map, List.length_map]
  congr 2
  funext it
  simp only [Function.comp, Wk.Item.rn]
  by_cases hc : it.client = j
  · simp [hc, ren_self]
  · simp [hc, ren_ne hc]

theorem wk_back {s : State ε} {m k : Nat} {X : Node.State ε} {it : Wk.Item} (hX : s.nodes[m]? = some X) (h : (s.wkOf cfg m).items[k]? = some it) : ∃ q, X.wk = some q ∧ s.wkOf cfg m = q := by
  rw [wkOf_at hX] at h ⊢
  cases hq : X.wk with
  | none => rw [hq] at h; simp [Wk.State.new] at h
  | some q => exact ⟨q, rfl, rfl⟩

theorem Unbroken.handled (u : Unbroken σ α o i) (r : FairRun cfg n σ α) (hNo : 0 < (cfg o.node).numWorkers) (hNi : 0 < (cfg i.node).numWorkers) {t p : Nat} {x : Node.Conn ε} {m : Message}
    (hx : (σ t).conn o = some x) (hm : (submittedOf x.c.log)[p]? = some m) :
    ∃ (t' : Nat) (I : Node.State ε) (q : Wk.State ε) (k w : Nat), (σ t').nodes[i.node]? = some I ∧ I.wk = some q ∧ q.items[k]? = some ⟨i.conn, m⟩ ∧
      ((q.items.take k).filter fun it => it.client = i.conn).length = p ∧ handlingOf k q.log = handledUpTo w k (cfg i.node).numHandlers := by
  obtain ⟨βa, βb, γ, hp, _, _⟩ := u.parts r hNo hNi
  have e : (linkAt cfg (σ t) o i).a = x.c := cl_some hx
  obtain ⟨t', k, w, h1, h2, h3, _⟩ := hp.handled hNi (t := t) (p := p) (m := m) (by rw [e]; exact hm) (fun _ _ _ => True) (fun _ _ _ _ => trivial) (fun _ _ _ _ _ _ _ => trivial)
  obtain ⟨t0, hl⟩ := u.linked
  obtain ⟨I, hI⟩ := r.has (u.inn r hl).exist t'
  have h1' := item_back h1
  obtain ⟨q, hq, e'⟩ := wk_back (cfg := cfg) hI h1'
  rw [e'] at h1'
  refine ⟨t', I, q, k, w, hI, hq, h1', ?_, ?_⟩
  · rw [← h2, ← count_back, List.map_take]
    show _ = ((((σ t').wkOf cfg i.node).items.map _).take k |>.filter _).length
    rw [e']
  · rw [← h3]
    show _ = handlingOf k (((σ t').wkOf cfg i.node).log.map _)
    rw [e', Wk.handlingOf_rn]

/-! ### Calls -/

theorem Unbroken.chosen (u : Unbroken σ α o i) (r : FairRun cfg n σ α) (hNo : 0 < (cfg o.node).numWorkers) (hNi : 0 < (cfg i.node).numWorkers) {t k : Nat} {c : Node.Call ε}
    (hc : CallAt σ o.node k t c) (hpc : c.pc = .select o.conn) (hend : Endless σ o.node k) : ∃ t', t ≤ t' ∧ CallAt σ o.node k t' { c with pc := .got o.conn } := by
  obtain ⟨t0, hl⟩ := u.linked
  have co := u.out r hl
  obtain ⟨βa, βb, γ, hp, _, _⟩ := u.parts r hNo hNi
  obtain ⟨t1, _, hready⟩ := hp.endA.ready t
  have he := hend t c hc
  have hsel : ∀ (X : Node.State ε) (y : Node.Conn ε) (b : Callers.Branch), X.crashed = false → X.calls[k]? = some c → X.conns[o.conn]? = some y → y.c.err = none → b.enabled c.ended y.c = true →
      Node.step (cfg o.node) X (.select k b) = some (X.setCall k { c with pc := .got o.conn }) := by
    intro X y b hcr hk hy herr hb
    have hbe : b.error y.c = none := by
      cases b with
      | ctxDone => rw [he] at hb; cases hb
      | _ => simp [Callers.Branch.error, herr]
    simp [Node.step, hcr, hk, hpc, hy, hb, hbe]
  obtain ⟨t', X, X', a, h1, hX, hk, hX', ha, hs⟩ := r.moves (t1 := max t1 t0) hc hend fun t' X h1 h2 hX hk => by
    obtain ⟨y, hy⟩ := co.there t' (by omega)
    have hrd := hready t' (by omega)
    have e : (linkAt cfg (σ t') o i).a = y.c := cl_some hy
    rw [e] at hrd
    have hy' := hy
    rw [conn_join hX] at hy'
    exact ⟨.select k .ready, .inr (.inl ⟨_, rfl⟩), by rw [hsel X y .ready (co.node t' X hX).1 hk hy' (co.fine t' y hy).1 hrd]; rfl⟩
  have hcr := (co.node t' X hX).1
  have key : X' = X.setCall k { c with pc := .got o.conn } := by
    rcases ha with rfl | ⟨b, rfl⟩ | rfl | rfl
    · simp [Node.step, hcr, hk, Node.State.callStep, hpc] at hs
    · cases hy : X.conns[o.conn]? with
      | none => simp [Node.step, hcr, hk, hpc, hy] at hs
      | some y =>
        cases hb : b.enabled c.ended y.c with
        | false => simp [Node.step, hcr, hk, hpc, hy, hb] at hs
        | true =>
          rw [hsel X y b hcr hk hy (co.fine t' y (by rw [conn_join hX]; exact hy)).1 hb] at hs
          injection hs with hs; exact hs.symm
    · simp [Node.step, hcr, hk, hpc] at hs
    · simp [Node.step, hcr, hk, hpc] at hs
  subst key
  exact ⟨t' + 1, by omega, _, hX', List.getElem?_set_self (List.getElem?_eq_some_iff.1 hk).1⟩

theorem Unbroken.sends (u : Unbroken σ α o i) (r : FairRun cfg n σ α) {t k : Nat} {c : Node.Call ε} {data : Bytes}
    (hc : CallAt σ o.node k t c) (hpc : c.pc = .got o.conn) (hkd : c.kind = .send data) (hend : Endless σ o.node k) :
    ∃ (t' : Nat) (x : Node.Conn ε) (p : Nat), t ≤ t' ∧ CallAt σ o.node k t' { c with pc := .returned .sent } ∧ (σ t').conn o = some x ∧ (submittedOf x.c.log)[p]? = some ⟨0, data⟩ := by
  obtain ⟨t0, hl⟩ := u.linked
  have co := u.out r hl
  have hstep : ∀ (X : Node.State ε) (y : Node.Conn ε), X.crashed = false → X.calls[k]? = some c → X.conns[o.conn]? = some y →
      Node.step (cfg o.node) X (.callStep k) = some (({ X with conns := X.conns.set o.conn { y with c := y.c.send ⟨0, data⟩ } } : Node.State ε).setCall k { c with pc := .returned .sent }) := by
    intro X y hcr hk hy
    simp [Node.step, hcr, hk, Node.State.callStep, hpc, hkd, Node.State.stepConn, hy, Cl.step]
  obtain ⟨t', X, X', a, h1, hX, hk, hX', ha, hs⟩ := r.moves (t1 := t0) hc hend fun t' X h1 h2 hX hk => by
    obtain ⟨y, hy⟩ := co.there t' (by omega)
    rw [conn_join hX] at hy
    exact ⟨.callStep k, .inl rfl, by rw [hstep X y (co.node t' X hX).1 hk hy]; rfl⟩
  have hcr := (co.node t' X hX).1
  have key : ∃ y, X.conns[o.conn]? = some y ∧ X' = ({ X with conns := X.conns.set o.conn { y with c := y.c.send ⟨0, data⟩ } } : Node.State ε).setCall k { c with pc := .returned .sent } := by
    rcases ha with rfl | ⟨b, rfl⟩ | rfl | rfl
    · cases hy : X.conns[o.conn]? with
      | none => simp [Node.step, hcr, hk, Node.State.callStep, hpc, hkd, Node.State.stepConn, hy] at hs
      | some y =>
        rw [hstep X y hcr hk hy] at hs
        injection hs with hs
        exact ⟨y, rfl, hs.symm⟩
    · simp [Node.step, hcr, hk, hpc] at hs
    · simp [Node.step, hcr, hk, hpc] at hs
    · simp [Node.step, hcr, hk, hpc] at hs
  obtain ⟨y, hy, rfl⟩ := key
  refine ⟨t' + 1, { y with c := y.c.send ⟨0, data⟩ }, (submittedOf y.c.log).length, by omega, ⟨_, hX', List.getElem?_set_self (List.getElem?_eq_some_iff.1 hk).1⟩, ?_, ?_⟩
  · rw [conn_join hX']
    exact List.getElem?_set_self (List.getElem?_eq_some_iff.1 hy).1
  · simp [Cl.State.send, Cl.submittedOf_append, submittedOf]

theorem FairRun.grows (r : FairRun cfg n σ α) {t t' : Nat} (hle : t ≤ t') {e : End} {x : Node.Conn ε} (h : (σ t).conn e = some x) :
    ∃ x', (σ t').conn e = some x' ∧ ∀ (q : Nat) (d : Cl.Call), x.c.calls[q]? = some d → ∃ d', x'.c.calls[q]? = some d' ∧ d'.nonce = d.nonce ∧ d'.data = d.data := by
  induction hle with
  | refl => exact ⟨x, h, fun q d hd => ⟨d, hd, rfl, rfl⟩⟩
  | @step t' _ ih =>
    obtain ⟨x1, h1, h2⟩ := ih
    obtain ⟨X, h3, h4⟩ := conn_split h1
    obtain ⟨X', h5, h6⟩ := r.at h3
    rw [conn_join h5]
    rcases h6 with ⟨rfl, -⟩ | ⟨a, -, h6⟩
    · exact ⟨x1, h4, h2⟩
    · obtain ⟨x2, g1, -, -, as, g2⟩ := Node.step_grows h6 _ x1 h4
      refine ⟨x2, g1, fun q d hd => ?_⟩
      obtain ⟨d1, e1, e2, e3⟩ := h2 q d hd
      obtain ⟨d2, f1, f2, f3⟩ := Cl.run_call as _ _ g2 e1
      exact ⟨d2, f1, f2.trans e2, f3.trans e3⟩

theorem FairRun.few (r : FairRun cfg n σ α) {t t' : Nat} (hle : t ≤ t') {e : End} {x x' : Node.Conn ε} (h : (σ t).conn e = some x) (h' : (σ t').conn e = some x') : x.c.calls.length ≤ x'.c.calls.length := by
  obtain ⟨x1, h1, h2⟩ := r.grows hle h
  rw [h'] at h1; cases h1
  by_contra hlt
  obtain ⟨d, hd, -⟩ := h2 (x.c.calls.length - 1) _ (List.getElem?_eq_getElem (by omega))
  have := (List.getElem?_eq_some_iff.1 hd).1
  omega

theorem Unbroken.starts (u : Unbroken σ α o i) (r : FairRun cfg n σ α) {t k : Nat} {c : Node.Call ε} {data : Bytes}
    (hc : CallAt σ o.node k t c) (hpc : c.pc = .got o.conn) (hkd : c.kind = .request data) (hend : Endless σ o.node k) (hb : ∀ t x, (σ t).conn o = some x → x.c.calls.length < 2 ^ 64 - 1) :
    ∃ t' q x d, t ≤ t' ∧ CallAt σ o.node k t' { c with pc := .reqSend o.conn q } ∧ (σ t').conn o = some x ∧ x.c.calls[q]? = some d ∧ d.data = data ∧
      ∀ u y, u ≤ t → (σ u).conn o = some y → y.c.calls.length ≤ q := by
  obtain ⟨t0, hl⟩ := u.linked
  have co := u.out r hl
  have hstep : ∀ (X : Node.State ε) (y : Node.Conn ε), X.crashed = false → X.calls[k]? = some c → X.conns[o.conn]? = some y → (∃ v, (y.c.reqs.nextNonce y.c.calls.length).2 = some v) →
      ∃ X', Node.step (cfg o.node) X (.callStep k) = some X' ∧ X'.calls = X.calls.set k { c with pc := .reqSend o.conn y.c.calls.length } ∧
        ∃ x d, X'.conns[o.conn]? = some x ∧ x.c.calls[y.c.calls.length]? = some d ∧ d.data = data := by
    rintro X y hcr hk hy ⟨v, hv⟩
    cases hnn : y.c.reqs.nextNonce y.c.calls.length with
    | mk rm ov =>
      rw [hnn] at hv
      simp only at hv
      subst hv
      exact ⟨_, by simp [Node.step, hcr, hk, Node.State.callStep, hpc, hkd, Node.State.stepConn, hy, Cl.step, hnn]; rfl, by simp [Node.State.setCall, hkd],
        by simp [Node.State.setCall, (List.getElem?_eq_some_iff.1 hy).1]⟩
  have hfree : ∀ t' y, (σ t').conn o = some y → ∃ v, (y.c.reqs.nextNonce y.c.calls.length).2 = some v := by
    intro t' y hy
    have e : (linkAt cfg (σ t') o i).a = y.c := cl_some hy
    have hb' : (linkAt cfg (σ t') o i).a.calls.length < 2 ^ 64 - 1 := by rw [e]; exact hb t' y hy
    have := (Link.Rpc.reach (r.link hl t') hb').free (.reach (r.link hl t')) hb'
    rwa [e] at this
  obtain ⟨t', X, X', a, h1, hX, hk, hX', ha, hs⟩ := r.moves (t1 := t0) hc hend fun t' X h1 h2 hX hk => by
    obtain ⟨y, hy⟩ := co.there t' (by omega)
    have hy' := hy
    rw [conn_join hX] at hy'
    obtain ⟨X', h3, _⟩ := hstep X y (co.node t' X hX).1 hk hy' (hfree t' y hy)
    exact ⟨.callStep k, .inl rfl, by rw [h3]; rfl⟩
  have hcr := (co.node t' X hX).1
  have key : ∃ q, X'.calls = X.calls.set k { c with pc := .reqSend o.conn q } ∧ (∃ x d, X'.conns[o.conn]? = some x ∧ x.c.calls[q]? = some d ∧ d.data = data) ∧ ∃ y, X.conns[o.conn]? = some y ∧ y.c.calls.length = q := by
    rcases ha with rfl | ⟨b, rfl⟩ | rfl | rfl
    · cases hy : X.conns[o.conn]? with
      | none => simp [Node.step, hcr, hk, Node.State.callStep, hpc, hkd, hy] at hs
      | some y =>
        obtain ⟨X1, h3, h4⟩ := hstep X y hcr hk hy (hfree t' y (by rw [conn_join hX]; exact hy))
        rw [h3] at hs
        injection hs with hs
        subst hs
        exact ⟨_, h4.1, h4.2, y, rfl, rfl⟩
    · simp [Node.step, hcr, hk, hpc] at hs
    · simp [Node.step, hcr, hk, hpc] at hs
    · simp [Node.step, hcr, hk, hpc] at hs
  obtain ⟨q, hq, ⟨x, d, hx, hd, hdd⟩, y, hy, hyq⟩ := key
  refine ⟨t' + 1, q, x, d, by omega, ⟨X', hX', by rw [hq, List.getElem?_set_self (List.getElem?_eq_some_iff.1 hk).1]⟩, by rw [conn_join hX']; exact hx, hd, hdd, ?_⟩
  intro u z hu hz
  rw [← hyq]
  exact r.few (t' := t') (by omega) hz (by rw [conn_join hX]; exact hy)

theorem Unbroken.returns (u : Unbroken σ α o i) (r : FairRun cfg n σ α) (hNo : 0 < (cfg o.node).numWorkers) (hNi : 0 < (cfg i.node).numWorkers) {h : Nat} (hh : h < (cfg i.node).numHandlers)
    {data : Bytes} (hans : AnswersTo σ α i h data) {t k q : Nat} {c : Node.Call ε} (hc : CallAt σ o.node k t c) (hpc : c.pc = .reqSend o.conn q)
    (hdat : ∃ x d, (σ t).conn o = some x ∧ x.c.calls[q]? = some d ∧ d.data = data) (hend : Endless σ o.node k) :
    ∃ t' m c', t ≤ t' ∧ CallAt σ o.node k t' c' ∧ c'.pc = .returned (.response m) ∧ ∃ x d, (σ t').conn o = some x ∧ x.c.calls[q]? = some d ∧ d.st = .returned m := by
  by_cases hno : ∃ t' m c', t ≤ t' ∧ CallAt σ o.node k t' c' ∧ c'.pc = .returned (.response m) ∧ ∃ x d, (σ t').conn o = some x ∧ x.c.calls[q]? = some d ∧ d.st = .returned m
  · exact hno
  exfalso
  obtain ⟨t0, hl⟩ := u.linked
  have co := u.out r hl
  have ci := u.inn r hl
  obtain ⟨βa, βb, γ, hp, hβ, hret⟩ := u.parts r hNo hNi
  -- the request stays under way
  have hstay : ∀ t', t ≤ t' → ∃ X c' st, (σ t').nodes[o.node]? = some X ∧ X.calls[k]? = some c' ∧ c'.pc.ask = some ((o.conn, q), st) := by
    intro t' hle
    induction hle with
    | refl => obtain ⟨X, hX, hk⟩ := hc; exact ⟨X, c, .registered, hX, hk, by rw [hpc]; rfl⟩
    | @step t' hle ih =>
      obtain ⟨X, c', st, hX, hk, hq⟩ := ih
      obtain ⟨X', hX', ⟨rfl, _⟩ | ⟨a, _, hs⟩⟩ := r.at hX
      · exact ⟨_, c', st, hX', hk, hq⟩
      · obtain ⟨c'', h1, ⟨st', h2⟩ | ⟨m, h2, x1, d1, h3⟩⟩ := Node.asks_step ((r.inv t').nodes _ _ hX) hs hk hq (hend t' c' ⟨X, hX, hk⟩)
        · exact ⟨X', c'', st', hX', h1, h2⟩
        · exact absurd ⟨t' + 1, m, c'', Nat.le_succ_of_le hle, ⟨X', hX', h1⟩, h2, x1, d1, by rw [conn_join hX']; exact h3⟩ hno
  -- and where it is
  have hat : ∀ t', t ≤ t' → ∃ X x c' st d, (σ t').nodes[o.node]? = some X ∧ X.conns[o.conn]? = some x ∧ X.calls[k]? = some c' ∧ c'.pc.ask = some ((o.conn, q), st) ∧
      x.c.calls[q]? = some d ∧ d.st = st ∧ (linkAt cfg (σ t') o i).a = x.c := by
    intro t' hle
    obtain ⟨X, c', st, hX, hk, hq⟩ := hstay t' hle
    obtain ⟨x, d, hx, hd, hst⟩ := Node.stOf_some.1 (Node.Asked.reach ((r.inv t').nodes _ _ hX) k c' _ st hk hq)
    exact ⟨X, x, c', st, d, hX, hx, hk, hq, hd, hst, cl_some (by rw [conn_join hX]; exact hx)⟩
  have hfair : Link.CallFair (fun t => linkAt cfg (σ t) o i) βa t q := by
    intro y hy
    obtain ⟨y', h1, h2⟩ := r.runs (.call o.node k) y
    refine ⟨y', h1, ?_⟩
    obtain ⟨X, x, c', st, d, hX, hx, hk, hq, hd, hst, e⟩ := hat y' (by omega)
    have hcr := (co.node y' X hX).1
    rcases h2 with ⟨a, ha, hpa⟩ | h2
    · left
      obtain ⟨b, rfl, hb⟩ := OwnAct.of hpa
      have hby := (hβ y').act X x b hX hx ha
      obtain ⟨X', hX', ⟨_, hn⟩ | ⟨a', ha', hs⟩⟩ := r.at hX
      · exact absurd ha (hn b)
      rw [ha] at ha'; cases ha'
      cases hpc' : c'.pc with
      | reqSend j' q' =>
        rw [hpc'] at hq
        cases hq
        rcases hb with rfl | ⟨b, rfl⟩ | rfl | rfl
        · left
          simpa [Node.By, hk, hpc'] using hby
        · simp [Node.step, hcr, hk, hpc'] at hs
        · simp [Node.step, hcr, hk, hpc'] at hs
        · simp [Node.step, hcr, hk, hpc'] at hs
      | reqWait j' q' =>
        rw [hpc'] at hq
        cases hq
        rcases hb with rfl | ⟨b, rfl⟩ | rfl | rfl
        · simp [Node.step, hcr, hk, hpc', Node.State.callStep] at hs
        · simp [Node.step, hcr, hk, hpc'] at hs
        · right
          simpa [Node.By, hk, hpc'] using hby
        · simp [Node.step, hcr, hk, hpc', hend y' c' ⟨X, hX, hk⟩] at hs
      | _ => rw [hpc'] at hq; cases hq
    · right
      rw [e]
      cases hpc' : c'.pc with
      | reqSend j' q' =>
        rw [hpc'] at hq
        cases hq
        exfalso
        apply h2
        refine able_node (a := .callStep k) hX (by simp) (.inl rfl) ?_
        simp [Node.step, hcr, hk, Node.State.callStep, hpc', Node.State.stepConn, hx, Cl.step, hd, hst]
      | reqWait j' q' =>
        rw [hpc'] at hq
        cases hq
        constructor
        · simp [Cl.step, hd, hst]
        · rw [← Bool.not_eq_true]
          intro hs
          apply h2
          refine able_node (a := .take k) hX (by simp) (.inr (.inr (.inl rfl))) ?_
          obtain ⟨c1, hc1⟩ := Option.isSome_iff_exists.1 hs
          have hjlt := (List.getElem?_eq_some_iff.1 hx).1
          simp only [Node.step, hcr, Bool.false_eq_true, if_false, hk, hpc', Node.State.stepConn, hx, hc1, Option.map_some, List.getElem?_set_self hjlt]
          split <;> rfl
      | _ => rw [hpc'] at hq; cases hq
  have hcan : ∀ y, t ≤ y → βa y ≠ some (.reqCancel q) := by
    intro y hy hcon
    obtain ⟨X, x, c', st, d, hX, hx, hk, hq, hd, hst, e⟩ := hat y hy
    obtain ⟨X', hX', ⟨_, hn⟩ | ⟨a, ha, hs⟩⟩ := r.at hX
    · have := (hβ y).other hn
      rw [hcon] at this; cases this
    have hby := (hβ y).act X x a hX hx ha
    rw [hcon] at hby
    cases a with
    | conn j b =>
      simp only [Node.By] at hby
      split at hby
      · injection hby with hby
        subst hby
        unfold Node.step Node.State.connStep at hs
        split at hs
        · cases hs
        · simp only at hs
          split at hs <;> cases hs
      · rcases hby with hby | hby <;> cases hby
    | callStep k' =>
      simp only [Node.By] at hby
      split at hby
      · split at hby <;> cases hby
      · simp [Node.Misc] at hby
    | take k' =>
      simp only [Node.By] at hby
      split at hby
      · split at hby <;> cases hby
      · exact hby
    | cancel k' =>
      simp only [Node.By] at hby
      split at hby
      · next c1 hk' =>
        split at hby
        · next j1 q1 hpc1 =>
          obtain ⟨hen, hby⟩ := hby
          split at hby
          · next hj =>
            cases hby
            subst hj
            have hkk : k = k' := Node.ask_unique ((r.inv y).nodes _ _ hX) hk hk' hq (by rw [hpc1]; rfl)
            subst hkk
            rw [hend y c1 ⟨X, hX, hk'⟩] at hen
            cases hen
          · cases hby
        · exact hby
      · exact hby
    | _ => simp [Node.By, Node.Misc] at hby
  obtain ⟨X, x, c', st, d, hX, hx, hk, hq, hd, hst, e⟩ := hat t (Nat.le_refl _)
  have hreg : d.st = .registered := by
    obtain ⟨X1, hX1, hk1⟩ := hc
    rw [hX] at hX1; cases hX1
    rw [hk] at hk1; cases hk1
    rw [hpc] at hq
    cases hq
    exact hst
  have hdd : d.data = data := by
    obtain ⟨x1, d1, h1, h2, h3⟩ := hdat
    rw [conn_join hX, hx] at h1; cases h1
    rw [hd] at h2; cases h2
    exact h3
  obtain ⟨t', m, c1, h1, _, h2, h3⟩ := hp.request hNi hh (c := d) (by
    intro t w k it hg hw hit hcl hreq hdt
    have hg' : γ t = some (.handlerReturn w none) := by
      cases hγ : γ t with
      | none => rw [hγ] at hg; cases hg
      | some a =>
        rw [hγ] at hg
        cases a <;> simp [Wk.Action.rn] at hg
        simp [hg]
    have ha := (hret t w none).2 hg'
    obtain ⟨I, hI⟩ := r.has ci.exist t
    have hit' : (((σ t).wkOf cfg i.node).items.map (Wk.Item.rn (ren i.conn)))[k]? = some ⟨0, it.msg⟩ := by
      obtain ⟨cl, m⟩ := it
      simp only at hcl
      subst hcl
      exact hit
    have hit'' := item_back hit'
    obtain ⟨qq, hqq, e'⟩ := wk_back (cfg := cfg) hI hit''
    rw [e'] at hit''
    have hw' : ((σ t).wkOf cfg i.node).workers[w]? = some (.inside k h) := hw
    rw [e'] at hw'
    have := hans t w k ⟨i.conn, it.msg⟩ I qq ha hI hqq hw' hit'' rfl hreq (hdt.trans hdd)
    show h ∈ respondersOf k (((σ t).wkOf cfg i.node).log.map _)
    rw [Wk.respondersOf_rn, e']
    exact this) (by show (linkAt cfg (σ t) o i).a.calls[q]? = some d; rw [e]; exact hd) hreg hfair hcan
  obtain ⟨X, x, c', st, d, hX, hx, hk, hq, hd, hst, e⟩ := hat t' h1
  have h2 : (linkAt cfg (σ t') o i).a.calls[q]? = some c1 := h2
  rw [e, hd] at h2
  cases h2
  rw [h3] at hst
  cases hpc' : c'.pc <;> rw [hpc'] at hq <;> simp only [Node.Pc.ask, Option.some.injEq, Prod.mk.injEq, reduceCtorEq] at hq
  all_goals
    rw [← hst] at hq
    exact absurd hq.2 (by simp)

end Net
end Noise
