import Verif.Proofs.NodeLeft
/-! # The whole node: closing it does not get stuck -/
namespace Noise.Node
variable {ε : Type}

/-! ### What a step does to the workers, exactly -/

/-- Which actions of the node are which actions of the workers. -/
def wkAct (s : State ε) (a : Action ε) : Wk.Action ε → Prop
  | .enqueue it => ∃ (x : Conn ε), a = .conn it.client .deliver ∧ s.conns[it.client]? = some x
  | .handlerReturn i r => a = .handlerReturn i r
  | .closeQueue => s.accept = .closeWork
  | .send k i d => a = .ctxSend k i d
  | _ => True

theorem step_wkBy {cfg : Cfg ε} {s s' : State ε} {a : Action ε} (h : step cfg s a = some s') :
    s'.wk = s.wk ∨ (s.accept = .none ∧ s'.wk = some (Wk.State.new cfg.numWorkers cfg.numHandlers)) ∨
    ∃ (w w' : Wk.State ε) (act : Wk.Action ε), s.wk = some w ∧ s'.wk = some w' ∧ Wk.step w act = some w' ∧ wkAct s a act := by
  unfold Node.step at h
  split at h
  · cases h
  cases a with
  | listen =>
    simp only at h
    split at h
    · next hacc => cases h; exact .inr (.inl ⟨hacc, rfl⟩)
    · cases h
  | acceptConn a => simp only at h; split at h; cases h; exact .inl rfl; cases h
  | acceptFail => simp only at h; split at h; cases h; exact .inl rfl; cases h
  | acceptRelease l =>
    simp only at h
    split at h
    · split at h
      · cases h; exact .inl (drops_same _ _).wk
      · cases h
    · cases h
  | close => simp only at h; split at h <;> · cases h; exact .inl rfl
  | closeListener c => simp only at h; split at h; cases h; exact .inl rfl; cases h
  | closeRecv c =>
    simp only at h
    split at h
    · split at h
      · cases h; exact .inl rfl
      · split at h
        · cases h; exact .inl rfl
        · cases h
    · cases h
  | list side => simp only at h; split at h; cases h; exact .inl rfl; cases h
  | appClose j => exact .inl (stepConn_same h).wk
  | call kind addr => simp only at h; cases h; exact .inl rfl
  | expire k =>
    simp only at h
    cases hc : s.calls[k]? with
    | none => rw [hc] at h; cases h
    | some c => rw [hc] at h; cases h; exact .inl rfl
  | callStep k =>
    simp only at h
    split at h
    · exact .inl (callStep_wkEq h)
    · cases h
  | select k b =>
    simp only at h
    repeat' split at h
    all_goals first
      | cases h; done
      | cases h; exact .inl rfl
  | take k =>
    simp only at h
    split at h
    · split at h
      · split at h
        · next s1 hq =>
          split at h
          · split at h
            all_goals · cases h; exact .inl (stepConn_same hq).wk
          · cases h
        · cases h
      · cases h
    · cases h
  | cancel k =>
    simp only at h
    split at h
    · split at h
      · next j i _ =>
        split at h
        · cases hq : s.stepConn j (.reqCancel i) with
          | none => rw [hq] at h; cases h
          | some s1 => rw [hq] at h; cases h; exact .inl (stepConn_same hq).wk
        · cases h
      · cases h
    · cases h
  | conn j act =>
    simp only at h
    cases hx : s.conns[j]? with
    | none => unfold State.connStep at h; rw [hx] at h; cases h
    | some x =>
      rcases connStep_exact hx h with ⟨-, rfl, -⟩ | ⟨-, ⟨-, h⟩ | ⟨rfl, w, w', m, h1, h2, h3⟩⟩
      · exact .inl rfl
      · exact .inl h
      · exact .inr (.inr ⟨w, w', _, h1, h2, h3, x, rfl, hx⟩)
  | work i =>
    simp only at h
    unfold State.workStep at h
    split at h
    · next q hq =>
      simp only at h
      cases hn : Wk.step q (.work i) with
      | none =>
        rw [hn] at h
        simp only [Option.map_none] at h
        split at h
        · split at h
          · next he => cases he
          · cases h
        · split at h
          · next he => cases he
          · cases h
        · cases h
      | some q' =>
        rw [hn] at h
        simp only [Option.map_some] at h
        split at h
        · split at h
          · next he => cases he; exact .inr (.inr ⟨q, q', _, hq, (stepConn_same h).wk, hn, trivial⟩)
          · cases h
        · split at h
          · next he =>
            cases he
            rcases closeClient_wk h with ⟨h2, -⟩ | ⟨h2, -⟩
            · exact .inr (.inr ⟨q, q', _, hq, h2, hn, trivial⟩)
            · exact .inl h2
          · cases h
        · cases h; exact .inr (.inr ⟨q, q', _, hq, rfl, hn, trivial⟩)
    · cases h
  | handlerReturn i r =>
    simp only at h
    split at h
    · next q hq =>
      cases hn : Wk.step q (.handlerReturn i r) with
      | none => rw [hn] at h; cases h
      | some q' => rw [hn] at h; cases h; exact .inr (.inr ⟨q, q', _, hq, rfl, hn, rfl⟩)
    · cases h
  | ctxSend k i data =>
    simp only at h
    unfold State.ctxSend at h
    split at h
    · next q hq =>
      split at h
      · next q' it hs hit =>
        split at h
        · cases h; exact .inr (.inr ⟨q, q', _, hq, rfl, hs, rfl⟩)
        · exact .inr (.inr ⟨q, q', _, hq, (stepConn_same h).wk, hs, rfl⟩)
      · cases h
    · cases h
  | acceptStep =>
    simp only at h
    unfold State.acceptStep at h
    have hcc : ∀ {j : Nat} {s1 s2 : State ε}, s.closeClient j s1 = some s2 → s1.wk = s.wk → s2.wk = s.wk := fun h h1 => by
      rcases closeClient_wk h with ⟨h2, -⟩ | ⟨h2, -⟩
      · exact h2.trans h1
      · exact h2
    split at h
    · cases h; exact .inl rfl
    · unfold State.get at h
      simp only at h
      split at h
      · cases h
      · split at h
        · cases h; exact .inl rfl
        · split at h
          · split at h
            · cases h; exact .inl (drop_same _ _).wk
            · cases h; exact .inl rfl
          · cases h; exact .inl rfl
    · exact .inl (hcc h rfl)
    · split at h
      · cases h; exact .inl rfl
      · cases h
    · split at h
      · cases h; exact .inl rfl
      · cases h
    · cases h; exact .inl rfl
    · exact .inl (hcc h rfl)
    · split at h
      · cases h; exact .inl rfl
      · cases h
    · next hacc =>
      split at h
      · next w hw =>
        cases hq : Wk.step w .closeQueue with
        | none => rw [hq] at h; cases h
        | some w' => rw [hq] at h; cases h; exact .inr (.inr ⟨w, w', _, hw, rfl, hq, hacc⟩)
      · cases h
    · split at h
      · split at h
        · cases h; exact .inl rfl
        · cases h
      · cases h
    · cases h; exact .inl rfl
    · cases h; exact .inl rfl
    · cases h

/-! ### Invariants -/

theorem run_delivered {c c' : Cl.State ε} {as : List (Cl.Action ε)} (hs : Cl.run c as = some c') (h : c.hasDelivered = true) : c'.hasDelivered = true :=
  Cl.run_inv (P := fun d => d.hasDelivered = true) (fun _ _ _ hd hs => by
    obtain ⟨l, hl⟩ := Cl.log_step hs
    simp only [Cl.State.hasDelivered] at hd ⊢
    rw [hl, List.any_append, hd]; rfl) hs h

theorem items_step {w w' : Wk.State ε} {act : Wk.Action ε} (h : Wk.step w act = some w') : w'.items = w.items ∨ ∃ it, act = .enqueue it ∧ w'.items = w.items ++ [it] := by
  unfold Wk.step at h
  split at h
  · (repeat' split at h) <;> cases h
    exact .inr ⟨_, rfl, rfl⟩
  all_goals
    left
    (repeat' split at h)
    all_goals first
      | (cases h; done)
      | (cases h; rfl)
      | (cases h; unfold Wk.State.ctxSend; split <;> (try split) <;> rfl)

/-- What is on the work channel came from a client. -/
def ItemInv (s : State ε) : Prop := ∀ w, s.wk = some w → ∀ it ∈ w.items, ∃ x : Conn ε, s.conns[it.client]? = some x ∧ x.c.hasDelivered = true

theorem ItemInv.step {cfg : Cfg ε} {s s' : State ε} {a : Action ε} (hi : ItemInv s) (h : step cfg s a = some s') : ItemInv s' := by
  intro w' hw' it hit
  have hold : ∀ w, s.wk = some w → it ∈ w.items → ∃ x : Conn ε, s'.conns[it.client]? = some x ∧ x.c.hasDelivered = true := by
    intro w hw hit
    obtain ⟨x, hx, hd⟩ := hi w hw it hit
    obtain ⟨x', as, hx', hr, -⟩ := step_trace h it.client x hx
    exact ⟨x', hx', run_delivered hr hd⟩
  rcases step_wkBy h with h1 | ⟨-, h1⟩ | ⟨w, w1, act, h1, h2, h3, h4⟩
  · rw [h1] at hw'; exact hold w' hw' hit
  · rw [h1] at hw'; cases hw'; simp [Wk.State.new] at hit
  · rw [h2] at hw'; cases hw'
    rcases items_step h3 with h5 | ⟨it', rfl, h5⟩
    · rw [h5] at hit; exact hold w h1 hit
    · rw [h5] at hit
      rcases List.mem_append.1 hit with hit | hit
      · exact hold w h1 hit
      · simp only [List.mem_singleton] at hit
        subst hit
        obtain ⟨x, rfl, hx⟩ := h4
        have hc : s.connStep it.client .deliver = some s' := by
          unfold Node.step at h
          split at h
          · cases h
          · exact h
        rcases connStep_exact hx hc with ⟨-, rfl, m, w2, -, h8, h9⟩ | ⟨⟨x', c1, as, hx', hs, hr, -⟩, -⟩
        · rw [h1] at h8; cases h8
          unfold Wk.step at h3
          simp [h9] at h3
        · refine ⟨x', hx', run_delivered hr ?_⟩
          simp only [Cl.step] at hs
          split at hs
          · cases hs; simp [Cl.State.hasDelivered]
          · cases hs

theorem ItemInv.reach {cfg : Cfg ε} {s : State ε} (h : Reachable cfg s) : ItemInv s := h.inv (P := ItemInv) (fun _ _ _ hi h => hi.step h) (fun w hw => by cases hw)

/-- A new client. -/
theorem new_any {cfg : Cfg ε} {s s' : State ε} {a : Action ε} (h : step cfg s a = some s') (i : Nat) (y : Conn ε) (hy : s'.conns[i]? = some y) (hl : s.conns.length ≤ i) :
    y.nilChan = false ∧ (y.c.side = .inbound → s.accept.serving = true) := by
  have hno : ∀ (s' : State ε), s'.conns.length = s.conns.length → s'.conns[i]? = some y → y.nilChan = false ∧ (y.c.side = .inbound → s.accept.serving = true) := fun s' h1 h2 => by
    have := (List.getElem?_eq_some_iff.1 h2).1; omega
  have hpush : ∀ (d : Cl.Side) (a : Text), (d = .inbound → s.accept.serving = true) → s'.conns = s.conns ++ [⟨a, Cl.State.new d, false⟩] → y.nilChan = false ∧ (y.c.side = .inbound → s.accept.serving = true) := by
    intro d a hd hc
    rw [hc, List.getElem?_append_right hl] at hy
    have : i - s.conns.length = 0 := by
      have := (List.getElem?_eq_some_iff.1 hy).1
      simp at this; omega
    rw [this] at hy
    simp at hy
    subst hy
    exact ⟨rfl, fun h => hd (by simpa [Cl.State.new] using h)⟩
  rcases step_eff h with h | rfl
  swap
  · exact hno _ rfl hy
  cases h with
  | quiet hp hm he hr => exact hno _ hm.len hy
  | found d e hl hf hp hc he hr => exact hno _ (by rw [hc]) hy
  | added d a hl hf hn hp hc he hd hr hw hacc => exact hpush d a hd hc
  | evict t e hl hn hg hp hm he0 he heo hd hr hw => exact hno _ hm.len hy
  | evicted t v a he0 hd hp hc he heo hs hr => exact hpush _ a hs hc
  | removed j x hx hrm hl hp hlen hc he hr => exact hno _ hlen hy
  | released l hl hperm ha hb hp hm he => exact hno _ hm.len hy

/-- Inbound connections exist only after `Listen`, and do not send on a nil channel. -/
def NilInv (s : State ε) : Prop := ∀ (j : Nat) (x : Conn ε), s.conns[j]? = some x → x.c.side = .inbound → s.accept ≠ .none ∧ x.nilChan = false

theorem NilInv.step {cfg : Cfg ε} {s s' : State ε} {a : Action ε} (hr : Reachable cfg s) (hi : NilInv s) (h : step cfg s a = some s') : NilInv s' := by
  intro j x' hx' hs
  have hmono : s.accept ≠ .none → s'.accept ≠ .none := fun hn => by
    cases adv h with
    | same h1 => rw [h1]; exact hn
    | early h1 h2 h3 => exact h3
    | release l h1 h2 => rw [h2]; simp
    | mark l h1 h2 => rw [h2]; simp
    | next j l h1 h2 => rw [h2]; simp
    | released b h1 h2 => rw [h2]; simp
    | closeWork h1 h2 => rw [h2]; simp
    | waited w h1 h2 h3 h4 => rw [h4]; simp
    | store h1 h2 => rw [h2]; simp
    | ended h1 h2 => rw [h2]; simp
  by_cases hl : s.conns.length ≤ j
  · obtain ⟨h1, h2⟩ := new_any h j x' hx' hl
    refine ⟨hmono fun hn => ?_, h1⟩
    have := h2 hs
    rw [hn] at this; cases this
  · obtain ⟨x, hx⟩ : ∃ x, s.conns[j]? = some x := ⟨s.conns[j]'(by omega), List.getElem?_eq_getElem _⟩
    obtain ⟨y, as, hy, hrun, -⟩ := step_trace h j x hx
    rw [hx'] at hy; cases hy
    obtain ⟨h1, h2⟩ := hi j x hx ((run_side hrun).symm.trans hs)
    exact ⟨hmono h1, step_nil h (fun hw => h1 ((Stage.reach hr).init.2 hw)) hx hx' h2⟩

theorem NilInv.reach {cfg : Cfg ε} {s : State ε} (h : Reachable cfg s) : NilInv s := h.ind (P := NilInv) (fun j x hx => by cases hx) (fun _ _ _ hr hi h => hi.step hr h)

/-- How far the accept goroutine is, and what it has done. -/
structure DoneInv (s : State ε) : Prop where
  buf : s.accept.stage ≤ 3 → s.doneBuf = 0
  queue : 7 ≤ s.accept.stage → ∃ w, s.wk = some w ∧ w.queueClosed = true
  listening : 9 ≤ s.accept.stage → s.listening = false
  closed : s.accept = .ended → s.doneClosed = true

theorem DoneInv.new : DoneInv (State.new : State ε) := by
  constructor <;> simp [State.new, Accept.stage]

theorem DoneInv.step {cfg : Cfg ε} {s s' : State ε} {a : Action ε} (hi : DoneInv s) (h : step cfg s a = some s') : DoneInv s' := by
  have hqk : ∀ w, s.wk = some w → w.queueClosed = true → s.accept ≠ .none → ∃ w', s'.wk = some w' ∧ w'.queueClosed = true := by
    intro w hw hc hn
    rcases step_wkBy h with h1 | ⟨h1, -⟩ | ⟨w1, w', act, h1, h2, h3, h4⟩
    · exact ⟨w, h1.trans hw, hc⟩
    · exact absurd h1 hn
    · rw [hw] at h1; cases h1
      refine ⟨w', h2, ?_⟩
      by_cases he : act = .closeQueue
      · subst he; simp [Wk.step, hc] at h3
      · rw [queueClosed_step h3 he]; exact hc
  have hq7 : 7 ≤ s.accept.stage → ∃ w', s'.wk = some w' ∧ w'.queueClosed = true := fun h7 => by
    obtain ⟨w, hw, hc⟩ := hi.queue h7
    exact hqk w hw hc (fun hn => by rw [hn] at h7; simp [Accept.stage] at h7)
  have hkeep : ∀ {s' : State ε}, s'.accept = s.accept → (7 ≤ s.accept.stage → ∃ w', s'.wk = some w' ∧ w'.queueClosed = true) → (s.doneBuf = 0 → s'.doneBuf = 0) → (s.listening = false → s'.listening = false) → s'.doneClosed = s.doneClosed → DoneInv s' := by
    intro s' h1 h2 h3 h4 h5
    refine ⟨fun h => h3 (hi.buf (h1 ▸ h)), fun h => h2 (h1 ▸ h), fun h => h4 (hi.listening (h1 ▸ h)), fun h => h5.trans (hi.closed (h1.symm.trans h))⟩
  by_cases ho : a.other = true
  · have := step_keeps ho h
    exact hkeep this.accept hq7 (by rw [this.doneBuf]; exact id) (by rw [this.listening]; exact id) this.doneClosed
  have h0 := h
  unfold Node.step at h
  split at h
  · cases h
  cases a with
  | listen =>
    simp only at h
    split at h
    · next hacc => cases h; exact ⟨fun _ => hi.buf (by simp [hacc, Accept.stage]), by simp [Accept.stage], by simp [Accept.stage], by simp⟩
    · cases h
  | acceptConn a =>
    simp only at h
    split at h
    · next hacc hl => cases h; exact ⟨fun _ => hi.buf (by simp [hacc, Accept.stage]), by simp [Accept.stage], by simp [Accept.stage], by simp⟩
    · cases h
  | acceptFail =>
    simp only at h
    split at h
    · next hacc => cases h; exact ⟨fun _ => hi.buf (by simp [hacc, Accept.stage]), by simp [Accept.stage], by simp [Accept.stage], by simp⟩
    · cases h
  | acceptRelease l =>
    simp only at h
    split at h
    · split at h
      · cases h; exact ⟨by simp [Accept.stage], by simp [Accept.stage], by simp [Accept.stage], by simp⟩
      · cases h
    · cases h
  | close =>
    simp only at h
    split at h
    · cases h; exact hkeep rfl hq7 id (fun _ => rfl) rfl
    · cases h; exact hkeep rfl hq7 id id rfl
  | closeListener c => simp only at h; split at h; cases h; exact hkeep rfl hq7 id id rfl; cases h
  | closeRecv c =>
    simp only at h
    split at h
    · split at h
      · cases h; exact hkeep rfl hq7 (fun h => by simp [h]) id rfl
      · split at h
        · cases h; exact hkeep rfl hq7 id id rfl
        · cases h
    · cases h
  | acceptStep =>
    simp only at h
    have hsame : ∀ {s' : State ε}, Same s s' → (7 ≤ s.accept.stage → ∃ w', s'.wk = some w' ∧ w'.queueClosed = true) → DoneInv s' := fun hs h7 =>
      hkeep hs.accept h7 (by rw [hs.doneBuf]; exact id) (by rw [hs.listening]; exact id) hs.doneClosed
    unfold State.acceptStep at h
    split at h
    · next hacc => cases h; exact ⟨fun _ => hi.buf (by simp [hacc, Accept.stage]), by simp [Accept.stage], by simp [Accept.stage], by simp⟩
    · next a hacc =>
      have hb := hi.buf (by simp [hacc, Accept.stage])
      unfold State.get at h
      simp only at h
      split at h
      · cases h
      · split at h
        · cases h; exact ⟨fun _ => hb, by simp [Accept.stage], by simp [Accept.stage], by simp⟩
        · split at h
          · split at h
            · cases h; exact ⟨fun _ => (drop_same _ _).doneBuf.trans hb, by simp [Accept.stage], by simp [Accept.stage], by simp⟩
            · cases h; exact ⟨fun _ => hb, by simp [hacc, Accept.stage], by simp [hacc, Accept.stage], by simp [hacc]⟩
          · cases h; exact ⟨fun _ => hb, by simp [Accept.stage], by simp [Accept.stage], by simp⟩
    · next v a hacc =>
      rcases closeClient_done h with ⟨rfl, -⟩ | h
      · exact ⟨fun _ => hi.buf (by simp [hacc, Accept.stage]), by simp [Accept.stage], by simp [Accept.stage], by simp⟩
      · exact hsame (stepConn_same h) hq7
    · next v a hacc =>
      split at h
      · cases h; exact ⟨fun _ => hi.buf (by simp [hacc, Accept.stage]), by simp [Accept.stage], by simp [Accept.stage], by simp⟩
      · cases h
    · split at h
      · cases h; exact ⟨by simp [Accept.stage], by simp [Accept.stage], by simp [Accept.stage], by simp⟩
      · cases h
    · cases h; exact ⟨by simp [Accept.stage], by simp [Accept.stage], by simp [Accept.stage], by simp⟩
    · next j l hacc =>
      rcases closeClient_done h with ⟨rfl, x, hx, hd⟩ | h
      · exact ⟨by simp [Accept.stage], by simp [Accept.stage], by simp [Accept.stage], by simp⟩
      · exact hsame (stepConn_same h) hq7
    · next j l hacc =>
      split at h
      · cases h; exact ⟨by simp [Accept.stage], by simp [Accept.stage], by simp [Accept.stage], by simp⟩
      · cases h
    · split at h
      · next w hw =>
        cases hq : Wk.step w .closeQueue with
        | none => rw [hq] at h; cases h
        | some w' =>
          rw [hq] at h; cases h
          refine ⟨by simp [Accept.stage], fun _ => ⟨w', rfl, ?_⟩, by simp [Accept.stage], by simp⟩
          simp only [Wk.step] at hq
          split at hq <;> cases hq
          rfl
      · cases h
    · next hacc =>
      split at h
      · split at h
        · cases h; exact ⟨by simp [Accept.stage], fun _ => hq7 (by simp [hacc, Accept.stage]), by simp [Accept.stage], by simp⟩
        · cases h
      · cases h
    · next hacc => cases h; exact ⟨by simp [Accept.stage], fun _ => hq7 (by simp [hacc, Accept.stage]), by simp, by simp⟩
    · next hacc => cases h; exact ⟨by simp [Accept.stage], fun _ => hq7 (by simp [hacc, Accept.stage]), fun _ => hi.listening (by simp [hacc, Accept.stage]), by simp⟩
    · cases h
  | _ => simp [Action.other] at ho

theorem DoneInv.reach {cfg : Cfg ε} {s : State ε} (h : Reachable cfg s) : DoneInv s := h.inv (P := DoneInv) (fun _ _ _ hi h => hi.step h) .new

/-! ### What keeps the node able to end -/

theorem begun_cl {c c' : Cl.State ε} {a : Cl.Action ε} (hi : Cl.ConnInv c) (hb : c.conn ≠ .none ∧ (c.once = .done → c.conn = .closed)) (hs : Cl.step c a = some c') :
    c'.conn ≠ .none ∧ (c'.once = .done → c'.conn = .closed) := by
  obtain ⟨h1, h2, h3, h4, h5, h6, h7, h8, h9⟩ := hi
  cl_cases a hs
  all_goals grind [Cl.State.closeReady, Cl.State.closeReaderDone, Cl.State.closeWriterDone, Cl.State.closeClientDone, Cl.MainPc.preConn, Cl.MainPc.deferred, Cl.MainPc.noWriter, Cl.State.report, Cl.State.send, Cl.State.setCall]

theorem begun_step {cfg : Cfg ε} {s s' : State ε} {a : Action ε} (hr : Reachable cfg s) (ho : s.over) (hb : s.begun) (h : step cfg s a = some s') : s'.begun := by
  intro x' hx' hs
  obtain ⟨j, hj⟩ := List.getElem?_of_mem hx'
  by_cases hl : s.conns.length ≤ j
  · have := new_conns ho h j x' hj hl
    rw [this] at hs; simp [Cl.State.new] at hs
  · obtain ⟨x, hx⟩ : ∃ x, s.conns[j]? = some x := ⟨s.conns[j]'(by omega), List.getElem?_eq_getElem _⟩
    obtain ⟨y, as, hy, hrun, -⟩ := step_trace h j x hx
    rw [hj] at hy; cases hy
    have hx0 := hb x (List.mem_of_getElem? hx) ((run_side hrun).symm.trans hs)
    exact (Cl.run_inv (P := fun c => Cl.ConnInv c ∧ (c.conn ≠ .none ∧ (c.once = .done → c.conn = .closed))) (fun _ _ _ hd hs => ⟨hd.1.step hs, begun_cl hd.1 hd.2 hs⟩) hrun
      ⟨Cl.ConnInv.reach (Reaches.reach hr j x hx), hx0⟩).2

theorem staffed_wk {w w' : Wk.State ε} {act : Wk.Action ε} (h : Wk.step w act = some w') (hn : ∀ i e, act ≠ .handlerReturn i (some e)) (hs : ∃ p ∈ w.workers, p.lost = false) : ∃ p ∈ w'.workers, p.lost = false := by
  obtain ⟨p, hp, hl⟩ := hs
  obtain ⟨i, hi⟩ := List.getElem?_of_mem hp
  have hset : ∀ (k : Nat) (q q' : Wk.Pc ε), w.workers[k]? = some q → (q.lost = false → q'.lost = false) → ∃ p ∈ w.workers.set k q', p.lost = false := by
    intro k q q' hk hq
    by_cases hki : k = i
    · subst hki
      rw [hi] at hk; cases hk
      exact ⟨q', List.mem_of_getElem? (List.getElem?_set_self (List.getElem?_eq_some_iff.1 hi).1), hq hl⟩
    · exact ⟨p, List.mem_of_getElem? (i := i) (by rw [List.getElem?_set_ne hki]; exact hi), hl⟩
  unfold Wk.step at h
  split at h
  · split at h
    · cases h
    · split at h
      · cases h; exact ⟨p, hp, hl⟩
      · cases h
  · split at h
    · cases h
    · cases h; exact ⟨p, hp, hl⟩
  · split at h
    · next hq =>
      split at h
      · cases h; exact hset _ _ _ hq (fun _ => rfl)
      · split at h
        · cases h; exact hset _ _ _ hq (fun _ => rfl)
        · cases h
    · next hq =>
      split at h
      · cases h; exact hset _ _ _ hq (fun _ => rfl)
      · cases h; exact hset _ _ _ hq (fun _ => rfl)
    · next hq =>
      split at h
      · cases h; exact hset _ _ _ hq (fun h => by cases h)
      · cases h
    · next hq =>
      split at h
      · cases h; exact hset _ _ _ hq (fun h => by cases h)
      · cases h
    · cases h
  · split at h
    · next hq =>
      split at h
      · cases h; exact hset _ _ _ hq (fun _ => rfl)
      · exact absurd rfl (hn _ _)
    · cases h
  · split at h
    · split at h
      · cases h
        refine ⟨p, ?_, hl⟩
        unfold Wk.State.ctxSend
        split <;> (try split) <;> exact hp
      · cases h
    · cases h

theorem staffed_iff {s : State ε} : s.staffed ↔ ∃ w, s.wk = some w ∧ ∃ p ∈ w.workers, p.lost = false := by
  unfold State.staffed
  constructor
  · rintro ⟨w, hw, p, hp, h⟩
    refine ⟨w, hw, p, hp, ?_⟩
    rcases p with _ | _ | _ | _ | _ | b <;> simp_all [Wk.Pc.lost]
    cases b <;> simp_all
  · rintro ⟨w, hw, p, hp, h⟩
    refine ⟨w, hw, p, hp, ?_⟩
    rcases p with _ | _ | _ | _ | _ | b <;> simp_all [Wk.Pc.lost]

theorem staffed_step {cfg : Cfg ε} {s s' : State ε} {a : Action ε} (ho : s.over) (hs : s.staffed) (hn : ∀ i e, a ≠ .handlerReturn i (some e)) (h : step cfg s a = some s') : s'.staffed := by
  rw [staffed_iff] at hs ⊢
  obtain ⟨w, hw, hp⟩ := hs
  rcases step_wkBy h with h1 | ⟨h1, -⟩ | ⟨w1, w', act, h1, h2, h3, h4⟩
  · exact ⟨w, h1.trans hw, hp⟩
  · simp [State.over, h1] at ho
  · rw [hw] at h1; cases h1
    refine ⟨w', h2, staffed_wk h3 ?_ hp⟩
    rintro i e rfl
    exact hn i e h4

/-! ### Nothing to do -/

/-- Nothing that the node does by itself is possible. -/
def Idles (cfg : Cfg ε) (s : State ε) : Prop := ∀ a, s.own a = true → step cfg s a = none

theorem stepConn_isSome {s : State ε} {j : Nat} {x : Conn ε} {b : Cl.Action ε} {c : Cl.State ε} (hx : s.conns[j]? = some x) (hc : Cl.step x.c b = some c) : s.stepConn j b = some { s with conns := s.conns.set j { x with c := c } } := by
  simp [State.stepConn, hx, hc]

theorem lock_none {cfg : Cfg ε} {s : State ε} (hr : Reachable cfg s) (ho : s.over) : (s.pool .inbound).lock = none := by
  cases hl : (s.pool .inbound).lock with
  | none => rfl
  | some t =>
    obtain ⟨h1, h2⟩ := (Inv.reach hr).lock _ _ hl
    cases t with
    | call k => cases h1
    | accept =>
      exfalso
      apply h2
      unfold State.over at ho
      simp only [ev]
      cases ha : s.accept <;> simp_all [Accept.victim]

/-- A closed inbound connection ends, unless it waits for the work channel. -/
theorem conn_progress [hne : Nonempty ε] {cfg : Cfg ε} {s : State ε} (hr : Reachable cfg s) (ho : s.over) (hcr : s.crashed = false) (hd : Idles cfg s) {j : Nat} {x : Conn ε} (hx : s.conns[j]? = some x) (hs : x.c.side = .inbound)
    (hc : x.c.conn = .closed) (hon : x.c.once = .done) : x.c.main = .finished ∨ ∃ m, x.c.main = .delivering m := by
  obtain ⟨e⟩ := hne
  have hci := Cl.ConnInv.reach (Reaches.reach hr j x hx)
  have hno : ∀ b, s.own (.conn j b) = true → s.connStep j b = none := fun b hb => by
    have := hd _ hb
    simpa [Node.step, hcr] using this
  have hmain := hno .main (by simp [State.own, hx, hs])
  have hrf := hno (.readFail e) (by simp [State.own, hx, hs, hc])
  have hhf := hno (.hsFail e) (by simp [State.own, hx, hs, hc])
  simp only [State.connStep, hx] at hmain hrf hhf
  have hpre : x.c.main.preConn = false := by
    cases hp : x.c.main.preConn with
    | false => rfl
    | true => rw [hci.pre hp] at hc; cases hc
  have hl := lock_none hr ho
  cases hm : x.c.main <;> simp only [hm, State.stepConn, hx, Cl.step, Cl.State.mainStep, State.route, State.remove, hs, hl, hon, Option.map_some, Option.map_eq_none_iff, if_true] at hmain hrf hhf <;> try (simp [hm, Cl.MainPc.preConn] at hpre; done)
  all_goals first
    | (cases hmain; done)
    | (cases hrf; done)
    | (cases hhf; done)
    | (left; rfl)
    | (right; exact ⟨_, rfl⟩)
    | (split at hmain <;> cases hmain)
    | (simp only [ne_eq, not_true_eq_false, if_false] at hmain; split at hmain <;> cases hmain)

/-- A worker has ended, or waits at the empty channel. -/
theorem worker_progress {cfg : Cfg ε} {s : State ε} (hr : Reachable cfg s) (hcr : s.crashed = false) (hd : Idles cfg s) {w : Wk.State ε} (hw : s.wk = some w) {i : Nat} {p : Wk.Pc ε} (hp : w.workers[i]? = some p) :
    (p = .idle ∧ w.items.length ≤ w.head ∧ w.queueClosed = false) ∨ ∃ b, p = .ended b := by
  have hwr := (Stage.reach hr).workers w hw
  have hwi := Wk.Inv.reach hwr
  have hpc := hwi.pc i p hp
  have hwork : s.workStep i = none := by
    have := hd (.work i) rfl
    simpa [Node.step, hcr] using this
  have hhr := hd (.handlerReturn i none) rfl
  simp only [Node.step, hcr, Bool.false_eq_true, if_false, hw] at hhr
  have hitem : ∀ k, k < w.head → ∃ it, w.items[k]? = some it ∧ ∃ x : Conn ε, s.conns[it.client]? = some x ∧ x.c.hasDelivered = true := fun k hk => by
    have hlt : k < w.items.length := Nat.lt_of_lt_of_le hk hwi.head
    exact ⟨w.items[k], List.getElem?_eq_getElem hlt, ItemInv.reach hr w hw _ (List.getElem_mem hlt)⟩
  unfold State.workStep at hwork
  simp only [hw, hp] at hwork
  cases p with
  | ended b => exact .inr ⟨b, rfl⟩
  | idle =>
    left
    simp only [Wk.step, hp] at hwork
    split at hwork
    · cases hwork
    · next hlt =>
      split at hwork
      · cases hwork
      · next hq => exact ⟨rfl, by omega, by simpa using hq⟩
  | next k h =>
    simp only [Wk.step, hp] at hwork
    split at hwork <;> cases hwork
  | inside k h =>
    simp only [Wk.step, hp] at hhr
    cases hhr
  | failing k e =>
    obtain ⟨it, hit, x, hx, hdl⟩ := hitem k hpc.1
    simp [Wk.step, hp, hit, State.stepConn, hx, Cl.step, hdl] at hwork
  | closing k =>
    obtain ⟨it, hit, x, hx, hdl⟩ := hitem k hpc.1
    simp only [Wk.step, hp, hit, Option.map_some, State.closeClient, hx] at hwork
    have hcl : s.closes it.client = true := by
      simp only [State.closes, hw, List.any_eq_true]
      exact ⟨_, List.mem_of_getElem? hp, by simp [hit]⟩
    have hcc := hd (.conn it.client .closeConn) (by simp [State.own, hx, hcl])
    simp only [Node.step, hcr, Bool.false_eq_true, if_false, State.connStep, hx, State.stepConn, Cl.step, Cl.State.closeConn, Option.map_eq_none_iff] at hcc
    cases ho : x.c.once with
    | fresh => simp [ho, State.stepConn, hx, Cl.step, Cl.State.closeBegin] at hwork
    | running => simp [ho] at hcc
    | done => simp [ho] at hwork

/-- Nobody waits for the work channel. -/
theorem not_delivering {cfg : Cfg ε} {s : State ε} (hr : Reachable cfg s) (hst : s.staffed) (hcr : s.crashed = false) (hd : Idles cfg s) {j : Nat} {x : Conn ε} (hx : s.conns[j]? = some x) (hs : x.c.side = .inbound) (m : Message) :
    x.c.main ≠ .delivering m := by
  intro hm
  obtain ⟨w, hw, p, hp, hl⟩ := staffed_iff.1 hst
  obtain ⟨i, hi⟩ := List.getElem?_of_mem hp
  have hwr := (Stage.reach hr).workers w hw
  have hwi := Wk.Inv.reach hwr
  have hlen : i < w.workers.length := (List.getElem?_eq_some_iff.1 hi).1
  have hdel := hd (.conn j .deliver) (by simp [State.own, hx, hs])
  simp only [Node.step, hcr, Bool.false_eq_true, if_false, State.connStep, hx, State.deliver, hm, (NilInv.reach hr j x hx hs).2, hw] at hdel
  split at hdel
  · cases hdel
  · next hq =>
    have hfull : ¬ w.items.length - w.head < w.numWorkers := fun hlt => by
      simp [Wk.step, hq, hlt, State.stepConn, hx, Cl.step, hm] at hdel
    rcases worker_progress hr hcr hd hw hi with ⟨-, h1, -⟩ | ⟨b, rfl⟩
    · have := hwi.len; have := hwi.nw; omega
    · simp only [Wk.Pc.lost] at hl
      subst hl
      exact hq (Wk.ended_reach hwr i hi)

/-- **Closing a node does not get stuck**: if there is nothing that it can do by itself, it is closed. -/
theorem progress [hne : Nonempty ε] {cfg : Cfg ε} {s : State ε} (hr : Reachable cfg s) (ho : s.over) (hb : s.begun) (hst : s.staffed) (hcr : s.crashed = false) (hd : Idles cfg s) : s.Closed := by
  have hS := Stage.reach hr
  have hD := DoneInv.reach hr
  obtain ⟨w, hw, -⟩ := id hst
  have hacc : s.acceptStep cfg = none := by
    have := hd .acceptStep rfl
    simpa [Node.step, hcr] using this
  have hended : s.accept = .ended := by
    unfold State.acceptStep at hacc
    cases ha : s.accept with
    | none | start | get _ | evict _ _ _ => simp [State.over, ha] at ho
    | loop =>
      have hl : s.listenerOpen = false := by simpa [State.over, ha] using ho
      have := hd .acceptFail (by simp [State.own, hl])
      simp [Node.step, hcr, ha] at this
    | report => rw [ha] at hacc; simp [hD.buf (by simp [ha, Accept.stage])] at hacc
    | release =>
      have := hd (.acceptRelease ((s.pool .inbound).entries.map Prod.snd)) rfl
      simp [Node.step, hcr, ha, lock_none hr ho] at this
    | releasing l b =>
      exfalso
      rw [ha] at hacc
      cases l with
      | nil => cases hacc
      | cons j l =>
        obtain ⟨h1, h2⟩ := RelInv.reach hr _ _ ha
        obtain ⟨x, hx, hs⟩ := h1 j (List.mem_cons_self)
        cases b with
        | false =>
          have hcc := hd (.conn j .closeConn) (by simp [State.own, hx, hs])
          simp only [Node.step, hcr, Bool.false_eq_true, if_false, State.connStep, hx, State.stepConn, Cl.step, Cl.State.closeConn, Option.map_eq_none_iff] at hcc
          simp only [State.closeClient, hx] at hacc
          cases hon : x.c.once with
          | fresh => simp [hon, State.stepConn, hx, Cl.step, Cl.State.closeBegin] at hacc
          | running => simp [hon] at hcc
          | done => simp [hon] at hacc
        | true =>
          obtain ⟨y, hy, hon⟩ := h2 rfl j l rfl
          rw [hx] at hy; cases hy
          have hc := (hb x (List.mem_of_getElem? hx) hs).2 hon
          rcases conn_progress hr ho hcr hd hx hs hc hon with hm | ⟨m, hm⟩
          · have := (Cl.Life.reach (Reaches.reach hr j x hx)).client.2 hm
            simp [State.isDone, hx, this] at hacc
          · exact not_delivering hr hst hcr hd hx hs m hm
    | closeWork =>
      rw [ha] at hacc
      simp only [hw, Option.map_eq_none_iff, Wk.step] at hacc
      split at hacc
      · next hq => have := hS.queue w hw hq; simp [ha, Accept.stage] at this
      · cases hacc
    | waitWorkers =>
      rw [ha] at hacc
      simp only [hw] at hacc
      split at hacc
      · cases hacc
      · next hn =>
        exfalso
        apply hn
        rw [List.all_eq_true]
        intro p hp
        obtain ⟨i, hi⟩ := List.getElem?_of_mem hp
        obtain ⟨w', hw', hq⟩ := hD.queue (by simp [ha, Accept.stage])
        rw [hw] at hw'; cases hw'
        rcases worker_progress hr hcr hd hw hi with ⟨-, -, h1⟩ | ⟨b, rfl⟩
        · rw [hq] at h1; cases h1
        · rfl
    | store => rw [ha] at hacc; cases hacc
    | closeDone => rw [ha] at hacc; cases hacc
    | ended => rfl
  have hstage : s.accept.stage = 10 := by rw [hended]; rfl
  refine ⟨hended, hD.listening (by omega), fun x hx hs => ?_, fun w' hw' p hp => ?_, fun c hc => ?_⟩
  · obtain ⟨j, hj⟩ := List.getElem?_of_mem hx
    have hpast : past x.c := Classical.byContradiction fun hn => hS.gone (by omega) j ⟨x, hj, hs, hn⟩
    have hfin : x.c.main = .finished := by
      rcases hpast with hm | hm
      · have := hd (.conn j .main) (by simp [State.own, hj, hs])
        simp [Node.step, hcr, State.connStep, hj, hm, State.stepConn, Cl.step, Cl.State.mainStep] at this
      · exact hm
    obtain ⟨h1, h2⟩ := hb x hx hs
    exact ⟨hfin, h2 ((Cl.ConnInv.reach (Reaches.reach hr j x hj)).deferred (by simp [hfin, Cl.MainPc.deferred]) h1)⟩
  · have := hS.wrk (by omega) w' hw'
    rw [allEnded, List.all_eq_true] at this
    have := this p hp
    cases p <;> simp at this
    exact ⟨_, rfl⟩
  · obtain ⟨k, hk⟩ := List.getElem?_of_mem hc
    have h1 := hd (.closeListener k) rfl
    have h2 := hd (.closeRecv k) rfl
    simp only [Node.step, hcr, Bool.false_eq_true, if_false, hk] at h1 h2
    cases c with
    | closing => cases h1
    | waiting =>
      simp only [hD.closed hended] at h2
      split at h2 <;> cases h2
    | gotError => exact .inl rfl
    | gotClosed => exact .inr rfl

/-- What is left, along a run. -/
theorem count_left {cfg : Cfg ε} (as : List (Action ε)) {s s' : State ε} (hr : Reachable cfg s) (ho : s.over) (h : runs (step cfg) s as = some s') :
    s'.left cfg + count State.own cfg s as ≤ s.left cfg + (2 * cfg.numHandlers + 6) * count State.feeds cfg s as := by
  induction as generalizing s with
  | nil => cases h; simp [count]
  | cons a as ih =>
    obtain ⟨s1, h1, h⟩ := runs_cons h
    have h2 := left_step hr ho h1
    have h3 := ih (hr.snoc h1) (over_step ho h1) h
    simp only [count, h1]
    rw [Nat.mul_add]
    have h4 : (2 * cfg.numHandlers + 6) * (if s.feeds a = true then 1 else 0) = if s.feeds a = true then 2 * cfg.numHandlers + 6 else 0 := by split <;> simp
    rw [h4]
    omega

/-- What keeps it able to end, along a run. -/
theorem able_run {cfg : Cfg ε} (as : List (Action ε)) {s s' : State ε} (hr : Reachable cfg s) (ho : s.over) (hb : s.begun) (hst : s.staffed) (hn : ∀ i e, .handlerReturn i (some e) ∉ as)
    (h : runs (step cfg) s as = some s') : Reachable cfg s' ∧ s'.over ∧ s'.begun ∧ s'.staffed := by
  induction as generalizing s with
  | nil => cases h; exact ⟨hr, ho, hb, hst⟩
  | cons a as ih =>
    obtain ⟨s1, h1, h⟩ := runs_cons h
    exact ih (hr.snoc h1) (over_step ho h1) (begun_step hr ho hb h1) (staffed_step ho hst (fun i e he => hn i e (he ▸ List.mem_cons_self)) h1) (fun i e hm => hn i e (List.mem_cons_of_mem _ hm)) h

end Noise.Node
