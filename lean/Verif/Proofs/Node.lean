import Verif.Model.Node
import Verif.Proofs.TS
import Verif.Proofs.ClientTrace
import Verif.Proofs.Worker
/-! # The whole node: what a step does to pools and connections -/
namespace Noise.Node
variable {ε : Type}

/-- The client has removed its address from the pool. -/
def past (c : Cl.State ε) : Prop := c.main = .done ∨ c.main = .finished

theorem past_step {c c' : Cl.State ε} {a : Cl.Action ε} (hs : Cl.step c a = some c') (h : a ≠ .main ∨ c.main ≠ .remove) : past c' ↔ past c := by
  unfold past
  cl_cases a hs
  all_goals grind [Cl.State.closeReady, Cl.State.closeReaderDone, Cl.State.closeWriterDone, Cl.State.closeClientDone, Cl.State.report, Cl.State.send, Cl.State.setCall]

/-- Connections go on, none is added, and none removes itself from the pool. -/
structure Mild (s s' : State ε) : Prop where
  len : s'.conns.length = s.conns.length
  old : ∀ (j : Nat) (x : Conn ε), s.conns[j]? = some x → ∃ x' : Conn ε, s'.conns[j]? = some x' ∧ x'.addr = x.addr ∧ x'.c.side = x.c.side ∧ (past x'.c ↔ past x.c)
  run : ∀ (j : Nat) (x x' : Conn ε), s.conns[j]? = some x → s'.conns[j]? = some x' → ∃ as, Cl.run x.c as = some x'.c

theorem Mild.refl (s : State ε) : Mild s s := ⟨rfl, fun _ x h => ⟨x, h, rfl, rfl, Iff.rfl⟩, fun j x x' h h' => by rw [h] at h'; cases h'; exact ⟨[], rfl⟩⟩

theorem Mild.of_eq {s s' : State ε} (h : s'.conns = s.conns) : Mild s s' := ⟨by rw [h], fun _ x hx => ⟨x, by rw [h]; exact hx, rfl, rfl, Iff.rfl⟩, fun j x x' hx h' => by rw [h, hx] at h'; cases h'; exact ⟨[], rfl⟩⟩

theorem Mild.trans {s s1 s2 : State ε} (h1 : Mild s s1) (h2 : Mild s1 s2) : Mild s s2 :=
  ⟨h2.len.trans h1.len, fun j x hx => by
    obtain ⟨x1, h, a, b, c⟩ := h1.old j x hx
    obtain ⟨x2, h', a', b', c'⟩ := h2.old j x1 h
    exact ⟨x2, h', a'.trans a, b'.trans b, c'.trans c⟩, fun j x x2 hx hx2 => by
    obtain ⟨x1, h, -⟩ := h1.old j x hx
    obtain ⟨as, h3⟩ := h1.run j x x1 hx h
    obtain ⟨bs, h4⟩ := h2.run j x1 x2 h hx2
    exact ⟨as ++ bs, by rw [Cl.run_append, h3]; exact h4⟩⟩

theorem Mild.set {s s' : State ε} {j : Nat} {x x' : Conn ε} (hx : s.conns[j]? = some x) (h : s'.conns = s.conns.set j x') (ha : x'.addr = x.addr) (hb : x'.c.side = x.c.side) (hc : past x'.c ↔ past x.c)
    (hr : ∃ as, Cl.run x.c as = some x'.c) : Mild s s' := by
  refine ⟨by rw [h]; simp, fun i y hy => ?_, fun i y y' hy hy' => ?_⟩
  swap
  · rw [h, List.getElem?_set] at hy'
    by_cases hij : j = i
    · subst hij
      rw [hx] at hy; cases hy
      simp only [if_true, (List.getElem?_eq_some_iff.1 hx).1] at hy'
      cases hy'; exact hr
    · simp only [hij, if_false, hy] at hy'
      cases hy'; exact ⟨[], rfl⟩
  rw [h, List.getElem?_set]
  by_cases hij : j = i
  · subst hij
    rw [hx] at hy; cases hy
    exact ⟨x', by simp [(List.getElem?_eq_some_iff.1 hx).1], ha, hb, hc⟩
  · exact ⟨y, by simp [hij, hy], rfl, rfl, Iff.rfl⟩

/-- Everything but the connections is as before. -/
structure Same (s s' : State ε) : Prop where
  pool : s'.pool = s.pool
  wk : s'.wk = s.wk
  accept : s'.accept = s.accept
  calls : s'.calls = s.calls
  listening : s'.listening = s.listening
  listenerOpen : s'.listenerOpen = s.listenerOpen
  doneBuf : s'.doneBuf = s.doneBuf
  doneClosed : s'.doneClosed = s.doneClosed
  closers : s'.closers = s.closers
  log : s'.log = s.log
  crashed : s'.crashed = s.crashed

theorem Same.refl (s : State ε) : Same s s := ⟨rfl, rfl, rfl, rfl, rfl, rfl, rfl, rfl, rfl, rfl, rfl⟩

theorem Same.trans {s s1 s2 : State ε} (h1 : Same s s1) (h2 : Same s1 s2) : Same s s2 :=
  ⟨h2.1.trans h1.1, h2.2.trans h1.2, h2.3.trans h1.3, h2.4.trans h1.4, h2.5.trans h1.5, h2.6.trans h1.6, h2.7.trans h1.7, h2.8.trans h1.8, h2.9.trans h1.9, h2.10.trans h1.10, h2.11.trans h1.11⟩

theorem stepConn_some {s s' : State ε} {j : Nat} {a : Cl.Action ε} (h : s.stepConn j a = some s') :
    ∃ x c, s.conns[j]? = some x ∧ Cl.step x.c a = some c ∧ s' = { s with conns := s.conns.set j { x with c := c } } := by
  unfold State.stepConn at h
  split at h
  · next x hx =>
    cases hc : Cl.step x.c a with
    | none => rw [hc] at h; cases h
    | some c => rw [hc] at h; exact ⟨x, c, hx, hc, (Option.some.inj h).symm⟩
  · cases h

theorem stepConn_same {s s' : State ε} {j : Nat} {a : Cl.Action ε} (h : s.stepConn j a = some s') : Same s s' := by
  obtain ⟨x, c, -, -, rfl⟩ := stepConn_some h
  exact ⟨rfl, rfl, rfl, rfl, rfl, rfl, rfl, rfl, rfl, rfl, rfl⟩

theorem stepConn_mild {s s' : State ε} {j : Nat} {a : Cl.Action ε} (h : s.stepConn j a = some s') (ha : a ≠ .main ∨ ∀ x, s.conns[j]? = some x → x.c.main ≠ .remove) : Mild s s' := by
  obtain ⟨x, c, hx, hc, rfl⟩ := stepConn_some h
  exact Mild.set (x' := { x with c := c }) hx rfl rfl (Cl.side_step hc) (past_step hc (ha.imp_right fun h => h x hx)) ⟨[a], by simp [Cl.run, hc]⟩

theorem drop_same (s : State ε) (j : Nat) : Same s (s.drop j) := by
  unfold State.drop
  cases h : s.stepConn j .poolDrop with
  | none => exact .refl _
  | some s' => exact stepConn_same h

theorem drop_mild (s : State ε) (j : Nat) : Mild s (s.drop j) := by
  unfold State.drop
  cases h : s.stepConn j .poolDrop with
  | none => exact .refl _
  | some s' => exact stepConn_mild h (.inl (by simp))

theorem drops_same (l : List Nat) (s : State ε) : Same s (l.foldl State.drop s) := by
  induction l generalizing s with
  | nil => exact .refl _
  | cons j l ih => exact (drop_same s j).trans (ih _)

theorem drops_mild (l : List Nat) (s : State ε) : Mild s (l.foldl State.drop s) := by
  induction l generalizing s with
  | nil => exact .refl _
  | cons j l ih => exact (drop_mild s j).trans (ih _)

theorem closeClient_some {s s' t : State ε} {j : Nat} (h : s.closeClient j s' = some t) : t = s' ∨ s.stepConn j .closeBegin = some t := by
  unfold State.closeClient at h
  split at h
  · split at h
    · exact .inr h
    · cases h
    · exact .inl (Option.some.inj h).symm
  · cases h

/-- The client that a goroutine evicts. -/
def Accept.victim : Accept → Option Nat
  | .evict v _ _ => .some v
  | _ => .none
def Pc.victim : Pc ε → Option Nat
  | .evict v _ => some v
  | _ => none
def ev (s : State ε) : Tid → Option Nat
  | .accept => s.accept.victim
  | .call k => (s.calls[k]?).bind fun c => c.pc.victim

/-- The pool that a goroutine uses. -/
def Tid.side : Tid → Cl.Side
  | .accept => .inbound
  | .call _ => .outbound

/-- The inbound pool has been released. -/
def Accept.released : Accept → Bool
  | .releasing _ _ | .closeWork | .waitWorkers | .store | .closeDone | .ended => true
  | _ => false

/-- The accept goroutine may still get clients from the pool. -/
def Accept.serving : Accept → Bool
  | .get _ | .evict _ _ _ => true
  | _ => false

/-- Somebody wants a client for this address. -/
def Wants (s : State ε) : Cl.Side → Text → Prop
  | .inbound, a => s.accept = .get a
  | .outbound, a => ∃ (k : Nat) (c : Call ε), s.calls[k]? = some c ∧ c.addr = a

/-- What a step does, as far as pools are concerned. -/
inductive Eff (max : Nat) (s s' : State ε) : Prop where
  | quiet (hp : s'.pool = s.pool) (hm : Mild s s') (he : ev s' = ev s) (hr : s.accept.released = true → s'.accept.released = true)
  | found (d : Cl.Side) (e : Text × Nat) (hl : (s.pool d).lock = none) (hf : (s.pool d).entries.find? (fun q => q.1 = e.1) = some e)
      (hp : s'.pool = fun b => if b = d then ⟨none, e :: (s.pool d).entries.filter (fun q => q.1 ≠ e.1)⟩ else s.pool b)
      (hc : s'.conns = s.conns) (he : ev s' = ev s) (hr : s.accept.released = true → s'.accept.released = true)
  | added (d : Cl.Side) (a : Text) (hl : (s.pool d).lock = none) (hf : (s.pool d).entries.find? (fun q => q.1 = a) = none) (hn : (s.pool d).entries.length ≠ max)
      (hp : s'.pool = fun b => if b = d then ⟨none, (a, s.conns.length) :: (s.pool d).entries⟩ else s.pool b)
      (hc : s'.conns = s.conns ++ [⟨a, Cl.State.new d, false⟩]) (he : ev s' = ev s) (hd : d = .inbound → s.accept.serving = true) (hr : s.accept.released = true → s'.accept.released = true)
      (hw : Wants s d a) (hacc : d = .inbound → s'.accept ≠ s.accept)
  | evict (t : Tid) (e : Text × Nat) (hl : (s.pool t.side).lock = none) (hn : (s.pool t.side).entries.length = max) (hg : (s.pool t.side).entries.getLast? = some e)
      (hp : s'.pool = fun b => if b = t.side then ⟨some t, (s.pool t.side).entries.dropLast⟩ else s.pool b)
      (hm : Mild s s') (he0 : ev s t = none) (he : ev s' t = some e.2) (heo : ∀ t', t' ≠ t → ev s' t' = ev s t') (hd : t.side = .inbound → s.accept.serving = true)
      (hr : s.accept.released = true → s'.accept.released = true) (hw : ∃ a, Wants s t.side a ∧ (s.pool t.side).entries.find? (fun q => q.1 = a) = none)
  | evicted (t : Tid) (v : Nat) (a : Text) (he0 : ev s t = some v) (hd : s.isDone v = true)
      (hp : s'.pool = fun b => if b = t.side then ⟨none, (a, s.conns.length) :: (s.pool t.side).entries⟩ else s.pool b)
      (hc : s'.conns = s.conns ++ [⟨a, Cl.State.new t.side, false⟩]) (he : ev s' t = none) (heo : ∀ t', t' ≠ t → ev s' t' = ev s t') (hs : t.side = .inbound → s.accept.serving = true)
      (hr : s.accept.released = true → s'.accept.released = true)
  | removed (j : Nat) (x : Conn ε) (hx : s.conns[j]? = some x) (hrm : x.c.main = .remove) (hl : (s.pool x.c.side).lock = none)
      (hp : s'.pool = fun b => if b = x.c.side then ⟨none, (s.pool x.c.side).entries.filter (fun q => q.1 ≠ x.addr)⟩ else s.pool b)
      (hlen : s'.conns.length = s.conns.length)
      (hc : ∀ (i : Nat) (y : Conn ε), s.conns[i]? = some y → ∃ y' : Conn ε, s'.conns[i]? = some y' ∧ y'.addr = y.addr ∧ y'.c.side = y.c.side ∧ (past y'.c ↔ past y.c ∨ i = j) ∧ ∃ as, Cl.run y.c as = some y'.c)
      (he : ev s' = ev s) (hr : s'.accept = s.accept)
  | released (l : List Nat) (hl : (s.pool .inbound).lock = none) (hperm : l.Perm ((s.pool .inbound).entries.map Prod.snd)) (ha : s'.accept = .releasing l false) (hb : s.accept = .release)
      (hp : s'.pool = fun b => if b = .inbound then ⟨none, []⟩ else s.pool b) (hm : Mild s s') (he : ev s' = ev s)

theorem ev_of_eq {s s' : State ε} (ha : s'.accept = s.accept) (hc : s'.calls = s.calls) : ev s' = ev s := by
  funext t; cases t <;> simp [ev, ha, hc]

theorem ev_setCall {s : State ε} {k : Nat} {c c' : Call ε} (hc : s.calls[k]? = some c) (h : c'.pc.victim = c.pc.victim) : ev (s.setCall k c') = ev s := by
  funext t
  cases t with
  | accept => rfl
  | call i =>
    simp only [ev, State.setCall, List.getElem?_set]
    by_cases hi : k = i
    · subst hi; rw [hc]; simp [(List.getElem?_eq_some_iff.1 hc).1, h]
    · simp [hi]

theorem Eff.same {max : Nat} {s s' : State ε} (h : Same s s') (hm : Mild s s') : Eff max s s' :=
  .quiet h.pool hm (ev_of_eq h.accept h.calls) (by rw [h.accept]; exact id)

theorem setPool_pool (s : State ε) (d : Cl.Side) (p : Pool) : (s.setPool d p).pool = fun b => if b = d then p else s.pool b := rfl

theorem victim_none_of {s : State ε} {k : Nat} {c : Call ε} (hc : s.calls[k]? = some c) : ev s (.call k) = c.pc.victim := by simp [ev, hc]

theorem get_eff {max : Nat} {s s' : State ε} {t : Tid} {a : Text} {found added evicts : State ε → Nat → State ε}
    (h : s.get max t.side t a found added evicts = some s') (he0 : ev s t = none) (hsv : t.side = .inbound → s.accept.serving = true) (hwant : Wants s t.side a)
    (hf : ∀ s1 j, s1.accept = s.accept → s1.calls = s.calls → (found s1 j).pool = s1.pool ∧ (found s1 j).conns = s1.conns ∧ ev (found s1 j) = ev s1 ∧ (s.accept.released = true → (found s1 j).accept.released = true))
    (ha : ∀ s1 j, s1.accept = s.accept → s1.calls = s.calls → (added s1 j).pool = s1.pool ∧ (added s1 j).conns = s1.conns ∧ ev (added s1 j) = ev s1 ∧ (s.accept.released = true → (added s1 j).accept.released = true) ∧
      (t.side = .inbound → (added s1 j).accept ≠ s.accept))
    (hv : ∀ s1 j, s1.accept = s.accept → s1.calls = s.calls → (evicts s1 j).pool = s1.pool ∧ (evicts s1 j).conns = s1.conns ∧ ev (evicts s1 j) t = some j ∧ (∀ t', t' ≠ t → ev (evicts s1 j) t' = ev s1 t') ∧
      (s.accept.released = true → (evicts s1 j).accept.released = true)) :
    Eff max s s' ∨ s' = { s with crashed := true } := by
  unfold State.get at h
  simp only at h
  split at h
  · cases h
  · next hl =>
    have hl : (s.pool t.side).lock = none := by simpa using hl
    split at h
    · next e hfe =>
      left
      have hea : e.1 = a := by simpa using List.find?_some hfe
      subst hea
      injection h with h
      subst h
      obtain ⟨h1, h2, h3, h4⟩ := hf (s.setPool t.side { s.pool t.side with entries := e :: (s.pool t.side).entries.filter (fun q => q.1 ≠ e.1) }) e.2 rfl rfl
      exact .found t.side e hl hfe (by rw [h1]; simp [setPool_pool, hl]) h2 (h3.trans (ev_of_eq rfl rfl)) h4
    · next hfe =>
      split at h
      · next hn =>
        split at h
        · next e hg =>
          left
          injection h with h
          subst h
          have hs := drop_same (s.setPool t.side ⟨some t, (s.pool t.side).entries.dropLast⟩) e.2
          have hm := drop_mild (s.setPool t.side ⟨some t, (s.pool t.side).entries.dropLast⟩) e.2
          obtain ⟨h1, h2, h3, h4, h5⟩ := hv ((s.setPool t.side ⟨some t, (s.pool t.side).entries.dropLast⟩).drop e.2) e.2 hs.accept hs.calls
          refine .evict t e hl hn hg (by rw [h1, hs.pool, setPool_pool]) ?_ he0 h3 (fun t' ht => (h4 t' ht).trans (by rw [ev_of_eq hs.accept hs.calls]; rfl)) hsv h5 ⟨a, hwant, hfe⟩
          have hm0 : Mild s (s.setPool t.side ⟨some t, (s.pool t.side).entries.dropLast⟩) := .of_eq rfl
          exact (hm0.trans hm).trans (.of_eq h2)
        · right
          exact (Option.some.inj h).symm
      · next hn =>
        left
        injection h with h
        subst h
        obtain ⟨h1, h2, h3, h4, h5⟩ := ha (s.push t.side a) s.conns.length rfl rfl
        exact .added t.side a hl hfe hn (by rw [h1]; simp [State.push, setPool_pool, hl]) (by rw [h2]; rfl) (h3.trans (ev_of_eq rfl rfl)) hsv h4 hwant h5

theorem closeClient_eff {max : Nat} {s s1 s' : State ε} {j : Nat} (h : s.closeClient j s1 = some s') (hp : s1.pool = s.pool) (hc : s1.conns = s.conns) (he : ev s1 = ev s)
    (hr : s.accept.released = true → s1.accept.released = true) : Eff max s s' := by
  rcases closeClient_some h with rfl | h
  · exact .quiet hp (.of_eq hc) he hr
  · exact .same (stepConn_same h) (stepConn_mild h (.inl (by simp)))

theorem acceptStep_eff {cfg : Cfg ε} {s s' : State ε} (h : s.acceptStep cfg = some s') : Eff cfg.max s s' ∨ s' = { s with crashed := true } := by
  unfold State.acceptStep at h
  split at h
  · next ha => left; cases h; exact .quiet rfl (.of_eq rfl) (by funext t; cases t <;> simp [ev, ha, Accept.victim]) (by simp [ha, Accept.released])
  · next a ha =>
    refine get_eff (t := .accept) h (by simp [ev, ha, Accept.victim]) (fun _ => by simp [ha, Accept.serving]) ha ?_ ?_ ?_
    · intro s1 j h1 h2
      exact ⟨rfl, rfl, by funext t; cases t <;> simp [ev, h1, ha, Accept.victim], by simp [ha, Accept.released]⟩
    · intro s1 j h1 h2
      exact ⟨rfl, rfl, by funext t; cases t <;> simp [ev, h1, ha, Accept.victim], by simp [ha, Accept.released], fun _ => by simp [ha]⟩
    · intro s1 j h1 h2
      refine ⟨rfl, rfl, rfl, fun t' ht => ?_, by simp [ha, Accept.released]⟩
      cases t' with
      | accept => exact absurd rfl ht
      | call k => rfl
  · next v a ha =>
    left
    exact closeClient_eff h rfl rfl (by funext t; cases t <;> simp [ev, ha, Accept.victim]) (by simp [ha, Accept.released])
  · next v a ha =>
    split at h
    · next hd =>
      left
      cases h
      refine .evicted .accept v a (by simp [ev, ha, Accept.victim]) hd ?_ rfl rfl ?_ (fun _ => by simp [ha, Accept.serving]) (by simp [ha, Accept.released])
      · funext b; simp only [State.evicted, State.push, State.setPool, Tid.side]; split <;> simp_all
      · intro t' ht
        cases t' with
        | accept => exact absurd rfl ht
        | call k => rfl
    · cases h
  · next ha =>
    split at h
    · left; cases h; exact .quiet rfl (.of_eq rfl) (by funext t; cases t <;> simp [ev, ha, Accept.victim]) (by simp [ha, Accept.released])
    · cases h
  · next ha => left; cases h; exact .quiet rfl (.of_eq rfl) (by funext t; cases t <;> simp [ev, ha, Accept.victim]) (by simp [Accept.released])
  · next ha => left; exact closeClient_eff h rfl rfl (by funext t; cases t <;> simp [ev, ha, Accept.victim]) (by simp [Accept.released])
  · next ha =>
    split at h
    · left; cases h; exact .quiet rfl (.of_eq rfl) (by funext t; cases t <;> simp [ev, ha, Accept.victim]) (by simp [Accept.released])
    · cases h
  · next ha =>
    left
    split at h
    · next w hw =>
      cases hq : Wk.step w .closeQueue with
      | none => rw [hq] at h; cases h
      | some w' => rw [hq] at h; cases h; exact .quiet rfl (.of_eq rfl) (by funext t; cases t <;> simp [ev, ha, Accept.victim]) (by simp [Accept.released])
    · cases h
  · next ha =>
    left
    split at h
    · split at h
      · cases h; exact .quiet rfl (.of_eq rfl) (by funext t; cases t <;> simp [ev, ha, Accept.victim]) (by simp [Accept.released])
      · cases h
    · cases h
  · next ha => left; cases h; exact .quiet rfl (.of_eq rfl) (by funext t; cases t <;> simp [ev, ha, Accept.victim]) (by simp [Accept.released])
  · next ha => left; cases h; exact .quiet rfl (.of_eq rfl) (by funext t; cases t <;> simp [ev, ha, Accept.victim]) (by simp [Accept.released])
  · cases h

theorem setCall_eff {max : Nat} {s s1 : State ε} {k : Nat} {c c' : Call ε} (hs : Same s s1) (hm : Mild s s1) (hc : s.calls[k]? = some c) (h : c'.pc.victim = c.pc.victim) : Eff max s (s1.setCall k c') :=
  .quiet hs.pool (hm.trans (.of_eq rfl)) ((ev_setCall (s := s1) (by rw [hs.calls]; exact hc) h).trans (ev_of_eq hs.accept hs.calls)) (by intro h; simpa [State.setCall, hs.accept] using h)

theorem callStep_eff {cfg : Cfg ε} {s s' : State ε} {k : Nat} {c : Call ε} (hc : s.calls[k]? = some c) (h : s.callStep cfg k c = some s') : Eff cfg.max s s' ∨ s' = { s with crashed := true } := by
  unfold State.callStep at h
  split at h
  · next hpc =>
    split at h
    · left; cases h; exact setCall_eff (.refl _) (.refl _) hc (by simp [hpc, Pc.victim])
    · refine get_eff (t := .call k) h (by simp [victim_none_of hc, hpc, Pc.victim]) (fun h => by cases h) ⟨k, c, hc, rfl⟩ ?_ ?_ ?_
      · intro s1 j h1 h2
        exact ⟨rfl, rfl, ev_setCall (by rw [h2]; exact hc) (by simp [hpc, Pc.victim]), by intro h; simpa [State.setCall, h1] using h⟩
      · intro s1 j h1 h2
        exact ⟨rfl, rfl, ev_setCall (by rw [h2]; exact hc) (by simp [hpc, Pc.victim]), by intro h; simpa [State.setCall, h1] using h, fun h => by cases h⟩
      · intro s1 j h1 h2
        refine ⟨rfl, rfl, ?_, fun t' ht => ?_, by intro h; simpa [State.setCall, h1] using h⟩
        · simp [ev, State.setCall, h2, (List.getElem?_eq_some_iff.1 hc).1, Pc.victim]
        · cases t' with
          | accept => rfl
          | call i =>
            have : k ≠ i := fun he => ht (by rw [he])
            simp [ev, State.setCall, this]
  · next hpc => left; exact closeClient_eff h rfl rfl (ev_setCall hc (by simp [hpc, Pc.victim])) (fun h => h)
  · next v hpc =>
    left
    split at h
    · next hd =>
      cases h
      refine .evicted (.call k) v c.addr (by simp [victim_none_of hc, hpc, Pc.victim]) hd ?_ rfl ?_ ?_ (fun h => by cases h) (fun h => h)
      · funext b; simp only [State.evicted, State.push, State.setPool, State.setCall, Tid.side]; split <;> simp_all
      · simp [ev, State.setCall, State.evicted, State.push, State.setPool, (List.getElem?_eq_some_iff.1 hc).1, Pc.victim]
      · intro t' ht
        cases t' with
        | accept => rfl
        | call i =>
          have : k ≠ i := fun he => ht (by rw [he])
          simp [ev, State.setCall, State.evicted, State.push, State.setPool, this]
    · cases h
  · next hpc => left; exact closeClient_eff h rfl rfl (ev_setCall hc (by simp [hpc, Pc.victim])) (fun h => h)
  · next hpc =>
    left
    split at h
    · cases h; exact setCall_eff (.refl _) (.refl _) hc (by simp only [hpc]; split <;> rfl)
    · cases h
  · next hpc =>
    left; cases h
    exact .quiet rfl (.of_eq rfl) ((ev_of_eq (s := s.setCall k { c with pc := .returned .dialFailed }) rfl rfl).trans (ev_setCall hc (by simp [hpc, Pc.victim]))) (fun h => h)
  · next j hpc =>
    left
    split at h
    · cases h; exact setCall_eff (.refl _) (.refl _) hc (by simp [hpc, Pc.victim])
    · next data _ =>
      cases hq : s.stepConn j (.send ⟨0, data⟩) with
      | none => rw [hq] at h; cases h
      | some s1 => rw [hq] at h; cases h; exact setCall_eff (stepConn_same hq) (stepConn_mild hq (.inl (by simp))) hc (by simp [hpc, Pc.victim])
    · next data _ =>
      split at h
      · cases hq : s.stepConn j (.reqStart data) with
        | none => rw [hq] at h; cases h
        | some s1 =>
          rw [hq] at h; cases h
          split
          · exact setCall_eff (stepConn_same hq) (stepConn_mild hq (.inl (by simp))) hc (by simp [hpc, Pc.victim])
          · exact setCall_eff (stepConn_same hq) (stepConn_mild hq (.inl (by simp))) hc (by simp [hpc, Pc.victim])
      · cases h
  · next j i hpc =>
    left
    cases hq : s.stepConn j (.reqSend i) with
    | none => rw [hq] at h; cases h
    | some s1 => rw [hq] at h; cases h; exact setCall_eff (stepConn_same hq) (stepConn_mild hq (.inl (by simp))) hc (by simp [hpc, Pc.victim])
  · cases h

theorem connStep_eff {max : Nat} {s s' : State ε} {j : Nat} {a : Cl.Action ε} (h : s.connStep j a = some s') : Eff max s s' ∨ s' = { s with crashed := true } := by
  unfold State.connStep at h
  split at h
  · next x hx =>
    split at h
    · split at h
      · next hm =>
        left
        unfold State.remove at h
        simp only at h
        split at h
        · cases h
        · next hl =>
          have hl : (s.pool x.c.side).lock = none := by simpa using hl
          split at h
          · next s1 h1 =>
            have hs1 := stepConn_same h1
            obtain ⟨x1, c, hx1, hc, rfl⟩ := stepConn_some h1
            rw [hx] at hx1; cases hx1
            have hc' : c = { x.c with main := .done, inPool := false } := by
              simp [Cl.step, Cl.State.mainStep, hm] at hc; exact hc.symm
            have key : ∀ (i : Nat) (y : Conn ε), s.conns[i]? = some y → ∃ y' : Conn ε, (s.conns.set j { x with c := c })[i]? = some y' ∧ y'.addr = y.addr ∧ y'.c.side = y.c.side ∧ (past y'.c ↔ past y.c ∨ i = j) ∧
                ∃ as, Cl.run y.c as = some y'.c := by
              intro i y hy
              rw [List.getElem?_set]
              by_cases hij : j = i
              · subst hij
                rw [hx] at hy; cases hy
                exact ⟨{ x with c := c }, by simp [(List.getElem?_eq_some_iff.1 hx).1], rfl, by rw [hc'], by simp [hc', past], [.main], by simp [Cl.run, hc]⟩
              · exact ⟨y, by simp [hij, hy], rfl, rfl, by simp [Ne.symm hij], [], rfl⟩
            split at h
            · next e he =>
              cases h
              have hd := drop_same (State.setPool { s with conns := s.conns.set j { x with c := c } } x.c.side { s.pool x.c.side with entries := (s.pool x.c.side).entries.filter (fun q => q.1 ≠ x.addr) }) e.2
              have hdm := drop_mild (State.setPool { s with conns := s.conns.set j { x with c := c } } x.c.side { s.pool x.c.side with entries := (s.pool x.c.side).entries.filter (fun q => q.1 ≠ x.addr) }) e.2
              refine .removed j x hx hm hl (by rw [hd.pool]; simp [setPool_pool, hl]) (by rw [hdm.len]; simp [State.setPool]) ?_ ((ev_of_eq hd.accept hd.calls).trans (ev_of_eq rfl rfl)) hd.accept
              intro i y hy
              obtain ⟨y1, h1, h2, h3, h4, as, h5⟩ := key i y hy
              obtain ⟨y2, g1, g2, g3, g4⟩ := hdm.old i y1 h1
              obtain ⟨bs, g5⟩ := hdm.run i y1 y2 h1 g1
              exact ⟨y2, g1, g2.trans h2, g3.trans h3, g4.trans h4, as ++ bs, by rw [Cl.run_append, h5]; exact g5⟩
            · cases h
              exact .removed j x hx hm hl (by simp [setPool_pool, hl]) (by simp [State.setPool]) key (ev_of_eq rfl rfl) rfl
          · cases h
      · next m hm =>
        left
        unfold State.route at h
        cases hc : Cl.step x.c .main with
        | none => rw [hc] at h; cases h
        | some c =>
          rw [hc] at h; cases h
          exact .same ⟨rfl, rfl, rfl, rfl, rfl, rfl, rfl, rfl, rfl, rfl, rfl⟩ (Mild.set hx rfl rfl (Cl.side_step hc) (past_step hc (.inr (by simp [hm]))) ⟨[.main], by simp [Cl.run, hc]⟩)
      · next hm _ => left; exact .same (stepConn_same h) (stepConn_mild h (.inr fun y hy => by rw [hx] at hy; cases hy; exact hm))
    · unfold State.deliver at h
      split at h
      · split at h
        · cases h
        · split at h
          · cases h
          · next w hw =>
            split at h
            · right; cases h; rfl
            · split at h
              · next w' hw' =>
                left
                cases hq : s.stepConn j .deliver with
                | none => rw [hq] at h; cases h
                | some s1 =>
                  rw [hq] at h; cases h
                  have hs := stepConn_same hq
                  exact .quiet hs.pool ((stepConn_mild hq (.inl (by simp))).trans (.of_eq rfl)) ((ev_of_eq rfl rfl).trans (ev_of_eq hs.accept hs.calls)) (by intro h; simpa [hs.accept] using h)
              · cases h
      · cases h
    · cases h
    · cases h
    · cases h
    · cases h
    · cases h
    · cases h
    · cases h
    · cases h
    · left; exact .same (stepConn_same h) (stepConn_mild h (.inl (by assumption)))
  · cases h

theorem quiet_of {max : Nat} {s s' : State ε} (hp : s'.pool = s.pool) (hc : s'.conns = s.conns) (ha : s'.accept.victim = s.accept.victim) (hcs : s'.calls = s.calls)
    (hr : s.accept.released = true → s'.accept.released = true) : Eff max s s' :=
  .quiet hp (.of_eq hc) (by funext t; cases t <;> simp [ev, ha, hcs]) hr

theorem workStep_eff {max : Nat} {s s' : State ε} {w : Nat} (h : s.workStep w = some s') : Eff max s s' := by
  unfold State.workStep at h
  split at h
  · next q hq =>
    simp only at h
    split at h
    · next k e hw =>
      split at h
      · next it s1 hit h1 =>
        cases hn : Wk.step q (.work w) with
        | none => rw [hn] at h1; cases h1
        | some q' =>
          rw [hn] at h1; cases h1
          have hs := stepConn_same h
          have hm : Mild s { s with wk := some q' } := .of_eq rfl
          exact .quiet hs.pool (hm.trans (stepConn_mild h (.inl (by simp)))) (ev_of_eq hs.accept hs.calls) (by intro h; simpa [hs.accept] using h)
      · cases h
    · next k hw =>
      split at h
      · next it s1 hit h1 =>
        cases hn : Wk.step q (.work w) with
        | none => rw [hn] at h1; cases h1
        | some q' => rw [hn] at h1; cases h1; exact closeClient_eff h rfl rfl (ev_of_eq rfl rfl) (fun h => h)
      · cases h
    · cases hn : Wk.step q (.work w) with
      | none => rw [hn] at h; cases h
      | some q' => rw [hn] at h; cases h; exact quiet_of rfl rfl rfl rfl (fun h => h)
  · cases h

theorem ctxSend_eff {max : Nat} {s s' : State ε} {k h : Nat} {data : Bytes} (hs : s.ctxSend k h data = some s') : Eff max s s' := by
  unfold State.ctxSend at hs
  split at hs
  · next q hq =>
    split at hs
    · next q' it h1 h2 =>
      split at hs
      · cases hs; exact quiet_of rfl rfl rfl rfl (fun h => h)
      · have hh := stepConn_same hs
        have hm : Mild s { s with wk := some q' } := .of_eq rfl
        exact .quiet hh.pool (hm.trans (stepConn_mild hs (.inl (by simp)))) (ev_of_eq hh.accept hh.calls) (by intro h; simpa [hh.accept] using h)
    · cases hs
  · cases hs

theorem step_eff {cfg : Cfg ε} {s s' : State ε} {a : Action ε} (h : step cfg s a = some s') : Eff cfg.max s s' ∨ s' = { s with crashed := true } := by
  unfold step at h
  split at h
  · cases h
  · cases a with
    | listen =>
      simp only at h
      split at h
      · next ha => left; cases h; exact quiet_of rfl rfl (by simp [ha, Accept.victim]) rfl (by simp [ha, Accept.released])
      · cases h
    | acceptConn a =>
      simp only at h
      split at h
      · next ha _ => left; cases h; exact quiet_of rfl rfl (by simp [ha, Accept.victim]) rfl (by simp [ha, Accept.released])
      · cases h
    | acceptFail =>
      simp only at h
      split at h
      · next ha => left; cases h; exact quiet_of rfl rfl (by simp [ha, Accept.victim]) rfl (by simp [ha, Accept.released])
      · cases h
    | acceptStep => exact acceptStep_eff h
    | acceptRelease l =>
      simp only at h
      split at h
      · next ha =>
        split at h
        · next hl =>
          left; cases h
          have hd := drops_same l s
          refine .released l hl.1 hl.2 rfl ha (by simp [setPool_pool, hd.pool]) ((drops_mild l s).trans (.of_eq rfl)) ?_
          funext t
          cases t <;> simp [ev, ha, Accept.victim, State.setPool, hd.calls]
        · cases h
      · cases h
    | close =>
      left
      simp only at h
      split at h <;> (cases h; exact quiet_of rfl rfl rfl rfl (fun h => h))
    | closeListener c =>
      left
      simp only at h
      split at h
      · cases h; exact quiet_of rfl rfl rfl rfl (fun h => h)
      · cases h
    | closeRecv c =>
      left
      simp only at h
      split at h
      · split at h
        · cases h; exact quiet_of rfl rfl rfl rfl (fun h => h)
        · split at h
          · cases h; exact quiet_of rfl rfl rfl rfl (fun h => h)
          · cases h
      · cases h
    | list side =>
      left
      simp only at h
      split at h
      · cases h; exact quiet_of rfl rfl rfl rfl (fun h => h)
      · cases h
    | appClose j => left; exact .same (stepConn_same h) (stepConn_mild h (.inl (by simp)))
    | call kind addr =>
      left
      cases h
      refine .quiet rfl (.of_eq rfl) ?_ (fun h => h)
      funext t
      cases t with
      | accept => rfl
      | call k =>
        simp only [ev, List.getElem?_append]
        split
        · rfl
        · next hk =>
          rw [List.getElem?_eq_none (by omega : s.calls.length ≤ k)]
          cases hh : k - s.calls.length <;> simp [Pc.victim]
    | expire k =>
      left
      simp only at h
      cases hc : s.calls[k]? with
      | none => rw [hc] at h; cases h
      | some c => rw [hc] at h; cases h; exact setCall_eff (.refl _) (.refl _) hc rfl
    | callStep k =>
      simp only at h
      split at h
      · next c hc => exact callStep_eff hc h
      · cases h
    | select k b =>
      left
      simp only at h
      split at h
      · next c hc =>
        split at h
        · next j hpc =>
          split at h
          · split at h
            · split at h <;> (cases h; exact setCall_eff (.refl _) (.refl _) hc (by simp [hpc, Pc.victim]))
            · cases h
          · cases h
        · cases h
      · cases h
    | take k =>
      left
      simp only at h
      split at h
      · next c hc =>
        split at h
        · next j i hpc =>
          split at h
          · next s1 h1 =>
            split at h
            · split at h <;> (cases h; exact setCall_eff (stepConn_same h1) (stepConn_mild h1 (.inl (by simp))) hc (by simp [hpc, Pc.victim]))
            · cases h
          · cases h
        · cases h
      · cases h
    | cancel k =>
      left
      simp only at h
      split at h
      · next c hc =>
        split at h
        · next j i hpc =>
          split at h
          · cases h1 : s.stepConn j (.reqCancel i) with
            | none => rw [h1] at h; cases h
            | some s1 => rw [h1] at h; cases h; exact setCall_eff (stepConn_same h1) (stepConn_mild h1 (.inl (by simp))) hc (by simp [hpc, Pc.victim])
          · cases h
        · cases h
      · cases h
    | conn j act => exact connStep_eff h
    | work w => left; exact workStep_eff h
    | handlerReturn w r =>
      left
      simp only at h
      split at h
      · next q hq =>
        cases hn : Wk.step q (.handlerReturn w r) with
        | none => rw [hn] at h; cases h
        | some q' => rw [hn] at h; cases h; exact quiet_of rfl rfl rfl rfl (fun h => h)
      · cases h
    | ctxSend k hd data => left; exact ctxSend_eff h

/-! ## Invariants of the pools -/

/-- The inbound connections that have not removed themselves. -/
def live (s : State ε) (j : Nat) : Prop := ∃ x : Conn ε, s.conns[j]? = some x ∧ x.c.side = .inbound ∧ ¬ past x.c

/-- Every client is in a state that it can reach by itself. -/
def Reaches (s : State ε) : Prop := ∀ (j : Nat) (x : Conn ε), s.conns[j]? = some x → Cl.Reachable x.c.side x.c

theorem Mild.reaches {s s' : State ε} (h : Mild s s') (hr : Reaches s) : Reaches s' := by
  intro j x' hx'
  have hj : j < s.conns.length := by rw [← h.len]; exact (List.getElem?_eq_some_iff.1 hx').1
  obtain ⟨x2, h2, -, h4, -⟩ := h.old j _ (List.getElem?_eq_getElem hj)
  rw [hx'] at h2; cases h2
  obtain ⟨as, h5⟩ := h.run j _ _ (List.getElem?_eq_getElem hj) hx'
  rw [h4]
  exact (hr j _ (List.getElem?_eq_getElem hj)).trans h5

theorem reaches_push {s s' : State ε} {a : Text} {d : Cl.Side} (hc : s'.conns = s.conns ++ [⟨a, Cl.State.new d, false⟩]) (hr : Reaches s) : Reaches s' := by
  intro j x hx
  rw [hc, List.getElem?_append] at hx
  split at hx
  · exact hr j x hx
  · cases hh : j - s.conns.length with
    | zero => rw [hh] at hx; cases hx; exact ⟨[], rfl⟩
    | succ n => rw [hh] at hx; simp at hx

theorem Reaches.step {cfg : Cfg ε} {s s' : State ε} {a : Action ε} (hi : Reaches s) (h : step cfg s a = some s') : Reaches s' := by
  rcases step_eff h with h | rfl
  swap
  · exact hi
  cases h with
  | quiet hp hm he hr => exact hm.reaches hi
  | found d e hl hf hp hc he hr => intro j x hx; rw [hc] at hx; exact hi j x hx
  | added d a hl hf hn hp hc he hd hr hw hacc => exact reaches_push hc hi
  | evict t e hl hn hg hp hm he0 he heo hd hr hw => exact hm.reaches hi
  | evicted t v a he0 hd hp hc he heo hs hr => exact reaches_push hc hi
  | removed j x hx hrm hl hp hlen hc he hr =>
    intro i y' hy'
    have hj : i < s.conns.length := by rw [← hlen]; exact (List.getElem?_eq_some_iff.1 hy').1
    obtain ⟨y2, h2, -, h4, -, as, h5⟩ := hc i _ (List.getElem?_eq_getElem hj)
    rw [hy'] at h2; cases h2
    rw [h4]
    exact (hi i _ (List.getElem?_eq_getElem hj)).trans h5
  | released l hl hperm ha hb hp hm he => exact hm.reaches hi

theorem Reaches.reach {cfg : Cfg ε} {s : State ε} (h : Reachable cfg s) : Reaches s := h.inv (P := Reaches) (fun _ _ _ hi h => hi.step h) (fun j x hx => by cases hx)

structure Inv (max : Nat) (s : State ε) : Prop where
  /-- entries are clients that have not removed themselves -/
  ent : ∀ d, ∀ e ∈ (s.pool d).entries, ∃ x : Conn ε, s.conns[e.2]? = some x ∧ x.addr = e.1 ∧ x.c.side = d ∧ ¬ past x.c
  nodup : ∀ d, ((s.pool d).entries.map Prod.fst).Nodup
  bound : ∀ d, (s.pool d).entries.length ≤ max ∧ ((s.pool d).lock ≠ none → (s.pool d).entries.length < max)
  /-- the mutex is held exactly by who evicts -/
  lock : ∀ d t, (s.pool d).lock = some t → t.side = d ∧ ev s t ≠ none
  evict : ∀ t v, ev s t = some v → (s.pool t.side).lock = some t ∧ ∃ x : Conn ε, s.conns[v]? = some x ∧ x.c.side = t.side ∧ ¬ past x.c
  /-- the inbound connections that have not removed themselves are in the pool, or being evicted -/
  cover : s.accept.released = false → ∀ j, live s j → (∃ e ∈ (s.pool .inbound).entries, e.2 = j) ∨ ev s .accept = some j
  few : ∃ l : List Nat, l.length ≤ max ∧ ∀ j, live s j → j ∈ l

theorem Inv.new (max : Nat) : Inv max (State.new : State ε) where
  ent d e he := by cases he
  nodup d := List.nodup_nil
  bound d := ⟨Nat.zero_le _, fun h => absurd rfl h⟩
  lock d t h := by cases h
  evict t v h := by cases t <;> simp [ev, State.new, Accept.victim] at h
  cover _ j := by rintro ⟨x, hx, -⟩; cases hx
  few := ⟨[], Nat.zero_le _, fun j => by rintro ⟨x, hx, -⟩; cases hx⟩

theorem Mild.live {s s' : State ε} (h : Mild s s') {j : Nat} (hl : live s' j) : live s j := by
  obtain ⟨x', hx', hs, hp⟩ := hl
  have hj : j < s.conns.length := by rw [← h.len]; exact (List.getElem?_eq_some_iff.1 hx').1
  obtain ⟨x2, h2, -, h4, h5⟩ := h.old j _ (List.getElem?_eq_getElem hj)
  rw [hx'] at h2; cases h2
  exact ⟨_, List.getElem?_eq_getElem hj, h4 ▸ hs, fun hh => hp (h5.2 hh)⟩

theorem find_mem_ne {l : List (Text × Nat)} {a : Text} (h : l.find? (fun q => q.1 = a) = none) : ∀ e ∈ l, e.1 ≠ a := by
  intro e he
  simpa using List.find?_eq_none.1 h e he

theorem Inv.frame {max : Nat} {s s' : State ε} (hi : Inv max s) (hp : s'.pool = s.pool) (hm : Mild s s') (he : ev s' = ev s) (hr : s.accept.released = true → s'.accept.released = true) : Inv max s' where
  ent d e h := by
    rw [hp] at h
    obtain ⟨x, h1, h2, h3, h4⟩ := hi.ent d e h
    obtain ⟨x', g1, g2, g3, g4⟩ := hm.old _ x h1
    exact ⟨x', g1, g2.trans h2, g3.trans h3, fun hh => h4 (g4.1 hh)⟩
  nodup := by rw [hp]; exact hi.nodup
  bound := by rw [hp]; exact hi.bound
  lock := by rw [hp, he]; exact hi.lock
  evict t v h := by
    rw [he] at h
    rw [hp]
    obtain ⟨h0, x, h1, h3, h4⟩ := hi.evict t v h
    obtain ⟨x', g1, g2, g3, g4⟩ := hm.old _ x h1
    exact ⟨h0, x', g1, g3.trans h3, fun hh => h4 (g4.1 hh)⟩
  cover h j hl := by
    rw [hp, he]
    exact hi.cover (by cases hh : s.accept.released with
      | true => rw [hr hh] at h; cases h
      | false => rfl) j (hm.live hl)
  few := by
    obtain ⟨l, h1, h2⟩ := hi.few
    exact ⟨l, h1, fun j hl => h2 j (hm.live hl)⟩

theorem not_released_of {a : Accept} (h : a.serving = true) : a.released = false := by cases a <;> simp_all [Accept.serving, Accept.released]

theorem not_past_new (d : Cl.Side) : ¬ past (Cl.State.new d : Cl.State ε) := by simp [past, Cl.State.new]

/-- A new client has been added to pool `d`, whose mutex is free now; nobody is evicting from it any more. -/
theorem Inv.push {max : Nat} {s s' : State ε} (hi : Inv max s) (d : Cl.Side) (a : Text) (hn : (s.pool d).entries.length < max) (hf : ∀ e ∈ (s.pool d).entries, e.1 ≠ a)
    (hp : s'.pool = fun b => if b = d then ⟨none, (a, s.conns.length) :: (s.pool d).entries⟩ else s.pool b) (hc : s'.conns = s.conns ++ [⟨a, Cl.State.new d, false⟩])
    (he : ∀ t, t.side = d → ev s' t = none) (heo : ∀ t, t.side ≠ d → ev s' t = ev s t) (hd : d = .inbound → s.accept.serving = true) (hr : s.accept.released = true → s'.accept.released = true)
    (hv : d = .inbound → ∀ j, ev s .accept = some j → ¬ live s j) : Inv max s' := by
  have hold : ∀ (j : Nat) (x : Conn ε), s.conns[j]? = some x → s'.conns[j]? = some x := by
    intro j x hx
    rw [hc, List.getElem?_append_left (List.getElem?_eq_some_iff.1 hx).1]; exact hx
  have hnew : s'.conns[s.conns.length]? = some ⟨a, Cl.State.new d, false⟩ := by rw [hc]; simp
  have hlive : ∀ j, live s' j → live s j ∨ (j = s.conns.length ∧ d = .inbound) := by
    rintro j ⟨x, hx, h1, h2⟩
    rw [hc, List.getElem?_append] at hx
    split at hx
    · exact .inl ⟨x, hx, h1, h2⟩
    · next hj =>
      right
      have h0 : j - s.conns.length = 0 := by
        cases hh : j - s.conns.length with
        | zero => rfl
        | succ n => rw [hh] at hx; simp at hx
      rw [h0] at hx; simp at hx; subst hx
      exact ⟨by omega, h1⟩
  have hcov : s'.accept.released = false → ∀ j, live s' j → (∃ e ∈ (s'.pool .inbound).entries, e.2 = j) ∨ ev s' .accept = some j := by
    intro h j hl
    have hrel : s.accept.released = false := by
      cases hh : s.accept.released with
      | true => rw [hr hh] at h; cases h
      | false => rfl
    rcases hlive j hl with hl | ⟨rfl, rfl⟩
    · rcases hi.cover hrel j hl with ⟨e, h1, h2⟩ | h1
      · left
        refine ⟨e, ?_, h2⟩
        rw [hp]; simp only; split
        · next hh => subst hh; exact List.mem_cons_of_mem _ h1
        · exact h1
      · by_cases hdd : d = .inbound
        · exact absurd hl (hv hdd j h1)
        · right; rw [heo .accept (fun h => hdd h.symm)]; exact h1
    · left
      exact ⟨(a, s.conns.length), by rw [hp]; simp, rfl⟩
  constructor
  · intro b e hb
    rw [hp] at hb
    simp only at hb
    split at hb
    · next hbd =>
      subst hbd
      rcases List.mem_cons.1 hb with rfl | hb
      · exact ⟨_, hnew, rfl, rfl, not_past_new _⟩
      · obtain ⟨x, h1, h2⟩ := hi.ent _ e hb
        exact ⟨x, hold _ _ h1, h2⟩
    · obtain ⟨x, h1, h2⟩ := hi.ent b e hb
      exact ⟨x, hold _ _ h1, h2⟩
  · intro b
    rw [hp]; simp only
    split
    · next hbd =>
      subst hbd
      simp only [List.map_cons, List.nodup_cons]
      refine ⟨?_, hi.nodup _⟩
      rintro hm
      obtain ⟨e, h1, h2⟩ := List.mem_map.1 hm
      exact hf e h1 h2
    · exact hi.nodup b
  · intro b
    rw [hp]; simp only
    split
    · next hbd => subst hbd; exact ⟨by simp; omega, fun h => absurd rfl h⟩
    · exact hi.bound b
  · intro b t
    rw [hp]; simp only
    split
    · intro h; cases h
    · next hbd =>
      intro h
      have := hi.lock b t h
      exact ⟨this.1, by rw [heo t (by rw [this.1]; exact hbd)]; exact this.2⟩
  · intro t v h
    by_cases ht : t.side = d
    · rw [he t ht] at h; cases h
    · rw [heo t ht] at h
      obtain ⟨h0, x, h1, h3⟩ := hi.evict t v h
      exact ⟨by rw [hp]; simp [ht, h0], x, hold _ _ h1, h3⟩
  · exact hcov
  · by_cases hdd : d = .inbound
    · subst hdd
      have hrel := not_released_of (hd rfl)
      refine ⟨((a, s.conns.length) :: (s.pool .inbound).entries).map Prod.snd, by simp; omega, fun j hl => ?_⟩
      rcases hlive j hl with hl | ⟨rfl, -⟩
      · rcases hi.cover hrel j hl with ⟨e, h1, h2⟩ | h1
        · exact List.mem_map.2 ⟨e, List.mem_cons_of_mem _ h1, h2⟩
        · exact absurd hl (hv rfl j h1)
      · simp
    · obtain ⟨l, h1, h2⟩ := hi.few
      exact ⟨l, h1, fun j hl => h2 j ((hlive j hl).resolve_right fun h => hdd h.2)⟩

theorem find_fst {l : List (Text × Nat)} {e : Text × Nat} (hn : (l.map Prod.fst).Nodup) (h : e ∈ l) : l.find? (fun q => q.1 = e.1) = some e := by
  induction l with
  | nil => cases h
  | cons q l ih =>
    rw [List.find?_cons]
    by_cases hq : q.1 = e.1
    · simp only [hq, decide_true]
      rcases List.mem_cons.1 h with rfl | h
      · rfl
      · rw [List.map_cons, List.nodup_cons] at hn
        exact absurd (List.mem_map.2 ⟨e, h, hq.symm⟩) hn.1
    · simp only [hq, decide_false]
      rcases List.mem_cons.1 h with rfl | h
      · exact absurd rfl hq
      · exact ih (by rw [List.map_cons, List.nodup_cons] at hn; exact hn.2) h

/-- Entries are determined by their client. -/
theorem Inv.entry {max : Nat} {s : State ε} (hi : Inv max s) {d : Cl.Side} {e e' : Text × Nat} (h : e ∈ (s.pool d).entries) (h' : e' ∈ (s.pool d).entries) (he : e.2 = e'.2) : e = e' := by
  obtain ⟨x, h1, h2, -⟩ := hi.ent d e h
  obtain ⟨x', h1', h2', -⟩ := hi.ent d e' h'
  rw [he, h1'] at h1; cases h1
  exact Prod.ext (h2.symm.trans h2') he

theorem filter_length_lt {l : List (Text × Nat)} {e : Text × Nat} (h : e ∈ l) : (l.filter (fun q => q.1 ≠ e.1)).length < l.length := by
  induction l with
  | nil => cases h
  | cons q l ih =>
    rw [List.filter_cons]
    have hle := List.length_filter_le (fun q : Text × Nat => decide (q.1 ≠ e.1)) l
    by_cases hq : q.1 = e.1
    · simp only [hq, ne_eq, not_true_eq_false, decide_false, Bool.false_eq_true, if_false, List.length_cons] at hle ⊢; omega
    · rcases List.mem_cons.1 h with rfl | h
      · exact absurd rfl hq
      · simpa [hq] using ih h

theorem eq_dropLast_append {α : Type} {l : List α} {e : α} (h : l.getLast? = some e) : l = l.dropLast ++ [e] := by
  obtain ⟨l', rfl⟩ := List.getLast?_eq_some_iff.1 h
  simp

theorem done_past {s : State ε} (hr : Reaches s) {j : Nat} {x : Conn ε} (hx : s.conns[j]? = some x) (hd : s.isDone j = true) : past x.c := by
  simp only [State.isDone, hx] at hd
  exact .inr ((Cl.Life.reach (hr j x hx)).client.1 hd)

theorem Inv.step {cfg : Cfg ε} {s s' : State ε} {a : Action ε} (hi : Inv cfg.max s) (hre : Reaches s) (h : step cfg s a = some s') : Inv cfg.max s' := by
  rcases step_eff h with h | rfl
  swap
  · exact ⟨hi.ent, hi.nodup, hi.bound, hi.lock, hi.evict, hi.cover, hi.few⟩
  cases h with
  | quiet hp hm he hr => exact hi.frame hp hm he hr
  | found d e hl hf hp hc he hr =>
    have hmem : e ∈ (s.pool d).entries := List.mem_of_find?_eq_some hf
    have hsub : ∀ q, q ∈ e :: (s.pool d).entries.filter (fun q => q.1 ≠ e.1) → q ∈ (s.pool d).entries := by
      intro q hq
      rcases List.mem_cons.1 hq with rfl | hq
      · exact hmem
      · exact (List.mem_filter.1 hq).1
    have hsup : ∀ q, q ∈ (s.pool d).entries → q ∈ e :: (s.pool d).entries.filter (fun q => q.1 ≠ e.1) := by
      intro q hq
      by_cases hqe : q.1 = e.1
      · have h1 := find_fst (hi.nodup d) hq
        rw [hqe, hf] at h1
        cases h1
        exact List.mem_cons_self
      · exact List.mem_cons_of_mem _ (List.mem_filter.2 ⟨hq, by simp [hqe]⟩)
    have hm : Mild s s' := .of_eq hc
    constructor
    · intro b q hq
      rw [hc]
      rw [hp] at hq
      simp only at hq
      split at hq
      · next hb => subst hb; exact hi.ent _ q (hsub q hq)
      · exact hi.ent b q hq
    · intro b
      rw [hp]; simp only
      split
      · next hb =>
        subst hb
        simp only [List.map_cons, List.nodup_cons]
        refine ⟨?_, (List.Sublist.map _ List.filter_sublist).nodup (hi.nodup _)⟩
        intro hmm
        obtain ⟨q, h1, h2⟩ := List.mem_map.1 hmm
        simpa [h2] using (List.mem_filter.1 h1).2
      · exact hi.nodup b
    · intro b
      rw [hp]; simp only
      split
      · next hb =>
        subst hb
        have := filter_length_lt hmem
        have := (hi.bound b).1
        exact ⟨by simp only [List.length_cons]; omega, fun h => absurd rfl h⟩
      · exact hi.bound b
    · intro b t
      rw [hp, he]; simp only
      split
      · intro h; cases h
      · exact hi.lock b t
    · intro t v hv
      rw [he] at hv
      obtain ⟨h0, h1⟩ := hi.evict t v hv
      rw [hp, hc]
      refine ⟨?_, h1⟩
      simp only
      split
      · next hb => rw [hb, hl] at h0; cases h0
      · exact h0
    · intro hrel j hj
      have hrel' : s.accept.released = false := by
        cases hh : s.accept.released with
        | true => rw [hr hh] at hrel; cases hrel
        | false => rfl
      rw [he]
      rcases hi.cover hrel' j (hm.live hj) with ⟨q, h1, h2⟩ | h1
      · left
        refine ⟨q, ?_, h2⟩
        rw [hp]; simp only
        split
        · next hb => subst hb; exact hsup q h1
        · exact h1
      · exact .inr h1
    · obtain ⟨l, h1, h2⟩ := hi.few
      exact ⟨l, h1, fun j hj => h2 j (hm.live hj)⟩
  | added d a hl hf hn hp hc he hd hr hw hacc =>
    have hnone : ∀ t, t.side = d → ev s t = none := by
      intro t ht
      cases hv : ev s t with
      | none => rfl
      | some v => have := (hi.evict t v hv).1; rw [ht, hl] at this; cases this
    refine hi.push d a (by have := (hi.bound d).1; omega) (find_mem_ne hf) hp hc (fun t ht => by rw [he]; exact hnone t ht) (fun t _ => by rw [he]) hd hr ?_
    rintro rfl j hj
    rw [hnone .accept rfl] at hj; cases hj
  | evict t e hl hn hg hp hm he0 he heo hd hr hw =>
    have hmem : e ∈ (s.pool t.side).entries := List.mem_of_getLast? hg
    have hother : ∀ t', t' ≠ t → t'.side = t.side → ev s t' = none := by
      intro t' _ ht
      cases hv : ev s t' with
      | none => rfl
      | some v => have := (hi.evict t' v hv).1; rw [ht, hl] at this; cases this
    have hsub : ∀ q, q ∈ (s.pool t.side).entries.dropLast → q ∈ (s.pool t.side).entries := fun q hq => List.dropLast_subset _ hq
    constructor
    · intro b q hq
      have hq' : q ∈ (s.pool b).entries := by
        rw [hp] at hq
        simp only at hq
        split at hq
        · next hb => subst hb; exact hsub q hq
        · exact hq
      obtain ⟨x, h1, h2, h3, h4⟩ := hi.ent b q hq'
      obtain ⟨x', g1, g2, g3, g4⟩ := hm.old _ x h1
      exact ⟨x', g1, g2.trans h2, g3.trans h3, fun hh => h4 (g4.1 hh)⟩
    · intro b
      rw [hp]; simp only
      split
      · next hb => subst hb; exact ((List.dropLast_sublist _).map _).nodup (hi.nodup _)
      · exact hi.nodup b
    · intro b
      rw [hp]; simp only
      split
      · next hb =>
        subst hb
        have h1 := List.length_pos_of_mem hmem
        simp only [List.length_dropLast]
        exact ⟨by omega, fun _ => by omega⟩
      · exact hi.bound b
    · intro b t'
      rw [hp]; simp only
      split
      · next hb => intro h; cases h; exact ⟨hb.symm, by rw [he]; simp⟩
      · next hb =>
        intro h
        have h1 := hi.lock b t' h
        refine ⟨h1.1, ?_⟩
        rw [heo t' (by rintro rfl; exact hb h1.1.symm)]
        exact h1.2
    · intro t' v hv
      by_cases ht : t' = t
      · subst ht
        rw [he] at hv; cases hv
        obtain ⟨x, h1, h2, h3, h4⟩ := hi.ent _ e hmem
        obtain ⟨x', g1, g2, g3, g4⟩ := hm.old _ x h1
        exact ⟨by rw [hp]; simp, x', g1, g3.trans h3, fun hh => h4 (g4.1 hh)⟩
      · rw [heo t' ht] at hv
        obtain ⟨h0, x, h1, h3, h4⟩ := hi.evict t' v hv
        obtain ⟨x', g1, g2, g3, g4⟩ := hm.old _ x h1
        refine ⟨?_, x', g1, g3.trans h3, fun hh => h4 (g4.1 hh)⟩
        rw [hp]; simp only
        split
        · next hb => rw [hb, hl] at h0; cases h0
        · exact h0
    · intro hrel j hj
      have hrel' : s.accept.released = false := by
        cases hh : s.accept.released with
        | true => rw [hr hh] at hrel; cases hrel
        | false => rfl
      rcases hi.cover hrel' j (hm.live hj) with ⟨q, h1, h2⟩ | h1
      · rw [hp]; simp only
        split
        · next hb =>
          rw [hb] at h1
          rw [eq_dropLast_append hg] at h1
          rcases List.mem_append.1 h1 with h1' | h1'
          · exact .inl ⟨q, h1', h2⟩
          · right
            have htt : t = .accept := by cases t with
              | accept => rfl
              | call k => cases hb
            subst htt
            exact he.trans (by rw [← List.mem_singleton.1 h1', h2])
        · exact .inl ⟨q, h1, h2⟩
      · right
        rw [heo .accept ?_]; exact h1
        rintro rfl
        rw [he0] at h1; cases h1
    · obtain ⟨l, h1, h2⟩ := hi.few
      exact ⟨l, h1, fun j hj => h2 j (hm.live hj)⟩
  | evicted t v a he0 hd hp hc he heo hs hr =>
    obtain ⟨-, x, hx, -, hp⟩ := hi.evict t v he0
    exact absurd (done_past hre hx hd) hp
  | removed j x hx hrm hl hp hlen hc he hr =>
    have hback : ∀ (i : Nat) (y' : Conn ε), s'.conns[i]? = some y' → ∃ y : Conn ε, s.conns[i]? = some y ∧ y'.addr = y.addr ∧ y'.c.side = y.c.side ∧ (past y'.c ↔ past y.c ∨ i = j) := by
      intro i y' hy'
      have hj : i < s.conns.length := by rw [← hlen]; exact (List.getElem?_eq_some_iff.1 hy').1
      obtain ⟨y2, h2, h3, h4, h5, -⟩ := hc i _ (List.getElem?_eq_getElem hj)
      rw [hy'] at h2; cases h2
      exact ⟨_, List.getElem?_eq_getElem hj, h3, h4, h5⟩
    have hlive : ∀ i, live s' i → live s i ∧ i ≠ j := by
      rintro i ⟨y', hy', h1, h2⟩
      obtain ⟨y, g1, -, g3, g4⟩ := hback i y' hy'
      exact ⟨⟨y, g1, g3 ▸ h1, fun h => h2 (g4.2 (.inl h))⟩, fun h => h2 (g4.2 (.inr h))⟩
    constructor
    · intro b q hq
      have hq' : q ∈ (s.pool b).entries ∧ q.2 ≠ j := by
        rw [hp] at hq
        simp only at hq
        split at hq
        · next hb =>
          subst hb
          obtain ⟨h1, h2⟩ := List.mem_filter.1 hq
          refine ⟨h1, fun hh => ?_⟩
          obtain ⟨y, g1, g2, -⟩ := hi.ent _ q h1
          rw [hh, hx] at g1; cases g1
          simp [g2] at h2
        · next hb =>
          refine ⟨hq, fun hh => ?_⟩
          obtain ⟨y, g1, -, g3, -⟩ := hi.ent _ q hq
          rw [hh, hx] at g1; cases g1
          exact hb g3.symm
      obtain ⟨y, h1, h2, h3, h4⟩ := hi.ent b q hq'.1
      obtain ⟨y', g1, g2, g3, g4, -⟩ := hc _ y h1
      exact ⟨y', g1, g2.trans h2, g3.trans h3, fun hh => (g4.1 hh).elim h4 hq'.2⟩
    · intro b
      rw [hp]; simp only
      split
      · next hb => subst hb; exact (List.filter_sublist.map _).nodup (hi.nodup _)
      · exact hi.nodup b
    · intro b
      rw [hp]; simp only
      split
      · next hb => subst hb; exact ⟨Nat.le_trans (List.length_filter_le _ _) (hi.bound _).1, fun h => absurd rfl h⟩
      · exact hi.bound b
    · intro b t
      rw [hp, he]; simp only
      split
      · intro h; cases h
      · exact hi.lock b t
    · intro t v hv
      rw [he] at hv
      obtain ⟨h0, y, h1, h3, h4⟩ := hi.evict t v hv
      have hts : t.side ≠ x.c.side := fun hh => by rw [hh, hl] at h0; cases h0
      obtain ⟨y', g1, g2, g3, g4, -⟩ := hc _ y h1
      refine ⟨?_, y', g1, g3.trans h3, fun hh => (g4.1 hh).elim h4 fun hvj => ?_⟩
      · rw [hp]; simp [hts, h0]
      · subst hvj
        rw [hx] at h1; cases h1
        exact hts h3.symm
    · intro hrel i hl'
      rw [hr] at hrel
      obtain ⟨h1, h2⟩ := hlive i hl'
      rw [he]
      rcases hi.cover hrel i h1 with ⟨q, h3, h4⟩ | h3
      · left
        refine ⟨q, ?_, h4⟩
        rw [hp]; simp only
        split
        · next hb =>
          refine List.mem_filter.2 ⟨hb ▸ h3, ?_⟩
          simp only [ne_eq, decide_not, Bool.not_eq_true', decide_eq_false_iff_not]
          intro hqa
          -- the client itself is in the pool under its address
          have hlj : live s j := ⟨x, hx, hb.symm, by simp [past, hrm]⟩
          rcases hi.cover hrel j hlj with ⟨q', h5, h6⟩ | h5
          · obtain ⟨y, g1, g2, -⟩ := hi.ent _ q' h5
            rw [h6, hx] at g1; cases g1
            have h7 := find_fst (hi.nodup _) h3
            have h8 := find_fst (hi.nodup _) h5
            rw [← g2, ← hqa, h7] at h8
            cases h8
            exact h2 (h4.symm.trans h6)
          · have := (hi.evict _ _ h5).1
            rw [← hb] at hl
            simp only [Tid.side] at this
            rw [hl] at this; cases this
        · exact h3
      · exact .inr h3
    · obtain ⟨l, h1, h2⟩ := hi.few
      exact ⟨l, h1, fun i hl' => h2 i (hlive i hl').1⟩
  | released l hl hperm ha hb hp hm he =>
    constructor
    · intro b q hq
      rw [hp] at hq
      simp only at hq
      split at hq
      · cases hq
      · obtain ⟨x, h1, h2, h3, h4⟩ := hi.ent b q hq
        obtain ⟨x', g1, g2, g3, g4⟩ := hm.old _ x h1
        exact ⟨x', g1, g2.trans h2, g3.trans h3, fun hh => h4 (g4.1 hh)⟩
    · intro b
      rw [hp]; simp only
      split
      · exact List.nodup_nil
      · exact hi.nodup b
    · intro b
      rw [hp]; simp only
      split
      · exact ⟨Nat.zero_le _, fun h => absurd rfl h⟩
      · exact hi.bound b
    · intro b t
      rw [hp, he]; simp only
      split
      · intro h; cases h
      · exact hi.lock b t
    · intro t v hv
      rw [he] at hv
      obtain ⟨h0, x, h1, h3, h4⟩ := hi.evict t v hv
      obtain ⟨x', g1, g2, g3, g4⟩ := hm.old _ x h1
      refine ⟨?_, x', g1, g3.trans h3, fun hh => h4 (g4.1 hh)⟩
      rw [hp]; simp only
      split
      · next hbb => rw [hbb, hl] at h0; cases h0
      · exact h0
    · intro hrel; rw [ha] at hrel; cases hrel
    · obtain ⟨l, h1, h2⟩ := hi.few
      exact ⟨l, h1, fun j hj => h2 j (hm.live hj)⟩

theorem Inv.reach {cfg : Cfg ε} {s : State ε} (h : Reachable cfg s) : Inv cfg.max s :=
  h.ind (P := fun s => Inv cfg.max s) (Inv.new _) (fun _ _ _ hr hi h => hi.step (Reaches.reach hr) h)

end Noise.Node
