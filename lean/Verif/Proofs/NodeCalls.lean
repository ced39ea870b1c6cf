import Verif.Proofs.NodeStage
import Verif.Proofs.ClientCalls
/-! # The whole node: whom its calls have reached -/
namespace Noise
variable {ε : Type}

/-! ### The client -/
namespace Cl

/-- What the main goroutine has established so far. -/
structure Met (s : State ε) : Prop where
  dial : s.main = .dialErr1 → s.err.isSome
  verified : s.main = .hsVerified → s.id.isSome
  met : s.main = .hsEnd ∨ s.ready = true → (s.id.isSome ∧ .connected s.id ∈ s.log) ∨ s.err.isSome
  connected : ∀ i, .connected i ∈ s.log → i = s.id ∧ s.main ≠ .hs ∧ s.main ≠ .dialing ∧ s.main ≠ .init

theorem Met.new (side : Side) : Met (State.new side : State ε) := by
  constructor <;> simp [State.new]

theorem Met.step {s s' : State ε} {a : Action ε} (h : Met s) (hl : Life s) (hs : step s a = some s') : Met s' := by
  obtain ⟨h1, h2, h3, h4⟩ := h
  obtain ⟨-, l2, -, -, -, -, -⟩ := hl
  cl_cases a hs
  all_goals (constructor <;> grind [State.closeReady, State.closeReaderDone, State.closeWriterDone, State.closeClientDone, MainPc.isReady, State.report, State.send, State.setCall])

theorem Met.reach {side : Side} {s : State ε} (h : Reachable side s) : Met s :=
  (reach_inv (P := fun s => Life s ∧ Met s) ⟨Life.new side, Met.new side⟩ (fun _ _ _ hi hs => ⟨hi.1.step hs, hi.2.step hi.1 hs⟩) h).2

/-- `readerDone` and `writerDone` are closed after `ready`. -/
theorem ready_of_done {side : Side} {s : State ε} (h : Reachable side s) (hd : s.readerDone = true ∨ s.writerDone = true) : s.ready = true := by
  have hl := Life.reach h
  rw [hl.ready]
  rcases hd with hd | hd
  · have : s.main.readerOpen ≠ true := fun h => by rw [hl.reader h] at hd; cases hd
    cases hm : s.main <;> simp_all [MainPc.readerOpen, MainPc.isReady]
  · have : s.main.noWriter ≠ true := fun h => by rw [(hl.noWriter h).2] at hd; cases hd
    cases hm : s.main <;> simp_all [MainPc.noWriter, MainPc.isReady]

end Cl

namespace Node

/-- Clients stay, and go on by themselves. -/
def Grows (s s' : State ε) : Prop := ∀ (j : Nat) (x : Conn ε), s.conns[j]? = some x → ∃ x' : Conn ε, s'.conns[j]? = some x' ∧ x'.addr = x.addr ∧ x'.c.side = x.c.side ∧ ∃ as, Cl.run x.c as = some x'.c

theorem Grows.of_eq {s s' : State ε} (h : s'.conns = s.conns) : Grows s s' := fun j x hx => ⟨x, by rw [h]; exact hx, rfl, rfl, [], rfl⟩

theorem Mild.grows {s s' : State ε} (h : Mild s s') : Grows s s' := fun j x hx => by
  obtain ⟨x', h1, h2, h3, -⟩ := h.old j x hx
  exact ⟨x', h1, h2, h3, h.run j x x' hx h1⟩

theorem Grows.push {s s' : State ε} {y : Conn ε} (h : s'.conns = s.conns ++ [y]) : Grows s s' := fun j x hx =>
  ⟨x, by rw [h, List.getElem?_append_left (List.getElem?_eq_some_iff.1 hx).1]; exact hx, rfl, rfl, [], rfl⟩

theorem step_grows {cfg : Cfg ε} {s s' : State ε} {a : Action ε} (h : step cfg s a = some s') : Grows s s' := by
  rcases step_eff h with h | rfl
  swap
  · exact .of_eq rfl
  cases h with
  | quiet hp hm he hr => exact hm.grows
  | found d e hl hf hp hc he hr => exact .of_eq hc
  | added d a hl hf hn hp hc he hd hr hw hacc => exact .push hc
  | evict t e hl hn hg hp hm he0 he heo hd hr hw => exact hm.grows
  | evicted t v a he0 hd hp hc he heo hs hr => exact .push hc
  | removed j x hx hrm hl hp hlen hc he hr =>
    intro i y hy
    obtain ⟨y', h1, h2, h3, -, h4⟩ := hc i y hy
    exact ⟨y', h1, h2, h3, h4⟩
  | released l hl hperm ha hb hp hm he => exact hm.grows

/-- Client `j` is an outbound one, for this address. -/
def At (s : State ε) (j : Nat) (a : Text) (x : Conn ε) : Prop := s.conns[j]? = some x ∧ x.addr = a ∧ x.c.side = .outbound

/-- Its peer has been authenticated. -/
def Auth (s : State ε) (j : Nat) (a : Text) (x : Conn ε) : Prop := At s j a x ∧ ∃ i, .connected (some i) ∈ x.c.log

/-- What is known of a call; `p` is its client and its number among the requests of that client. -/
def Got (s : State ε) (p : Nat × Nat) (c : Call ε) : Prop := match c.pc with
  | .select j | .closing j _ | .wait j _ => ∃ x, At s j c.addr x
  | .got j => ∃ x, Auth s j c.addr x
  | .reqSend j i => (j, i) = p ∧ ∃ x, Auth s j c.addr x ∧ ∃ q, x.c.calls[i]? = some q ∧ c.kind = .request q.data
  | .reqWait j i => (j, i) = p ∧ ∃ x, Auth s j c.addr x ∧ ∃ q, x.c.calls[i]? = some q ∧ c.kind = .request q.data ∧ .submitted ⟨q.nonce, q.data⟩ ∈ x.c.log
  | .returned (.client j) => c.kind = .ping ∧ ∃ x, Auth s j c.addr x
  | .returned .sent => ∃ j x data, Auth s j c.addr x ∧ c.kind = .send data ∧ .submitted ⟨0, data⟩ ∈ x.c.log
  | .returned (.response m) => ∃ x, Auth s p.1 c.addr x ∧ ∃ q, x.c.calls[p.2]? = some q ∧ c.kind = .request q.data ∧ .submitted ⟨q.nonce, q.data⟩ ∈ x.c.log ∧ .returned p.2 m ∈ x.c.log
  | .returned .eof => False
  | _ => True

/-- The call has started a request on its client. -/
def Pc.asks : Pc ε → Bool
  | .reqSend _ _ | .reqWait _ _ | .returned (.response _) => true
  | _ => false

theorem Grows.at {s s' : State ε} (h : Grows s s') {j : Nat} {a : Text} {x : Conn ε} (hx : At s j a x) : ∃ x', At s' j a x' ∧ ∃ as, Cl.run x.c as = some x'.c := by
  obtain ⟨h1, h2, h3⟩ := hx
  obtain ⟨x', h4, h5, h6, h7⟩ := h j x h1
  exact ⟨x', ⟨h4, h5.trans h2, h6.trans h3⟩, h7⟩

theorem mem_run {c c' : Cl.State ε} {as : List (Cl.Action ε)} (h : Cl.run c as = some c') {e : Cl.Event ε} (he : e ∈ c.log) : e ∈ c'.log := by
  obtain ⟨l, hl⟩ := Cl.log_run h
  rw [hl]; exact List.mem_append_left _ he

theorem Grows.auth {s s' : State ε} (h : Grows s s') {j : Nat} {a : Text} {x : Conn ε} (hx : Auth s j a x) : ∃ x', Auth s' j a x' ∧ ∃ as, Cl.run x.c as = some x'.c := by
  obtain ⟨h1, i, hi⟩ := hx
  obtain ⟨x', h2, as, h3⟩ := h.at h1
  exact ⟨x', ⟨h2, i, mem_run h3 hi⟩, as, h3⟩

theorem Grows.got {s s' : State ε} (h : Grows s s') {p : Nat × Nat} {c c' : Call ε} (hg : Got s p c) (hp : c'.pc = c.pc) (hk : c'.kind = c.kind) (ha : c'.addr = c.addr) : Got s' p c' := by
  unfold Got at hg ⊢
  rw [hp, hk, ha]
  split at hg
  · obtain ⟨x, hx⟩ := hg; obtain ⟨x', hx', -⟩ := h.at hx; exact ⟨x', hx'⟩
  · obtain ⟨x, hx⟩ := hg; obtain ⟨x', hx', -⟩ := h.at hx; exact ⟨x', hx'⟩
  · obtain ⟨x, hx⟩ := hg; obtain ⟨x', hx', -⟩ := h.at hx; exact ⟨x', hx'⟩
  · obtain ⟨x, hx⟩ := hg; obtain ⟨x', hx', -⟩ := h.auth hx; exact ⟨x', hx'⟩
  · obtain ⟨hp, x, hx, q, hq, hd⟩ := hg
    obtain ⟨x', hx', as, hr⟩ := h.auth hx
    obtain ⟨q', h1, h2, h3, -⟩ := Cl.call_run hq hr
    exact ⟨hp, x', hx', q', h1, by rw [h3]; exact hd⟩
  · obtain ⟨hp, x, hx, q, hq, hd, hm⟩ := hg
    obtain ⟨x', hx', as, hr⟩ := h.auth hx
    obtain ⟨q', h1, h2, h3, -⟩ := Cl.call_run hq hr
    exact ⟨hp, x', hx', q', h1, by rw [h3]; exact hd, by rw [h2, h3]; exact mem_run hr hm⟩
  · obtain ⟨hk, x, hx⟩ := hg; obtain ⟨x', hx', -⟩ := h.auth hx; exact ⟨hk, x', hx'⟩
  · obtain ⟨j, x, data, hx, hd, hm⟩ := hg
    obtain ⟨x', hx', as, hr⟩ := h.auth hx
    exact ⟨j, x', data, hx', hd, mem_run hr hm⟩
  · obtain ⟨x, hx, q, hq, hd, hm, hm2⟩ := hg
    obtain ⟨x', hx', as, hr⟩ := h.auth hx
    obtain ⟨q', h1, h2, h3, -⟩ := Cl.call_run hq hr
    exact ⟨x', hx', q', h1, by rw [h3]; exact hd, by rw [h2, h3]; exact mem_run hr hm, mem_run hr hm2⟩
  · exact hg
  · trivial

/-- How a step changes the calls. -/
inductive CallEff (s s' : State ε) : Prop where
  | same (h : s'.calls = s.calls)
  | call (c : Call ε) (h : s'.calls = s.calls ++ [c]) (hp : c.pc = .get)
  /-- call `k` goes on -/
  | set (k : Nat) (c c' : Call ε) (hk : s.calls[k]? = some c) (h : s'.calls = s.calls.set k c') (hkind : c'.kind = c.kind) (haddr : c'.addr = c.addr)
      (hasks : c'.pc.asks = true → c.pc.asks = true) (hgot : ∀ p, Got s p c → Got s' p c')
  /-- call `k` starts a request -/
  | asks (k j : Nat) (c c' : Call ε) (x x' : Conn ε) (data : Bytes) (q : Cl.Call) (hk : s.calls[k]? = some c) (h : s'.calls = s.calls.set k c') (hkind : c'.kind = c.kind) (haddr : c'.addr = c.addr)
      (hpc : c.pc = .got j) (hpc' : c'.pc = .reqSend j x.c.calls.length) (hd : c.kind = .request data) (hx : s.conns[j]? = some x) (hx' : s'.conns[j]? = some x')
      (hq : x'.c.calls[x.c.calls.length]? = some q) (hqd : q.data = data)

theorem at_found {max : Nat} {s : State ε} (hi : Inv max s) {d : Cl.Side} {a : Text} {e : Text × Nat} (hf : (s.pool d).entries.find? (fun q => q.1 = a) = some e) :
    ∃ x, s.conns[e.2]? = some x ∧ x.addr = a ∧ x.c.side = d := by
  obtain ⟨x, h1, h2, h3, -⟩ := hi.ent d e (List.mem_of_find?_eq_some hf)
  have := List.find?_some hf
  exact ⟨x, h1, by simpa [h2] using this, h3⟩

theorem closeClient_orCalls {s s1 s' : State ε} {j : Nat} (h : s.closeClient j s1 = some s') : s' = s1 ∨ s'.calls = s.calls := by
  rcases closeClient_some h with rfl | h
  · exact .inl rfl
  · exact .inr (stepConn_same h).calls

theorem stepConn_auth {s s' : State ε} {j : Nat} {a : Cl.Action ε} {addr : Text} {x : Conn ε} (h : s.stepConn j a = some s') (hx : Auth s j addr x) :
    ∃ c, Cl.step x.c a = some c ∧ Auth s' j addr { x with c := c } := by
  obtain ⟨y, c, hy, hc, rfl⟩ := stepConn_some h
  obtain ⟨⟨h1, h2, h3⟩, i, hi⟩ := hx
  rw [h1] at hy; cases hy
  obtain ⟨l, hl⟩ := Cl.log_step hc
  exact ⟨c, hc, ⟨List.getElem?_set_self (List.getElem?_eq_some_iff.1 h1).1, h2, (Cl.side_step hc).trans h3⟩, i, by simp only [hl]; exact List.mem_append_left _ hi⟩

/-- Client `j` can be seen in a state in which only calls are different. -/
theorem Auth.of_conns {s s' : State ε} (h : s'.conns = s.conns) {j : Nat} {a : Text} {x : Conn ε} (hx : Auth s j a x) : Auth s' j a x := ⟨⟨by rw [h]; exact hx.1.1, hx.1.2⟩, hx.2⟩

theorem callStep_callEff {cfg : Cfg ε} {s s' : State ε} {k : Nat} {c : Call ε} (hr : Reachable cfg s) (hk : s.calls[k]? = some c) (h : s.callStep cfg k c = some s') : CallEff s s' := by
  have hi := Inv.reach hr
  unfold State.callStep at h
  split at h
  · next hpc =>
    split at h
    · cases h; exact .set k c _ hk rfl rfl rfl (by simp [Pc.asks]) (fun p _ => by simp [Got])
    · unfold State.get at h
      simp only at h
      split at h
      · cases h
      · split at h
        · next e he =>
          cases h
          refine .set k c _ hk rfl rfl rfl (by simp [Pc.asks]) (fun p _ => ?_)
          obtain ⟨x, h1, h2, h3⟩ := at_found hi he
          exact ⟨x, h1, h2, h3⟩
        · split at h
          · split at h
            · next e _ =>
              cases h
              exact .set k c { c with left := _, pc := .evict e.2 false } hk (by simp only [State.setCall, (drop_same _ e.2).calls]; rfl) rfl rfl (by simp [Pc.asks]) (fun p _ => by simp [Got])
            · cases h; exact .same rfl
          · cases h
            exact .set k c _ hk rfl rfl rfl (by simp [Pc.asks]) (fun p _ => ⟨⟨c.addr, Cl.State.new .outbound, false⟩, by simp [State.setCall, State.push, State.setPool], rfl, rfl⟩)
  · rcases closeClient_orCalls h with rfl | h
    · exact .set k c _ hk rfl rfl rfl (by simp [Pc.asks]) (fun p _ => by simp [Got])
    · exact .same h
  · split at h
    · cases h
      exact .set k c _ hk rfl rfl rfl (by simp [Pc.asks]) (fun p _ => ⟨⟨c.addr, Cl.State.new .outbound, false⟩, by simp [State.setCall, State.evicted, State.push, State.setPool], rfl, rfl⟩)
    · cases h
  · next j w hpc =>
    rcases closeClient_orCalls h with rfl | h
    · exact .set k c _ hk rfl rfl rfl (by simp [Pc.asks]) (fun p hg => by simp only [Got, hpc] at hg; exact hg)
    · exact .same h
  · split at h
    · cases h
      refine .set k c _ hk rfl rfl rfl ?_ (fun p _ => ?_)
      · simp only; split <;> simp [Pc.asks]
      · cases hw : Callers.Why.isCtx cfg.isCtx _ <;> simp [Got]
    · cases h
  · cases h; exact .set k c _ hk rfl rfl rfl (by simp [Pc.asks]) (fun p _ => by simp [Got])
  · next j hpc =>
    split at h
    · next hkind =>
      cases h
      exact .set k c _ hk rfl rfl rfl (by simp [Pc.asks]) (fun p hg => by simp only [Got, hpc] at hg; exact ⟨hkind, hg⟩)
    · next data hkind =>
      cases hq : s.stepConn j (.send ⟨0, data⟩) with
      | none => rw [hq] at h; cases h
      | some s1 =>
        rw [hq] at h; cases h
        refine .set k c { c with pc := .returned .sent } hk (by simp [State.setCall, (stepConn_same hq).calls]) rfl rfl (by simp [Pc.asks]) (fun p hg => ?_)
        simp only [Got, hpc] at hg
        obtain ⟨x, hx⟩ := hg
        obtain ⟨c', hc', hx'⟩ := stepConn_auth hq hx
        refine ⟨j, _, data, hx'.of_conns rfl, hkind, ?_⟩
        simp only [Cl.step, Option.some.injEq] at hc'
        subst hc'
        simp [Cl.State.send]
    · next data hkind =>
      split at h
      · next x hx =>
        cases hq : s.stepConn j (.reqStart data) with
        | none => rw [hq] at h; cases h
        | some s1 =>
          rw [hq] at h; cases h
          split
          · next n hn =>
            obtain ⟨y, cc, hy, hcc, rfl⟩ := stepConn_some hq
            rw [hx] at hy; cases hy
            simp only [Cl.step] at hcc
            split at hcc
            · next r n' hr' =>
              cases hcc
              exact .asks k j c _ x _ data ⟨n', data, .registered, none⟩ hk rfl rfl rfl hpc rfl hkind hx (List.getElem?_set_self (List.getElem?_eq_some_iff.1 hx).1) (by simp) rfl
            · next hr' => rw [hr'] at hn; cases hn
          · exact .set k c { c with pc := .returned .noNonce } hk (by simp [State.setCall, (stepConn_same hq).calls]) rfl rfl (by simp [Pc.asks]) (fun p hg => by simp [Got])
      · cases h
  · next j i hpc =>
    cases hq : s.stepConn j (.reqSend i) with
    | none => rw [hq] at h; cases h
    | some s1 =>
      rw [hq] at h; cases h
      refine .set k c { c with pc := .reqWait j i } hk (by simp [State.setCall, (stepConn_same hq).calls]) rfl rfl (by simp [Pc.asks, hpc]) (fun p hg => ?_)
      simp only [Got, hpc] at hg
      obtain ⟨hp, x, hx, q, hq1, hq2⟩ := hg
      obtain ⟨c', hc', hx'⟩ := stepConn_auth hq hx
      obtain ⟨q', h1, h2, h3, h4⟩ := Cl.call_step hq1 hc'
      refine ⟨hp, _, hx'.of_conns rfl, q', h1, by rw [h3]; exact hq2, ?_⟩
      rcases h4 with ⟨_, h4⟩ | ⟨-, -, -, h4⟩ | ⟨_, _, h4⟩
      · exact absurd rfl h4
      · simp only [h4, h2, h3]; simp
      · exact absurd rfl h4
  · cases h

theorem step_callEff {cfg : Cfg ε} {s s' : State ε} {a : Action ε} (hr : Reachable cfg s) (h : step cfg s a = some s') : CallEff s s' := by
  have hre := Reaches.reach hr
  unfold step at h
  split at h
  · cases h
  · cases a with
    | call kind addr => cases h; exact .call _ rfl rfl
    | expire k =>
      simp only at h
      cases hc : s.calls[k]? with
      | none => rw [hc] at h; cases h
      | some c =>
        rw [hc] at h; cases h
        exact .set k c _ hc rfl rfl rfl (fun h => h) (fun p hg => (Grows.of_eq rfl).got hg rfl rfl rfl)
    | callStep k =>
      simp only at h
      split at h
      · next c hc => exact callStep_callEff hr hc h
      · cases h
    | select k b =>
      simp only at h
      split at h
      swap
      · cases h
      next c hc =>
      split at h
      swap
      · cases h
      next j hpc =>
      split at h
      swap
      · cases h
      next x hx =>
      split at h
      swap
      · cases h
      next hb =>
      split at h
      · next he =>
        cases h
        refine .set k c _ hc rfl rfl rfl (by simp [Pc.asks]) (fun p hg => ?_)
        simp only [Got, hpc] at hg
        obtain ⟨x', h1⟩ := hg
        have hxx : x' = x := by have := h1.1; rw [hx] at this; cases this; rfl
        subst hxx
        have hm := Cl.Met.reach (hre j x' hx)
        have hrd : x'.c.ready = true ∧ x'.c.err = none := by
          cases b with
          | ctxDone => simp [Callers.Branch.error] at he
          | ready => exact ⟨hb, by simpa [Callers.Branch.error] using he⟩
          | readerDone => exact ⟨Cl.ready_of_done (hre j x' hx) (.inl hb), by simpa [Callers.Branch.error] using he⟩
          | writerDone => exact ⟨Cl.ready_of_done (hre j x' hx) (.inr hb), by simpa [Callers.Branch.error] using he⟩
        rcases hm.met (.inr hrd.1) with ⟨h3, h2⟩ | h2
        · obtain ⟨i, hi⟩ := Option.isSome_iff_exists.1 h3
          exact ⟨x', h1, i, by rw [hi] at h2; exact h2⟩
        · rw [hrd.2] at h2; cases h2
      · cases h
        refine .set k c _ hc rfl rfl rfl (by simp [Pc.asks]) (fun p hg => ?_)
        simp only [Got, hpc] at hg
        exact hg
    | take k =>
      simp only at h
      split at h
      · next c hc =>
        split at h
        · next j i hpc =>
          split at h
          · next s1 hq =>
            have hcalls := (stepConn_same hq).calls
            split at h
            · next x1 hx1 =>
              obtain ⟨y, cc, hy, hcc, rfl⟩ := stepConn_some hq
              have hx1' : x1 = { y with c := cc } := by
                have := List.getElem?_set_self (a := ({ y with c := cc } : Conn ε)) (List.getElem?_eq_some_iff.1 hy).1
                simp only [this] at hx1; injection hx1 with hx1; exact hx1.symm
              have hok := (Cl.ReqsOK.reach (hre j y hy)).step hcc
              split at h
              · next m q hq1 =>
                cases h
                refine .set k c { c with pc := .returned (.response _) } hc rfl rfl rfl (by simp [Pc.asks, hpc]) (fun p hg => ?_)
                simp only [Got, hpc] at hg
                obtain ⟨hp, x, hx, q', hq2, hq3, hq4⟩ := hg
                subst hp
                obtain ⟨c', hc', hx'⟩ := stepConn_auth hq hx
                have hxy : x = y := by have := hx.1.1; rw [hy] at this; cases this; rfl
                subst hxy
                rw [hc'] at hcc; cases hcc
                obtain ⟨q2, h1, h2, h3, h4⟩ := Cl.call_step hq2 hc'
                refine ⟨_, hx'.of_conns rfl, q2, h1, by rw [h3]; exact hq3, ?_, ?_⟩
                · simp only [h2, h3]; exact mem_run (as := [.reqTake i]) (by simp [Cl.run, hc']) hq4
                · rw [hx1'] at hq1
                  exact (hok.ret i _).2 ⟨_, hq1, rfl⟩
              · next hnr =>
                exfalso
                rw [hx1'] at hnr
                simp only at hnr
                -- the call has been answered
                simp only [Cl.step] at hcc
                split at hcc
                · next q hq1 =>
                  split at hcc
                  · split at hcc
                    · next m p hch =>
                      split at hcc
                      · cases hcc
                        exact hok.noEof i { q with st := .eof } (by simp [Cl.State.setCall, (List.getElem?_eq_some_iff.1 hq1).1]) rfl
                      · cases hcc
                        exact hnr _ _ m _ (by simp [Cl.State.setCall, (List.getElem?_eq_some_iff.1 hq1).1]; exact ⟨rfl, rfl, rfl⟩)
                    · cases hcc
                  · cases hcc
                · cases hcc
            · cases h
          · cases h
        · cases h
      · cases h
    | cancel k =>
      simp only at h
      split at h
      · next c hc =>
        split at h
        · next j i hpc =>
          split at h
          · cases hq : s.stepConn j (.reqCancel i) with
            | none => rw [hq] at h; cases h
            | some s1 =>
              rw [hq] at h; cases h
              exact .set k c { c with pc := .returned .cancelled } hc (by simp [State.setCall, (stepConn_same hq).calls]) rfl rfl (by simp [Pc.asks]) (fun p hg => by simp [Got])
          · cases h
        · cases h
      · cases h
    | listen => simp only at h; split at h; cases h; exact .same rfl; cases h
    | acceptConn a => simp only at h; split at h; cases h; exact .same rfl; cases h
    | acceptFail => simp only at h; split at h; cases h; exact .same rfl; cases h
    | acceptStep => exact .same (acceptStep_calls h)
    | acceptRelease l =>
      simp only at h
      split at h
      · split at h
        · cases h; exact .same (drops_same l s).calls
        · cases h
      · cases h
    | close => simp only at h; split at h <;> · cases h; exact .same rfl
    | closeListener c => simp only at h; split at h; cases h; exact .same rfl; cases h
    | closeRecv c =>
      simp only at h
      split at h
      · split at h
        · cases h; exact .same rfl
        · split at h
          · cases h; exact .same rfl
          · cases h
      · cases h
    | list side => simp only at h; split at h; cases h; exact .same rfl; cases h
    | appClose j => exact .same (stepConn_same h).calls
    | conn j act => exact .same (connStep_calls h)
    | work w => exact .same (workStep_calls h)
    | handlerReturn w r =>
      simp only at h
      split at h
      · next q hq =>
        cases hn : Wk.step q (.handlerReturn w r) with
        | none => rw [hn] at h; cases h
        | some q' => rw [hn] at h; cases h; exact .same rfl
      · cases h
    | ctxSend k h' data => exact .same (ctxSend_calls h)

/-- Where the calls are, and that no two of them have the same request of the same client. -/
def Mine (s : State ε) (f : Nat → Nat × Nat) : Prop :=
  (∀ (k : Nat) (c : Call ε), s.calls[k]? = some c → Got s (f k) c) ∧
  ∀ (k k' : Nat) (c c' : Call ε), s.calls[k]? = some c → s.calls[k']? = some c' → c.pc.asks = true → c'.pc.asks = true → f k = f k' → k = k'

/-- The request of a call exists. -/
theorem Got.exists {s : State ε} {p : Nat × Nat} {c : Call ε} (h : Got s p c) (ha : c.pc.asks = true) : ∃ (x : Conn ε) (q : Cl.Call), s.conns[p.1]? = some x ∧ x.c.calls[p.2]? = some q := by
  unfold Got at h
  cases hpc : c.pc with
  | reqSend j i => rw [hpc] at h; obtain ⟨rfl, x, hx, q, hq, -⟩ := h; exact ⟨x, q, hx.1.1, hq⟩
  | reqWait j i => rw [hpc] at h; obtain ⟨rfl, x, hx, q, hq, -⟩ := h; exact ⟨x, q, hx.1.1, hq⟩
  | returned r => cases r with
    | response m => rw [hpc] at h; obtain ⟨x, hx, q, hq, -⟩ := h; exact ⟨x, q, hx.1.1, hq⟩
    | _ => rw [hpc] at ha; cases ha
  | _ => rw [hpc] at ha; cases ha

theorem Mine.step {cfg : Cfg ε} {s s' : State ε} {a : Action ε} {f : Nat → Nat × Nat} (hr : Reachable cfg s) (hi : Mine s f) (h : step cfg s a = some s') : ∃ f', Mine s' f' := by
  have hg := step_grows h
  cases step_callEff hr h with
  | same he =>
    refine ⟨f, fun k c hk => ?_, fun k k' c c' hk hk' => ?_⟩
    · rw [he] at hk; exact hg.got (hi.1 k c hk) rfl rfl rfl
    · rw [he] at hk hk'; exact hi.2 k k' c c' hk hk'
  | call c0 he hp =>
    have key : ∀ (k : Nat) (c : Call ε), s'.calls[k]? = some c → s.calls[k]? = some c ∨ c = c0 := by
      intro k c hk
      rw [he] at hk
      by_cases hlt : k < s.calls.length
      · rw [List.getElem?_append_left hlt] at hk; exact .inl hk
      · rw [List.getElem?_append_right (by omega)] at hk
        exact .inr (by simpa using List.mem_of_getElem? hk)
    refine ⟨f, fun k c hk => ?_, fun k k' c c' hk hk' ha ha' => ?_⟩
    · rcases key k c hk with hk | rfl
      · exact hg.got (hi.1 k c hk) rfl rfl rfl
      · simp [Got, hp]
    · rcases key k c hk with hk | rfl
      · rcases key k' c' hk' with hk' | rfl
        · exact hi.2 k k' c c' hk hk' ha ha'
        · simp [hp, Pc.asks] at ha'
      · simp [hp, Pc.asks] at ha
  | set k0 c0 c1 hk0 he hkind haddr hasks hgot =>
    have key : ∀ (k : Nat) (c : Call ε), s'.calls[k]? = some c → (k = k0 ∧ c = c1) ∨ (k ≠ k0 ∧ s.calls[k]? = some c) := by
      intro k c hk
      rw [he] at hk
      by_cases h0 : k = k0
      · subst h0
        rw [List.getElem?_set_self (List.getElem?_eq_some_iff.1 hk0).1] at hk
        exact .inl ⟨rfl, (Option.some.inj hk).symm⟩
      · rw [List.getElem?_set_ne (Ne.symm h0)] at hk
        exact .inr ⟨h0, hk⟩
    have old : ∀ (k : Nat) (c : Call ε), s'.calls[k]? = some c → ∃ c', s.calls[k]? = some c' ∧ (c.pc.asks = true → c'.pc.asks = true) := by
      intro k c hk
      rcases key k c hk with ⟨rfl, rfl⟩ | ⟨-, hk⟩
      · exact ⟨c0, hk0, hasks⟩
      · exact ⟨c, hk, id⟩
    refine ⟨f, fun k c hk => ?_, fun k k' c c' hk hk' ha ha' => ?_⟩
    · rcases key k c hk with ⟨rfl, rfl⟩ | ⟨-, hk⟩
      · exact hgot _ (hi.1 k c0 hk0)
      · exact hg.got (hi.1 k c hk) rfl rfl rfl
    · obtain ⟨d, hd, hda⟩ := old k c hk
      obtain ⟨d', hd', hda'⟩ := old k' c' hk'
      exact hi.2 k k' d d' hd hd' (hda ha) (hda' ha')
  | asks k0 j c0 c1 x x' data q hk0 he hkind haddr hpc hpc' hd hx hx' hq hqd =>
    have key : ∀ (k : Nat) (c : Call ε), s'.calls[k]? = some c → (k = k0 ∧ c = c1) ∨ (k ≠ k0 ∧ s.calls[k]? = some c) := by
      intro k c hk
      rw [he] at hk
      by_cases h0 : k = k0
      · subst h0
        rw [List.getElem?_set_self (List.getElem?_eq_some_iff.1 hk0).1] at hk
        exact .inl ⟨rfl, (Option.some.inj hk).symm⟩
      · rw [List.getElem?_set_ne (Ne.symm h0)] at hk
        exact .inr ⟨h0, hk⟩
    -- nobody has the new request yet
    have fresh : ∀ (k : Nat) (c : Call ε), s.calls[k]? = some c → c.pc.asks = true → f k ≠ (j, x.c.calls.length) := by
      intro k c hk ha hf
      obtain ⟨y, q', hy, hq'⟩ := (hi.1 k c hk).exists ha
      rw [hf] at hy hq'
      simp only at hy hq'
      rw [hx] at hy; cases hy
      rw [List.getElem?_eq_none (Nat.le_refl _)] at hq'; cases hq'
    refine ⟨fun k => if k = k0 then (j, x.c.calls.length) else f k, fun k c hk => ?_, fun k k' c c' hk hk' ha ha' hf => ?_⟩
    · rcases key k c hk with ⟨rfl, rfl⟩ | ⟨h0, hk⟩
      · have hg0 := hi.1 k c0 hk0
        simp only [Got, hpc] at hg0
        obtain ⟨y, hy⟩ := hg0
        obtain ⟨y', hy', -⟩ := hg.auth hy
        have : y' = x' := by have := hy'.1.1; rw [hx'] at this; cases this; rfl
        subst this
        simp only [Got, hpc', if_true]
        exact ⟨trivial, y', by rw [haddr]; exact hy', q, hq, by rw [hkind, hqd]; exact hd⟩
      · simp only [h0, if_false]
        exact hg.got (hi.1 k c hk) rfl rfl rfl
    · rcases key k c hk with ⟨rfl, rfl⟩ | ⟨h0, hk⟩ <;> rcases key k' c' hk' with ⟨rfl, rfl⟩ | ⟨h0', hk'⟩
      · rfl
      · simp only [if_true, h0', if_false] at hf
        exact absurd hf.symm (fresh k' c' hk' ha')
      · simp only [if_true, h0, if_false] at hf
        exact absurd hf (fresh k c hk ha)
      · simp only [h0, h0', if_false] at hf
        exact hi.2 k k' c c' hk hk' ha ha' hf

theorem Mine.reach {cfg : Cfg ε} {s : State ε} (h : Reachable cfg s) : ∃ f, Mine s f :=
  (h.inv (P := fun s => Reachable cfg s ∧ ∃ f, Mine s f) (fun _ _ _ ⟨h1, f, h2⟩ hs => ⟨h1.snoc hs, h2.step h1 hs⟩)
    ⟨.refl _, fun _ => (0, 0), fun k c hk => by simp [State.new] at hk, fun k k' c c' hk => by simp [State.new] at hk⟩).2

end Node
end Noise
