import Verif.Proofs.NetGet
import Verif.Props.NetLive
import Verif.Proofs.NodeReturns
/-! # Fair executions of a network: a request to a reliable address is answered -/
namespace Noise.Net
open Spec
variable {ε : Type}
variable {cfg : Nat → Node.Cfg ε} {n : Nat} {σ : Nat → State ε} {α : Nat → Option (Action ε)}

/-- A call stays the same call, and what it has returned stays so. -/
theorem FairRun.call_next (r : FairRun cfg n σ α) {t t' m k : Nat} {c : Node.Call ε} (hle : t ≤ t') (hc : CallAt σ m k t c) :
    ∃ c', CallAt σ m k t' c' ∧ c'.kind = c.kind ∧ c'.addr = c.addr ∧ ∀ res, c.pc = .returned res → c'.pc = .returned res := by
  induction hle with
  | refl => exact ⟨c, hc, rfl, rfl, fun _ h => h⟩
  | @step t' _ ih =>
    obtain ⟨c1, ⟨X, hX, hk⟩, h1, h2, h3⟩ := ih
    obtain ⟨X', hX', ⟨rfl, -⟩ | ⟨act, -, hs⟩⟩ := r.at hX
    · exact ⟨c1, ⟨_, hX', hk⟩, h1, h2, h3⟩
    · obtain ⟨c2, g1, g2, g3, g4⟩ := Node.call_keeps ((r.inv t').nodes _ _ hX) hs hk
      exact ⟨c2, ⟨X', hX', g1⟩, g2.trans h1, g3.trans h2, fun res h => g4.returned res (h3 res h)⟩

theorem callAt_eq {m k t : Nat} {c c' : Node.Call ε} (h : CallAt σ m k t c) (h' : CallAt σ m k t c') : c = c' := by
  obtain ⟨X, h1, h2⟩ := h
  obtain ⟨Y, h3, h4⟩ := h'
  rw [h1] at h3; cases h3
  rw [h2] at h4; cases h4
  rfl

/-- `Unbroken.returns`, at the first time at which the call has returned. -/
theorem Unbroken.returns_first {o i : End} (u : Unbroken σ α o i) (r : FairRun cfg n σ α) (hNo : 0 < (cfg o.node).numWorkers) (hNi : 0 < (cfg i.node).numWorkers) {h : Nat} (hh : h < (cfg i.node).numHandlers)
    {data : Bytes} (hans : AnswersTo σ α i h data) {t k q : Nat} {c : Node.Call ε} (hc : CallAt σ o.node k t c) (hpc : c.pc = .reqSend o.conn q)
    (hdat : ∃ x d, (σ t).conn o = some x ∧ x.c.calls[q]? = some d ∧ d.data = data) (hend : Endless σ o.node k) :
    ∃ t' m c', t ≤ t' ∧ CallAt σ o.node k t' c' ∧ c'.pc = .returned (.response m) ∧ (∃ x d, (σ t').conn o = some x ∧ x.c.calls[q]? = some d ∧ d.st = .returned m) ∧
      ∀ t1 c1 res, CallAt σ o.node k t1 c1 → c1.pc = .returned res → t' ≤ t1 := by
  obtain ⟨t', m, c', h1, h2, h3, -⟩ := u.returns r hNo hNi hh hans hc hpc hdat hend
  let P : Nat → Prop := fun y => ∃ c1 st, CallAt σ o.node k y c1 ∧ c1.pc.ask = some ((o.conn, q), st)
  have hP0 : P t := ⟨c, .registered, hc, by rw [hpc]; rfl⟩
  have hnot : ¬ P t' := by
    rintro ⟨c1, st, g1, g2⟩
    rw [← callAt_eq h2 g1, h3] at g2
    cases g2
  have key : ∀ d, t + d = t' → ∃ y, t ≤ y ∧ P y ∧ ¬ P (y + 1) := by
    intro d hd
    by_contra hcon
    have : ∀ e, P (t + e) := by
      intro e
      induction e with
      | zero => exact hP0
      | succ e ih =>
        by_contra hn
        exact hcon ⟨t + e, by omega, ih, hn⟩
    exact hnot (hd ▸ this d)
  obtain ⟨y, hy, ⟨c1, st, ⟨X, hX, hk⟩, g2⟩, hn⟩ := key (t' - t) (by omega)
  obtain ⟨X', hX', ⟨rfl, -⟩ | ⟨act, -, hs⟩⟩ := r.at hX
  · exact absurd ⟨c1, st, ⟨_, hX', hk⟩, g2⟩ hn
  obtain ⟨c2, f1, ⟨st', f2⟩ | ⟨m', f2, x, d, f3, f4, f5⟩⟩ := Node.asks_step ((r.inv y).nodes _ _ hX) hs hk g2 (hend y c1 ⟨X, hX, hk⟩)
  · exact absurd ⟨c2, st', ⟨_, hX', f1⟩, f2⟩ hn
  refine ⟨y + 1, m', c2, by omega, ⟨X', hX', f1⟩, f2, ⟨x, d, by rw [conn_join hX']; exact f3, f4, f5⟩, fun t1 c3 res k1 k2 => ?_⟩
  by_contra hlt
  obtain ⟨c4, k3, -, -, k4⟩ := r.call_next (t' := y) (by omega) k1
  rw [← callAt_eq ⟨X, hX, hk⟩ k3] at k4
  rw [k4 res k2] at g2
  cases g2

/-- C133 for answered requests, with the first time at which the call has returned. -/
theorem Unbroken.answered_first {o i : End} (u : Unbroken σ α o i) (r : FairRun cfg n σ α) (hNo : 0 < (cfg o.node).numWorkers) (hNi : 0 < (cfg i.node).numWorkers) {h : Nat} (hh : h < (cfg i.node).numHandlers)
    {data : Bytes} (hans : AnswersTo σ α i h data) (hb : ∀ t x, (σ t).conn o = some x → x.c.calls.length < 2 ^ 64 - 1)
    {t k : Nat} {c : Node.Call ε} (hc : CallAt σ o.node k t c) (hpc : c.pc = .select o.conn) (hkind : c.kind = .request data) (hend : Endless σ o.node k) :
    ∃ t' m c', t ≤ t' ∧ CallAt σ o.node k t' c' ∧ c'.pc = .returned (.response m) ∧ Answered σ i t t' data m ∧ ∀ t1 c1 res, CallAt σ o.node k t1 c1 → c1.pc = .returned res → t' ≤ t1 := by
  obtain ⟨t1, h1, hc1⟩ := u.chosen r hNo hNi hc hpc hend
  obtain ⟨t2, q, x, d, h2, hc2, hx, hd, hdd, hnew⟩ := u.starts r hc1 rfl hkind hend hb
  obtain ⟨t', m, c', h3, h4, h5, ⟨x', d', hx', hd', hst⟩, h6⟩ := u.returns_first r hNo hNi hh hans hc2 rfl ⟨x, d, hx, hd, hdd⟩ hend
  obtain ⟨x1, g1, g2⟩ := r.grows h3 hx
  rw [hx'] at g1; cases g1
  obtain ⟨d1, g3, -, g4⟩ := g2 q d hd
  rw [hd'] at g3; cases g3
  obtain ⟨I, w, v, f, e1, e2, e3, e4, e5⟩ := u.answer (t := t1) r hb hx' hd' hst hnew
  refine ⟨t', m, c', by omega, h4, h5, ⟨I, w, v, f, e1, e2, by rw [e3, g4, hdd], e4, fun J w' hJ hw' => ?_⟩, h6⟩
  by_contra hlt
  have := e5 t J w' (by omega) hJ hw' (by omega)
  omega

/-- The queue of a node was not longer before. -/
theorem Answered.earlier (r : FairRun cfg n σ α) {i : End} {t0 t t' : Nat} (hle : t0 ≤ t) {data : Bytes} {m : Message} (h : Answered σ i t t' data m) : Answered σ i t0 t' data m := by
  obtain ⟨I, w, v, f, e1, e2, e3, e4, e5⟩ := h
  refine ⟨I, w, v, f, e1, e2, e3, e4, fun J w' hJ hw' => ?_⟩
  obtain ⟨K, hK⟩ := r.has (by rw [← r.len t0]; exact (List.getElem?_eq_some_iff.1 hJ).1) t
  obtain ⟨w1, g1, g2⟩ := r.queue_grows hle hJ hK hw'
  exact Nat.le_trans g2.length_le (e5 K w1 hK g1)

/-- A request to an address, all connections to which are unbroken and lead to nodes that answer, is answered. -/
theorem FairRun.asks (r : FairRun cfg n σ α) {m : Nat} (hcr : ∀ t X, (σ t).nodes[m]? = some X → X.crashed = false) {L : List Text} (hL : L.length ≤ (cfg m).max) (hin : ∀ t k c, CallAt σ m k t c → c.addr ∈ L)
    (hNo : 0 < (cfg m).numWorkers) {t k : Nat} {c : Node.Call ε} (hc : CallAt σ m k t c) (hpc : c.pc = .get) (hleft : 0 < c.left) {data : Bytes} (hkind : c.kind = .request data) (hend : Endless σ m k) (Q : End → Prop)
    (hrel : ∀ t j x, (σ t).conn ⟨m, j⟩ = some x → x.c.side = .outbound → x.addr = c.addr → ∃ i h, Q i ∧ Unbroken σ α ⟨m, j⟩ i ∧ 0 < (cfg i.node).numWorkers ∧ h < (cfg i.node).numHandlers ∧ AnswersTo σ α i h data ∧
      ∀ t x, (σ t).conn ⟨m, j⟩ = some x → x.c.calls.length < 2 ^ 64 - 1) :
    ∃ t' msg c' i, t ≤ t' ∧ CallAt σ m k t' c' ∧ c'.pc = .returned (.response msg) ∧ Q i ∧ Answered σ i t t' data msg ∧ ∀ t1 c1 res, CallAt σ m k t1 c1 → c1.pc = .returned res → t' ≤ t1 := by
  obtain ⟨t1, c1, j, x, h1, h2, h3, h4, h5, h6, h7⟩ := r.gets hcr hL hin hc hpc hleft hend
  obtain ⟨i, h, hQ, hu, hNi, hh, hans, hb⟩ := hrel t1 j x h5 h7 h6
  obtain ⟨t', msg, c', g1, g2, g3, g4, g5⟩ := hu.answered_first r (o := ⟨m, j⟩) hNo hNi hh hans hb h2 h3 (h4.trans hkind) hend
  exact ⟨t', msg, c', i, by omega, g2, g3, hQ, g4.earlier r h1, g5⟩

/-- A call whose context has ended returns. -/
theorem FairRun.expired_returns (r : FairRun cfg n σ α) {m : Nat} (hcr : ∀ t X, (σ t).nodes[m]? = some X → X.crashed = false) {L : List Text} (hL : L.length ≤ (cfg m).max) (hin : ∀ t k c, CallAt σ m k t c → c.addr ∈ L)
    (hcl : ∀ t j x, (σ t).conn ⟨m, j⟩ = some x → x.c.once ≠ .fresh → ∃ t' x', t ≤ t' ∧ (σ t').conn ⟨m, j⟩ = some x' ∧ x'.c.once = .done ∧ x'.c.clientDone = true)
    {t k : Nat} {c : Node.Call ε} (hc : CallAt σ m k t c) (he : c.ended = true) : ∃ t' c' res, t ≤ t' ∧ CallAt σ m k t' c' ∧ c'.pc = .returned res := by
  have hm : m < n := by
    obtain ⟨X, hX, -⟩ := hc
    rw [← r.len t]; exact (List.getElem?_eq_some_iff.1 hX).1
  choose τ hτ using r.has hm
  let β : Nat → Option (Node.Action ε) := fun t => match α t with
    | some (.node m' a) => if m' = m then some a else none
    | _ => none
  have hβ : ∀ t a, β t = some a ↔ α t = some (.node m a) := by
    intro t a
    simp only [β]
    cases h : α t with
    | none => simp
    | some b =>
      cases b with
      | node m' b =>
        by_cases e : m' = m
        · simp [e]
        · simp [e]
      | _ => simp
  have hrun : Spec.CallsRun (cfg m) τ β := by
    refine ⟨(r.inv 0).nodes _ _ (hτ 0), fun t => ?_, fun q t => ?_, fun t j x hj ho => ?_, fun t => hcr t _ (hτ t)⟩
    · obtain ⟨X', hX', ⟨rfl, h⟩ | ⟨act, h, hs⟩⟩ := r.at (hτ t)
      · rw [hτ (t + 1)] at hX'
        refine .inl ⟨?_, Option.some.inj hX'⟩
        cases hb : β t with
        | none => rfl
        | some a => exact absurd ((hβ t a).1 hb) (h a)
      · rw [hτ (t + 1)] at hX'; cases hX'
        exact .inr ⟨act, (hβ t act).2 h, hs⟩
    · obtain ⟨u, hu, ⟨a, h1, h2⟩ | h⟩ := r.runs (.call m q) t
      · refine ⟨u, hu, .inl ?_⟩
        rcases h2 with rfl | ⟨b, rfl⟩ | rfl | rfl
        · exact ⟨_, (hβ u _).2 h1, .inl rfl⟩
        · exact ⟨_, (hβ u _).2 h1, .inr (.inl ⟨b, rfl⟩)⟩
        · exact ⟨_, (hβ u _).2 h1, .inr (.inr (.inl rfl))⟩
        · exact ⟨_, (hβ u _).2 h1, .inr (.inr (.inr rfl))⟩
      · refine ⟨u, hu, .inr fun ⟨a, h1, h2⟩ => h ⟨.node m a, ⟨?_, ?_⟩, ?_⟩⟩
        · rcases h1 with rfl | ⟨b, rfl⟩ | rfl | rfl
          · exact .inl rfl
          · exact .inr (.inl ⟨b, rfl⟩)
          · exact .inr (.inr (.inl rfl))
          · exact .inr (.inr (.inr rfl))
        · rintro n' j msg e
          cases e
          rcases h1 with h1 | ⟨b, h1⟩ | h1 | h1 <;> cases h1
        · obtain ⟨X', hX'⟩ := Option.isSome_iff_exists.1 h2
          rcases h1 with rfl | ⟨b, rfl⟩ | rfl | rfl <;> simp only [step, hτ u, hX', Option.map_some, Option.isSome_some]
    · obtain ⟨t', x', h1, h2, h3⟩ := hcl t j x ((conn_join (hτ t)).trans hj) ho
      exact ⟨t', x', h1, (conn_join (hτ t')).symm.trans h2, h3⟩
  obtain ⟨X, hX, hk⟩ := hc
  rw [hτ t] at hX; cases hX
  obtain ⟨t', d', res, h1, h2, h3⟩ := NodeR.few_returns hrun hL (fun t k d hd => hin t k d ⟨_, hτ t, hd⟩) hk (.inl he)
  exact ⟨t', d', res, h1, ⟨_, hτ t', h2⟩, h3⟩

end Noise.Net
