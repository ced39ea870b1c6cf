import Verif.Proofs.NetFind
/-! # Fair executions of a network: a call gets a connection to the address -/
namespace Noise.Net
open Spec
variable {ε : Type}
variable {cfg : Nat → Node.Cfg ε} {n : Nat} {σ : Nat → State ε} {α : Nat → Option (Action ε)}

/-- With no more addresses at the node than the pool may hold, a call gets a connection to its address, one there is or a new one. -/
theorem FairRun.gets (r : FairRun cfg n σ α) {m : Nat} (hcr : ∀ t X, (σ t).nodes[m]? = some X → X.crashed = false) {L : List Text} (hL : L.length ≤ (cfg m).max) (hin : ∀ t k c, CallAt σ m k t c → c.addr ∈ L)
    {t k : Nat} {c : Node.Call ε} (hc : CallAt σ m k t c) (hpc : c.pc = .get) (hleft : 0 < c.left) (hend : Endless σ m k) :
    ∃ t' c' j x, t ≤ t' ∧ CallAt σ m k t' c' ∧ c'.pc = .select j ∧ c'.kind = c.kind ∧ (σ t').conn ⟨m, j⟩ = some x ∧ x.addr = c.addr ∧ x.c.side = .outbound := by
  obtain ⟨l, hm⟩ : ∃ l, c.left = l + 1 := ⟨c.left - 1, by omega⟩
  have hstep : ∀ t' (X : Node.State ε), (σ t').nodes[m]? = some X → X.calls[k]? = some c → ∃ X', Node.step (cfg m) X (.callStep k) = some X' ∧
      (X'.crashed = true ∨ (∃ v b, X'.calls[k]? = some { c with left := l, pc := .evict v b }) ∨
        ∃ j x, X'.calls[k]? = some { c with left := l, pc := .select j } ∧ X'.conns[j]? = some x ∧ x.addr = c.addr ∧ x.c.side = .outbound) := by
    intro t' X hX hk
    have hr : Node.Reachable (cfg m) X := (r.inv t').nodes _ _ hX
    obtain ⟨-, hlock⟩ := Search.few_reach hL hr (fun k c hk => hin t' k c ⟨X, hX, hk⟩)
    have hi := Node.Inv.reach hr
    have hlt := (List.getElem?_eq_some_iff.1 hk).1
    simp only [Node.step, hcr t' X hX, hk, Node.State.callStep, hpc, hm, Node.State.get, hlock, ne_eq, not_true_eq_false, if_false, Bool.false_eq_true]
    cases hf : (X.pool .outbound).entries.find? (fun e => e.1 = c.addr) with
    | some e =>
      have ha : e.1 = c.addr := by simpa using List.find?_some hf
      obtain ⟨x, g1, g2, g3, -⟩ := hi.ent _ e (List.mem_of_find?_eq_some hf)
      exact ⟨_, rfl, .inr (.inr ⟨e.2, x, List.getElem?_set_self hlt, g1, g2.trans ha, g3⟩)⟩
    | none =>
      simp only
      split
      · cases hg : (X.pool .outbound).entries.getLast? with
        | none => exact ⟨_, rfl, .inl rfl⟩
        | some e =>
          refine ⟨_, rfl, .inr (.inl ⟨e.2, false, ?_⟩)⟩
          have hcalls : ((X.setPool .outbound ⟨some (.call k), (X.pool .outbound).entries.dropLast⟩).drop e.2).calls = X.calls := by
            unfold Node.State.drop Node.State.stepConn
            split
            · cases hst : Cl.step _ _ <;> rfl
            · rfl
          show (List.set _ k _)[k]? = _
          rw [List.getElem?_set_self (by rw [hcalls]; exact hlt)]
      · refine ⟨_, rfl, .inr (.inr ⟨X.conns.length, ⟨c.addr, Cl.State.new .outbound, false⟩, List.getElem?_set_self hlt, ?_, ?_, ?_⟩)⟩
        · simp [Node.State.push, Node.State.setCall, Node.State.setPool]
        · rfl
        · rfl
  obtain ⟨t', X, X', a, h1, hX, hk, hX', hown, hs⟩ := r.moves (t1 := t) hc hend fun t' X h1 _ hX hk => by
    obtain ⟨X', g, -⟩ := hstep t' X hX hk
    exact ⟨.callStep k, .inl rfl, by rw [g]; rfl⟩
  rcases hown with rfl | ⟨b, rfl⟩ | rfl | rfl
  · obtain ⟨X1, g, g2⟩ := hstep t' X hX hk
    rw [hs] at g; cases g
    rcases g2 with g2 | ⟨v, b, g2⟩ | ⟨j, x, g2, g3, g4, g5⟩
    · rw [hcr (t' + 1) X' hX'] at g2; cases g2
    · exact absurd rfl ((Search.few_reach hL ((r.inv (t' + 1)).nodes _ _ hX') (fun k c hk => hin (t' + 1) k c ⟨X', hX', hk⟩)).1 k _ g2 v b)
    · exact ⟨t' + 1, _, j, x, by omega, ⟨X', hX', g2⟩, rfl, rfl, by rw [conn_join hX']; exact g3, g4, g5⟩
  all_goals simp [Node.step, hcr t' X hX, hk, hpc] at hs

end Noise.Net
