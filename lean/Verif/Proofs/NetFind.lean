import Verif.Proofs.NetCall
import Verif.Proofs.SearchLive
/-! # Fair executions of a network: a call finds the connection to the address -/
namespace Noise.Net
open Spec
variable {ε : Type}
variable {cfg : Nat → Node.Cfg ε} {n : Nat} {σ : Nat → State ε} {α : Nat → Option (Action ε)} {o i : End}

/-- The address of a connection stays. -/
theorem FairRun.addr (r : FairRun cfg n σ α) {t t' : Nat} (hle : t ≤ t') {e : End} {x : Node.Conn ε} (h : (σ t).conn e = some x) : ∃ x', (σ t').conn e = some x' ∧ x'.addr = x.addr := by
  refine Fair.stays (P := fun y => ∃ x', (σ y).conn e = some x' ∧ x'.addr = x.addr) ?_ hle ⟨x, h, rfl⟩
  rintro y ⟨x', h1, h2⟩
  obtain ⟨X, hX, hx⟩ := conn_split h1
  obtain ⟨X', hX', ⟨rfl, -⟩ | ⟨a, -, hs⟩⟩ := r.at hX
  · exact ⟨x', by rw [conn_join hX']; exact hx, h2⟩
  · obtain ⟨x'', g1, g2, -⟩ := Node.step_grows hs _ _ hx
    exact ⟨x'', by rw [conn_join hX']; exact g1, g2.trans h2⟩

/-- With no more addresses at the node than the pool may hold, a call for the address of a connection on which nothing fails gets this connection. -/
theorem Unbroken.finds (u : Unbroken σ α o i) (r : FairRun cfg n σ α) {L : List Text} (hL : L.length ≤ (cfg o.node).max) (hin : ∀ t k c, CallAt σ o.node k t c → c.addr ∈ L)
    {t k : Nat} {c : Node.Call ε} (hc : CallAt σ o.node k t c) (hpc : c.pc = .get) (hleft : 0 < c.left) {x : Node.Conn ε} (hx : (σ t).conn o = some x) (ha : x.addr = c.addr) (hend : Endless σ o.node k) :
    ∃ t' c', t ≤ t' ∧ CallAt σ o.node k t' c' ∧ c'.pc = .select o.conn ∧ c'.kind = c.kind := by
  obtain ⟨t0, hl⟩ := u.linked
  have co := u.out r hl
  obtain ⟨m, hm⟩ : ∃ m, c.left = m + 1 := ⟨c.left - 1, by omega⟩
  have hstep : ∀ t' (X : Node.State ε), t ≤ t' → (σ t').nodes[o.node]? = some X → X.calls[k]? = some c →
      ∃ X', Node.step (cfg o.node) X (.callStep k) = some X' ∧ X'.calls = X.calls.set k { c with left := m, pc := .select o.conn } := by
    intro t' X hle hX hk
    obtain ⟨x', hx', hxa⟩ := r.addr hle hx
    have hcl : (σ t').cl o .outbound = x'.c := cl_some hx'
    have hh := co.healthy t'
    rw [hcl] at hh
    rw [conn_join hX] at hx'
    have hr : Node.Reachable (cfg o.node) X := (r.inv t').nodes _ _ hX
    obtain ⟨-, hlock⟩ := Search.few_reach hL hr (fun k c hk => hin t' k c ⟨X, hX, hk⟩)
    have hi := Node.Inv.reach hr
    have hside : x'.c.side = .outbound := by
      have := u.out r hl
      exact r.sides ((hl.ends (r.inv t0)).1) t' x' (by rw [conn_join hX]; exact hx')
    have hnp : ¬ Node.past x'.c := by
      have := hh.main
      rintro (h | h) <;> rw [h] at this <;> cases this
    have hfind : (X.pool .outbound).entries.find? (fun e => e.1 = c.addr) = some (c.addr, o.conn) := by
      rcases Node.Covered.reach hr _ _ hx' hside hnp with ⟨e, he, hej⟩ | ⟨k', hk'⟩
      · obtain ⟨y, g1, g2, -⟩ := hi.ent _ e he
        rw [hej, hx'] at g1; cases g1
        have := Node.find_fst (hi.nodup _) he
        have e1 : e = (c.addr, o.conn) := by rw [← hej, ← ha, ← hxa, g2]
        rw [e1] at this
        exact this
      · have := (hi.evict _ _ hk').1
        simp only [Node.Tid.side] at this
        rw [hlock] at this; cases this
    have hcr := (co.node t' X hX).1
    refine ⟨(X.setPool .outbound { X.pool .outbound with entries := (c.addr, o.conn) :: (X.pool .outbound).entries.filter (fun q => q.1 ≠ c.addr) }).setCall k { c with left := m, pc := .select o.conn }, ?_, rfl⟩
    simp [Node.step, hcr, hk, Node.State.callStep, hpc, hm, Node.State.get, hlock, hfind]
  obtain ⟨t', X, X', a, h1, hX, hk, hX', hown, hs⟩ := r.moves (t1 := t) hc hend fun t' X h1 _ hX hk => by
    obtain ⟨X', g, -⟩ := hstep t' X h1 hX hk
    exact ⟨.callStep k, .inl rfl, by rw [g]; rfl⟩
  have hcr := (co.node t' X hX).1
  rcases hown with rfl | ⟨b, rfl⟩ | rfl | rfl
  · obtain ⟨X1, g, g2⟩ := hstep t' X h1 hX hk
    rw [hs] at g; cases g
    exact ⟨t' + 1, { c with left := m, pc := .select o.conn }, by omega, ⟨X', hX', by rw [g2]; exact List.getElem?_set_self (List.getElem?_eq_some_iff.1 hk).1⟩, rfl, rfl⟩
  all_goals simp [Node.step, hcr, hk, hpc] at hs

end Noise.Net
