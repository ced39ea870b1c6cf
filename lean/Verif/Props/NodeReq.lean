import Verif.Proofs.NodeReq
import Verif.Props.NodeCalls
/-! # Property C130: a request returns when its context ends -/
namespace Noise
open Node
variable {ε : Type}

/-- **C130.** A call of `Request` that has registered its request with a client (it is about to send it, or waits for the response) never waits for anybody else once its context has ended: whatever the node, its connections and the
peers do afterwards, the call has returned, or its own next steps - it sends the request, if it has not done so, and finds its context ended - make it return with the error of the context. Also if the peer never answers, the
connection is stuck or closed, or somebody holds the mutexes of the pools for ever. -/
theorem C130_request_ends (cfg : Cfg ε) (s s' : State ε) (h : Reachable cfg s) (k : Nat) (c : Call ε) (j i : Nat) (hc : s.calls[k]? = some c) (hpc : c.pc = .reqSend j i ∨ c.pc = .reqWait j i)
    (as : List (Action ε)) (hr : runs (step cfg) s (.expire k :: as) = some s') (hcr : s'.crashed = false) :
    ∃ c', s'.calls[k]? = some c' ∧
      ((∃ r, c'.pc = .returned r) ∨
        ∃ own s'' c'', (own = [.cancel k] ∨ own = [.callStep k, .cancel k]) ∧ runs (step cfg) s' own = some s'' ∧ s''.calls[k]? = some c'' ∧ c''.pc = .returned .cancelled) := by
  have hask : ∃ st, c.pc.ask = some ((j, i), st) := by rcases hpc with e | e <;> rw [e] <;> exact ⟨_, rfl⟩
  -- the context has ended, and the call has its request
  have key : ∃ c', s'.calls[k]? = some c' ∧ c'.ended = true ∧ ((∃ st, c'.pc.ask = some ((j, i), st)) ∨ ∃ r, c'.pc = .returned r) := by
    obtain ⟨s1, h1, hr⟩ := runs_cons hr
    have hs1 : ∃ c', s1.calls[k]? = some c' ∧ c'.ended = true ∧ ((∃ st, c'.pc.ask = some ((j, i), st)) ∨ ∃ r, c'.pc = .returned r) := by
      unfold Node.step at h1
      split at h1
      · cases h1
      · simp only [hc, Option.map_some, Option.some.injEq] at h1
        subst h1
        exact ⟨{ c with ended := true }, by simp [State.setCall, (List.getElem?_eq_some_iff.1 hc).1], rfl, .inl hask⟩
    refine runs_inv (P := fun s => ∃ c', s.calls[k]? = some c' ∧ c'.ended = true ∧ ((∃ st, c'.pc.ask = some ((j, i), st)) ∨ ∃ r, c'.pc = .returned r)) ?_ hr hs1
    rintro s a s' ⟨c1, h1, h2, h3⟩ hs
    obtain ⟨c2, h4, h5⟩ := next_step hs h1
    refine ⟨c2, h4, h5.ended h2, ?_⟩
    rcases h3 with ⟨st, h3⟩ | ⟨r, h3⟩
    · exact h5.ask _ _ h3
    · exact .inr ⟨r, h5.returned r h3⟩
  obtain ⟨c', h1, h2, h3⟩ := key
  refine ⟨c', h1, ?_⟩
  rcases h3 with ⟨st, h3⟩ | h3
  swap
  · exact .inl h3
  right
  have hre : Reachable cfg s' := h.trans ⟨_, hr⟩
  have cancels : ∀ (s : State ε) (c : Call ε), Reachable cfg s → s.crashed = false → s.calls[k]? = some c → c.ended = true → c.pc = .reqWait j i →
      ∃ s'' c'', step cfg s (.cancel k) = some s'' ∧ s''.calls[k]? = some c'' ∧ c''.pc = .returned .cancelled := by
    intro s c hre hcr hc he hpc
    obtain ⟨x, d, hx, hd, hst⟩ := stOf_some.1 (Asked.reach hre k c (j, i) .waiting hc (by rw [hpc]; rfl))
    have hq : s.stepConn j (.reqCancel i) = some { s with conns := s.conns.set j { x with c := x.c.setCall i { d with st := .cancelled } } } := by
      simp only at hx hd
      simp only [State.stepConn, hx, Cl.step, hd, hst, if_true, Option.map_some]
    have hs : step cfg s (.cancel k) = some (State.setCall { s with conns := s.conns.set j { x with c := x.c.setCall i { d with st := .cancelled } } } k { c with pc := .returned .cancelled }) := by
      simp only [Node.step, hcr, Bool.false_eq_true, if_false, hc, hpc, he, if_true, hq, Option.map_some]
    exact ⟨_, { c with pc := .returned .cancelled }, hs, by simp [State.setCall, (List.getElem?_eq_some_iff.1 hc).1], rfl⟩
  cases hpc' : c'.pc with
  | reqWait j' i' =>
    have : j' = j ∧ i' = i := by rw [hpc'] at h3; simp [Pc.ask] at h3; exact h3.1
    obtain ⟨rfl, rfl⟩ := this
    obtain ⟨s'', c'', h4, h5, h6⟩ := cancels s' c' hre hcr h1 h2 hpc'
    exact ⟨_, s'', c'', .inl rfl, by simp [runs, h4], h5, h6⟩
  | reqSend j' i' =>
    have : j' = j ∧ i' = i := by rw [hpc'] at h3; simp [Pc.ask] at h3; exact h3.1
    obtain ⟨rfl, rfl⟩ := this
    obtain ⟨x, d, hx, hd, hst⟩ := stOf_some.1 (Asked.reach hre k c' (j', i') .registered h1 (by rw [hpc']; rfl))
    simp only at hx hd
    have hq : ∃ s1, s'.stepConn j' (.reqSend i') = some s1 ∧ s1.crashed = s'.crashed := by
      simp only [State.stepConn, hx, Cl.step, hd, hst, if_true, Option.map_some]
      exact ⟨_, rfl, rfl⟩
    obtain ⟨s1, hq, hcr1⟩ := hq
    have hs : step cfg s' (.callStep k) = some (s1.setCall k { c' with pc := .reqWait j' i' }) := by
      simp only [Node.step, hcr, Bool.false_eq_true, if_false, h1, State.callStep, hpc', hq, Option.map_some]
    obtain ⟨s'', c'', h4, h5, h6⟩ := cancels (s1.setCall k { c' with pc := .reqWait j' i' }) { c' with pc := .reqWait j' i' } (hre.snoc hs) (hcr1.trans hcr)
      (by simp [State.setCall, (stepConn_same hq).calls, (List.getElem?_eq_some_iff.1 h1).1]) h2 rfl
    exact ⟨_, s'', c'', .inr rfl, by simp [runs, hs, h4], h5, h6⟩
  | _ => rw [hpc'] at h3; simp [Pc.ask] at h3

/-- A request whose response does not come; its context ends. -/
def lonelyRequest (n : ID) : List (Node.Action ε) :=
  [.call (.request [1]) ['b'], .callStep 0] ++ connDo 0 (connectOut n) ++ [.select 0 .ready, .callStep 0, .callStep 0]

/-- It meets the hypotheses of C130; the call returns, with the error of the context. -/
example : ∃ s s' s'' : Node.State Unit, Node.Reachable ⟨2, 3, 1, 1, fun _ => false⟩ s ∧ s.calls.map (fun c => (c.pc, c.ended)) = [(.reqWait 0 0, false)] ∧
    runs (Node.step ⟨2, 3, 1, 1, fun _ => false⟩) s [.expire 0] = some s' ∧ s'.calls.map (fun c => (c.pc, c.ended)) = [(.reqWait 0 0, true)] ∧ s'.crashed = false ∧
    runs (Node.step ⟨2, 3, 1, 1, fun _ => false⟩) s' [.cancel 0] = some s'' ∧ s''.calls.map (fun c => c.pc) = [.returned .cancelled] := by
  have h : (runs (Node.step ⟨2, 3, 1, 1, fun _ => false⟩) (Node.State.new : Node.State Unit) (lonelyRequest ID.zero)).bind (fun s => (runs (Node.step ⟨2, 3, 1, 1, fun _ => false⟩) s [.expire 0]).bind fun s' =>
      (runs (Node.step ⟨2, 3, 1, 1, fun _ => false⟩) s' [.cancel 0]).map fun s'' => (s.calls.map (fun c => (c.pc, c.ended)), s'.calls.map (fun c => (c.pc, c.ended)), s'.crashed, s''.calls.map (fun c => c.pc)))
      = some ([(.reqWait 0 0, false)], [(.reqWait 0 0, true)], false, [.returned .cancelled]) := by decide +kernel
  obtain ⟨s, h1, h2⟩ := Option.bind_eq_some_iff.1 h
  obtain ⟨s', h3, h4⟩ := Option.bind_eq_some_iff.1 h2
  obtain ⟨s'', h5, h6⟩ := Option.map_eq_some_iff.1 h4
  simp only [Prod.mk.injEq] at h6
  exact ⟨s, s', s'', ⟨_, h1⟩, h6.1, h3, h6.2.1, h6.2.2.1, h5, h6.2.2.2⟩

end Noise
