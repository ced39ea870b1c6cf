import Verif.Proofs.NodeKeep
/-! # The whole node: workers, and the stages of its end -/
namespace Noise.Node
variable {ε : Type}

/-- What a step does to the workers. -/
def WkStep (cfg : Cfg ε) (s s' : State ε) : Prop :=
  s'.wk = s.wk ∨ (s.accept = .none ∧ s'.accept = .start ∧ s'.wk = some (Wk.State.new cfg.numWorkers cfg.numHandlers)) ∨
  ∃ (w w' : Wk.State ε) (act : Wk.Action ε), s.wk = some w ∧ s'.wk = some w' ∧ Wk.step w act = some w' ∧ (act = .closeQueue → s.accept = .closeWork ∧ s'.accept = .waitWorkers)

/-- What crashes the process. -/
def Crash (cfg : Cfg ε) (s s' : State ε) : Prop :=
  s'.crashed = true → cfg.max = 0 ∨ s' = { s with crashed := true } ∧ ∃ (j : Nat) (x : Conn ε) (m : Message) (w : Wk.State ε), s.conns[j]? = some x ∧ x.c.main = .delivering m ∧ s.wk = some w ∧ w.queueClosed = true

theorem closeClient_wk {s s1 s' : State ε} {j : Nat} (h : s.closeClient j s1 = some s') : (s'.wk = s1.wk ∧ s'.crashed = s1.crashed ∧ s' = s1) ∨ (s'.wk = s.wk ∧ s'.crashed = s.crashed ∧ Same s s') := by
  rcases closeClient_some h with rfl | h
  · exact .inl ⟨rfl, rfl, rfl⟩
  · have := stepConn_same h; exact .inr ⟨this.wk, this.crashed, this⟩

theorem get_wk {cfg : Cfg ε} {s s' : State ε} {d : Cl.Side} {t : Tid} {a : Text} {found added evicts : State ε → Nat → State ε} (h : s.get cfg.max d t a found added evicts = some s') (hcr : s.crashed = false)
    (hk : ∀ (s1 : State ε) (j : Nat), (found s1 j).wk = s1.wk ∧ (added s1 j).wk = s1.wk ∧ (evicts s1 j).wk = s1.wk ∧ (found s1 j).crashed = s1.crashed ∧ (added s1 j).crashed = s1.crashed ∧ (evicts s1 j).crashed = s1.crashed) :
    s'.wk = s.wk ∧ Crash cfg s s' := by
  have key : s'.wk = s.wk ∧ (s'.crashed = false ∨ cfg.max = 0) := by
    by_cases h0 : cfg.max = 0
    · refine ⟨?_, .inr h0⟩
      exact get_pres (Q := fun s' => s'.wk = s.wk) h rfl (fun conns pool j => ⟨(hk _ j).1, (hk _ j).2.1, (hk _ j).2.2.1⟩)
    · unfold State.get at h
      simp only at h
      split at h
      · cases h
      · split at h
        · cases h
          obtain ⟨h1, -, -, h2, -⟩ := hk (s.setPool d { s.pool d with entries := _ }) _
          exact ⟨h1, .inl (h2.trans hcr)⟩
        · split at h
          · next hn =>
            split at h
            · next e _ =>
              cases h
              have hs := drop_same (s.setPool d ⟨some t, (s.pool d).entries.dropLast⟩) e.2
              obtain ⟨-, -, h1, -, -, h2⟩ := hk ((s.setPool d ⟨some t, (s.pool d).entries.dropLast⟩).drop e.2) e.2
              exact ⟨h1.trans hs.wk, .inl (h2.trans (hs.crashed.trans hcr))⟩
            · next hg =>
              rw [List.getLast?_eq_none_iff] at hg
              rw [hg] at hn
              exact absurd hn.symm h0
          · cases h
            obtain ⟨-, h1, -, -, h2, -⟩ := hk (s.push d a) s.conns.length
            exact ⟨h1, .inl (h2.trans hcr)⟩
  refine ⟨key.1, fun hc => ?_⟩
  rcases key.2 with h | h
  · rw [hc] at h; cases h
  · exact .inl h

theorem noCrash {cfg : Cfg ε} {s s' : State ε} (hcr : s.crashed = false) (h : s'.crashed = s.crashed) : Crash cfg s s' := fun hc => by rw [h, hcr] at hc; cases hc

theorem acceptStep_wk {cfg : Cfg ε} {s s' : State ε} (hcr : s.crashed = false) (h : s.acceptStep cfg = some s') : WkStep cfg s s' ∧ Crash cfg s s' := by
  unfold State.acceptStep at h
  split at h
  · cases h; exact ⟨.inl rfl, noCrash hcr rfl⟩
  · obtain ⟨h1, h2⟩ := get_wk h hcr (fun _ _ => ⟨rfl, rfl, rfl, rfl, rfl, rfl⟩)
    exact ⟨.inl h1, h2⟩
  · rcases closeClient_wk h with ⟨h1, h2, -⟩ | ⟨h1, h2, -⟩ <;> exact ⟨.inl h1, noCrash hcr h2⟩
  · split at h
    · cases h; exact ⟨.inl rfl, noCrash hcr rfl⟩
    · cases h
  · split at h
    · cases h; exact ⟨.inl rfl, noCrash hcr rfl⟩
    · cases h
  · cases h; exact ⟨.inl rfl, noCrash hcr rfl⟩
  · rcases closeClient_wk h with ⟨h1, h2, -⟩ | ⟨h1, h2, -⟩ <;> exact ⟨.inl h1, noCrash hcr h2⟩
  · split at h
    · cases h; exact ⟨.inl rfl, noCrash hcr rfl⟩
    · cases h
  · next ha =>
    split at h
    · next w hw =>
      cases hq : Wk.step w .closeQueue with
      | none => rw [hq] at h; cases h
      | some w' =>
        rw [hq] at h; cases h
        exact ⟨.inr (.inr ⟨w, w', .closeQueue, hw, rfl, hq, fun _ => ⟨ha, rfl⟩⟩), noCrash hcr rfl⟩
    · cases h
  · split at h
    · split at h
      · cases h; exact ⟨.inl rfl, noCrash hcr rfl⟩
      · cases h
    · cases h
  · cases h; exact ⟨.inl rfl, noCrash hcr rfl⟩
  · cases h; exact ⟨.inl rfl, noCrash hcr rfl⟩
  · cases h

theorem callStep_wk {cfg : Cfg ε} {s s' : State ε} {k : Nat} {c : Call ε} (hcr : s.crashed = false) (h : s.callStep cfg k c = some s') : WkStep cfg s s' ∧ Crash cfg s s' := by
  unfold State.callStep at h
  split at h
  · split at h
    · cases h; exact ⟨.inl rfl, noCrash hcr rfl⟩
    · obtain ⟨h1, h2⟩ := get_wk h hcr (fun _ _ => ⟨rfl, rfl, rfl, rfl, rfl, rfl⟩)
      exact ⟨.inl h1, h2⟩
  · rcases closeClient_wk h with ⟨h1, h2, -⟩ | ⟨h1, h2, -⟩ <;> exact ⟨.inl h1, noCrash hcr h2⟩
  · split at h
    · cases h; exact ⟨.inl rfl, noCrash hcr rfl⟩
    · cases h
  · rcases closeClient_wk h with ⟨h1, h2, -⟩ | ⟨h1, h2, -⟩ <;> exact ⟨.inl h1, noCrash hcr h2⟩
  · split at h
    · cases h; exact ⟨.inl rfl, noCrash hcr rfl⟩
    · cases h
  · cases h; exact ⟨.inl rfl, noCrash hcr rfl⟩
  · next j hpc =>
    split at h
    · cases h; exact ⟨.inl rfl, noCrash hcr rfl⟩
    · next data _ =>
      cases hq : s.stepConn j (.send ⟨0, data⟩) with
      | none => rw [hq] at h; cases h
      | some s1 => rw [hq] at h; cases h; exact ⟨.inl (stepConn_same hq).wk, noCrash hcr (stepConn_same hq).crashed⟩
    · next data _ =>
      split at h
      · cases hq : s.stepConn j (.reqStart data) with
        | none => rw [hq] at h; cases h
        | some s1 =>
          rw [hq] at h; cases h
          split <;> exact ⟨.inl (stepConn_same hq).wk, noCrash hcr (stepConn_same hq).crashed⟩
      · cases h
  · next j i hpc =>
    cases hq : s.stepConn j (.reqSend i) with
    | none => rw [hq] at h; cases h
    | some s1 => rw [hq] at h; cases h; exact ⟨.inl (stepConn_same hq).wk, noCrash hcr (stepConn_same hq).crashed⟩
  · cases h

theorem connStep_wk {cfg : Cfg ε} {s s' : State ε} {j : Nat} {a : Cl.Action ε} (hcr : s.crashed = false) (h : s.connStep j a = some s') : WkStep cfg s s' ∧ Crash cfg s s' := by
  unfold State.connStep at h
  split at h
  · next x hx =>
    split at h
    · split at h
      · refine ⟨.inl (remove_keeps h).2.1, noCrash hcr ?_⟩
        unfold State.remove at h
        simp only at h
        split at h
        · cases h
        · split at h
          · next s1 h1 =>
            split at h
            · next e he =>
              cases h
              exact (drop_same _ e.2).crashed.trans (stepConn_same h1).crashed
            · cases h; exact (stepConn_same h1).crashed
          · cases h
      · unfold State.route at h
        cases hc : Cl.step x.c .main with
        | none => rw [hc] at h; cases h
        | some c => rw [hc] at h; cases h; exact ⟨.inl rfl, noCrash hcr rfl⟩
      · exact ⟨.inl (stepConn_same h).wk, noCrash hcr (stepConn_same h).crashed⟩
    · unfold State.deliver at h
      split at h
      · next m hm =>
        split at h
        · cases h
        · split at h
          · cases h
          · next w hw =>
            split at h
            · next hcl => cases h; exact ⟨.inl rfl, fun _ => .inr ⟨rfl, j, x, m, w, hx, hm, hw, hcl⟩⟩
            · split at h
              · next w' hw' =>
                cases hq : s.stepConn j .deliver with
                | none => rw [hq] at h; cases h
                | some s1 =>
                  rw [hq] at h; cases h
                  exact ⟨.inr (.inr ⟨w, w', _, hw, rfl, hw', fun h => by cases h⟩), noCrash hcr (stepConn_same hq).crashed⟩
              · cases h
      · cases h
    all_goals first
      | cases h
      | exact ⟨.inl (stepConn_same h).wk, noCrash hcr (stepConn_same h).crashed⟩
  · cases h

theorem workStep_wk {cfg : Cfg ε} {s s' : State ε} {w : Nat} (hcr : s.crashed = false) (h : s.workStep w = some s') : WkStep cfg s s' ∧ Crash cfg s s' := by
  unfold State.workStep at h
  split at h
  · next q hq =>
    simp only at h
    cases hn : Wk.step q (.work w) with
    | none => rw [hn] at h; split at h <;> simp_all
    | some q' =>
      rw [hn] at h
      split at h
      · split at h
        · next h1 =>
          cases h1
          exact ⟨.inr (.inr ⟨q, q', _, hq, (stepConn_same h).wk, hn, fun h => by cases h⟩), noCrash hcr (stepConn_same h).crashed⟩
        · cases h
      · split at h
        · next h1 =>
          cases h1
          rcases closeClient_wk h with ⟨h1, h2, -⟩ | ⟨h1, h2, -⟩
          · exact ⟨.inr (.inr ⟨q, q', _, hq, h1, hn, fun h => by cases h⟩), noCrash hcr h2⟩
          · exact ⟨.inl h1, noCrash hcr h2⟩
        · cases h
      · cases h; exact ⟨.inr (.inr ⟨q, q', _, hq, rfl, hn, fun h => by cases h⟩), noCrash hcr rfl⟩
  · cases h

theorem ctxSend_wk {cfg : Cfg ε} {s s' : State ε} {k h : Nat} {data : Bytes} (hcr : s.crashed = false) (hs : s.ctxSend k h data = some s') : WkStep cfg s s' ∧ Crash cfg s s' := by
  unfold State.ctxSend at hs
  split at hs
  · next q hq =>
    split at hs
    · next q' it h1 h2 =>
      split at hs
      · cases hs; exact ⟨.inr (.inr ⟨q, q', _, hq, rfl, h1, fun h => by cases h⟩), noCrash hcr rfl⟩
      · exact ⟨.inr (.inr ⟨q, q', _, hq, (stepConn_same hs).wk, h1, fun h => by cases h⟩), noCrash hcr (stepConn_same hs).crashed⟩
    · cases hs
  · cases hs

theorem step_wk {cfg : Cfg ε} {s s' : State ε} {a : Action ε} (h : step cfg s a = some s') : WkStep cfg s s' ∧ Crash cfg s s' := by
  unfold step at h
  split at h
  · cases h
  · next hcr =>
    have hcr : s.crashed = false := by simpa using hcr
    cases a with
    | listen =>
      simp only at h
      split at h
      · next ha => cases h; exact ⟨.inr (.inl ⟨ha, rfl, rfl⟩), noCrash hcr rfl⟩
      · cases h
    | acceptConn a => simp only at h; split at h; cases h; exact ⟨.inl rfl, noCrash hcr rfl⟩; cases h
    | acceptFail => simp only at h; split at h; cases h; exact ⟨.inl rfl, noCrash hcr rfl⟩; cases h
    | acceptStep => exact acceptStep_wk hcr h
    | acceptRelease l =>
      simp only at h
      split at h
      · split at h
        · cases h; exact ⟨.inl (drops_same l s).wk, noCrash hcr (drops_same l s).crashed⟩
        · cases h
      · cases h
    | close => simp only at h; split at h <;> · cases h; exact ⟨.inl rfl, noCrash hcr rfl⟩
    | closeListener c => simp only at h; split at h; cases h; exact ⟨.inl rfl, noCrash hcr rfl⟩; cases h
    | closeRecv c =>
      simp only at h
      split at h
      · split at h
        · cases h; exact ⟨.inl rfl, noCrash hcr rfl⟩
        · split at h
          · cases h; exact ⟨.inl rfl, noCrash hcr rfl⟩
          · cases h
      · cases h
    | list side => simp only at h; split at h; cases h; exact ⟨.inl rfl, noCrash hcr rfl⟩; cases h
    | appClose j => exact ⟨.inl (stepConn_same h).wk, noCrash hcr (stepConn_same h).crashed⟩
    | call kind addr => cases h; exact ⟨.inl rfl, noCrash hcr rfl⟩
    | expire k =>
      simp only at h
      cases hc : s.calls[k]? with
      | none => rw [hc] at h; cases h
      | some c => rw [hc] at h; cases h; exact ⟨.inl rfl, noCrash hcr rfl⟩
    | callStep k =>
      simp only at h
      split at h
      · exact callStep_wk hcr h
      · cases h
    | select k b =>
      simp only at h
      repeat' split at h
      all_goals first
        | (cases h; done)
        | (cases h; exact ⟨.inl rfl, noCrash hcr rfl⟩)
    | take k =>
      simp only at h
      split at h
      · split at h
        · split at h
          · next s1 h1 =>
            split at h
            · split at h <;> · cases h; exact ⟨.inl (stepConn_same h1).wk, noCrash hcr (stepConn_same h1).crashed⟩
            · cases h
          · cases h
        · cases h
      · cases h
    | cancel k =>
      simp only at h
      split at h
      · split at h
        · next j i _ =>
          split at h
          · cases hq : s.stepConn j (.reqCancel i) with
            | none => rw [hq] at h; cases h
            | some s1 => rw [hq] at h; cases h; exact ⟨.inl (stepConn_same hq).wk, noCrash hcr (stepConn_same hq).crashed⟩
          · cases h
        · cases h
      · cases h
    | conn j act => exact connStep_wk hcr h
    | work w => exact workStep_wk hcr h
    | handlerReturn w r =>
      simp only at h
      split at h
      · next q hq =>
        cases hn : Wk.step q (.handlerReturn w r) with
        | none => rw [hn] at h; cases h
        | some q' => rw [hn] at h; cases h; exact ⟨.inr (.inr ⟨q, q', _, hq, rfl, hn, fun h => by cases h⟩), noCrash hcr rfl⟩
      · cases h
    | ctxSend k h' data => exact ctxSend_wk hcr h

/-- How far the accept goroutine is. -/
def Accept.stage : Accept → Nat
  | .none => 0
  | .start => 1
  | .loop | .get _ | .evict _ _ _ => 2
  | .report => 3
  | .release => 4
  | .releasing _ _ => 5
  | .closeWork => 6
  | .waitWorkers => 7
  | .store => 8
  | .closeDone => 9
  | .ended => 10

def allEnded (w : Wk.State ε) : Bool := w.workers.all fun p => match p with | .ended _ => true | _ => false

/-- What a step does to the accept goroutine, and to the calls of `Close`. -/
inductive Adv (s s' : State ε) : Prop where
  | same (h : s'.accept = s.accept) (hd : s'.doneClosed = s.doneClosed) (hg : .gotClosed ∈ s'.closers → .gotClosed ∈ s.closers ∨ s.doneClosed = true)
  | early (h : s.accept.stage ≤ 3) (h' : s'.accept.stage ≤ 4) (hn : s'.accept ≠ .none) (hl : s.accept = .none → s'.wk ≠ none) (hd : s'.doneClosed = s.doneClosed) (hg : s'.closers = s.closers)
  | release (l : List Nat) (h : s.accept = .release) (h' : s'.accept = .releasing l false) (hp : l.Perm ((s.pool .inbound).entries.map Prod.snd)) (hd : s'.doneClosed = s.doneClosed) (hg : s'.closers = s.closers)
  | mark (l : List Nat) (h : s.accept = .releasing l false) (h' : s'.accept = .releasing l true) (hd : s'.doneClosed = s.doneClosed) (hg : s'.closers = s.closers)
  | next (j : Nat) (l : List Nat) (h : s.accept = .releasing (j :: l) true) (h' : s'.accept = .releasing l false) (hj : s.isDone j = true) (hd : s'.doneClosed = s.doneClosed) (hg : s'.closers = s.closers)
  | released (b : Bool) (h : s.accept = .releasing [] b) (h' : s'.accept = .closeWork) (hd : s'.doneClosed = s.doneClosed) (hg : s'.closers = s.closers)
  | closeWork (h : s.accept = .closeWork) (h' : s'.accept = .waitWorkers) (hd : s'.doneClosed = s.doneClosed) (hg : s'.closers = s.closers)
  | waited (w : Wk.State ε) (h : s.accept = .waitWorkers) (hw : s.wk = some w) (ha : allEnded w = true) (h' : s'.accept = .store) (hd : s'.doneClosed = s.doneClosed) (hg : s'.closers = s.closers)
  | store (h : s.accept = .store) (h' : s'.accept = .closeDone) (hd : s'.doneClosed = s.doneClosed) (hg : s'.closers = s.closers)
  | ended (h : s.accept = .closeDone) (h' : s'.accept = .ended) (hg : s'.closers = s.closers)

theorem Keeps.adv {s s' : State ε} (h : Keeps s s') : Adv s s' := .same h.accept h.doneClosed (fun hg => .inl (h.closers ▸ hg))

theorem adv {cfg : Cfg ε} {s s' : State ε} {a : Action ε} (h : step cfg s a = some s') : Adv s s' := by
  by_cases ha : a.other = true
  · exact (step_keeps ha h).adv
  unfold step at h
  split at h
  · cases h
  · cases a with
    | listen =>
      simp only at h
      split at h
      · next ha => cases h; exact .early (by simp [ha, Accept.stage]) (by simp [Accept.stage]) (by simp) (by simp [ha]) rfl rfl
      · cases h
    | acceptConn a =>
      simp only at h
      split at h
      · next ha _ => cases h; exact .early (by simp [ha, Accept.stage]) (by simp [Accept.stage]) (by simp) (by simp [ha]) rfl rfl
      · cases h
    | acceptFail =>
      simp only at h
      split at h
      · next ha => cases h; exact .early (by simp [ha, Accept.stage]) (by simp [Accept.stage]) (by simp) (by simp [ha]) rfl rfl
      · cases h
    | acceptStep =>
      simp only at h
      unfold State.acceptStep at h
      split at h
      · next ha => cases h; exact .early (by simp [ha, Accept.stage]) (by simp [Accept.stage]) (by simp) (by simp [ha]) rfl rfl
      · next a ha =>
        refine get_pres (Q := fun s' => Adv s s') h (.same rfl rfl .inl) (fun _ _ _ => ?_)
        exact ⟨.early (by simp [ha, Accept.stage]) (by simp [Accept.stage]) (by simp) (by simp [ha]) rfl rfl, .early (by simp [ha, Accept.stage]) (by simp [Accept.stage]) (by simp) (by simp [ha]) rfl rfl, .early (by simp [ha, Accept.stage]) (by simp [Accept.stage]) (by simp) (by simp [ha]) rfl rfl⟩
      · next v a ha =>
        rcases closeClient_some h with rfl | h
        · exact .early (by simp [ha, Accept.stage]) (by simp [Accept.stage]) (by simp) (by simp [ha]) rfl rfl
        · exact (stepConn_same h).keeps.adv
      · next v a ha =>
        split at h
        · cases h; exact .early (by simp [ha, Accept.stage]) (by simp [Accept.stage]) (by simp) (by simp [ha]) rfl rfl
        · cases h
      · next ha =>
        split at h
        · cases h; exact .early (by simp [ha, Accept.stage]) (by simp [Accept.stage]) (by simp) (by simp [ha]) rfl rfl
        · cases h
      · next b ha => cases h; exact .released b ha rfl rfl rfl
      · next j l ha =>
        rcases closeClient_some h with rfl | h
        · exact .mark _ ha rfl rfl rfl
        · exact (stepConn_same h).keeps.adv
      · next j l ha =>
        split at h
        · next hd => cases h; exact .next j l ha rfl hd rfl rfl
        · cases h
      · next ha =>
        split at h
        · next w hw =>
          cases hq : Wk.step w .closeQueue with
          | none => rw [hq] at h; cases h
          | some w' => rw [hq] at h; cases h; exact .closeWork ha rfl rfl rfl
        · cases h
      · next ha =>
        split at h
        · next w hw =>
          split at h
          · next hall => cases h; exact .waited w ha hw hall rfl rfl rfl
          · cases h
        · cases h
      · next ha => cases h; exact .store ha rfl rfl rfl
      · next ha => cases h; exact .ended ha rfl rfl
      · cases h
    | acceptRelease l =>
      simp only at h
      split at h
      · next ha =>
        split at h
        · next hp => cases h; exact .release l ha rfl hp.2 (drops_same l s).doneClosed (drops_same l s).closers
        · cases h
      · cases h
    | close =>
      simp only at h
      split at h <;>
      · cases h
        refine .same rfl rfl (fun hg => ?_)
        rcases List.mem_append.1 hg with hg | hg
        · exact .inl hg
        · simp at hg
    | closeListener c =>
      simp only at h
      split at h
      · cases h
        refine .same rfl rfl (fun hg => ?_)
        rcases List.mem_or_eq_of_mem_set hg with hg | hg
        · exact .inl hg
        · cases hg
      · cases h
    | closeRecv c =>
      simp only at h
      split at h
      · split at h
        · cases h
          refine .same rfl rfl (fun hg => ?_)
          rcases List.mem_or_eq_of_mem_set hg with hg | hg
          · exact .inl hg
          · cases hg
        · split at h
          · next hd => cases h; exact .same rfl rfl (fun _ => .inr hd)
          · cases h
      · cases h
    | _ => exact absurd rfl ha

/-- Inbound connections come from the accept loop only. -/
theorem live_back {cfg : Cfg ε} {s s' : State ε} {a : Action ε} {j : Nat} (h : step cfg s a = some s') (hs : s.accept.serving = false) (hl : live s' j) : live s j := by
  have happ : ∀ {a : Text} {d : Cl.Side}, d ≠ .inbound → s'.conns = s.conns ++ [⟨a, Cl.State.new d, false⟩] → live s j := by
    intro a d hd hc
    obtain ⟨x, hx, h1, h2⟩ := hl
    rw [hc] at hx
    rcases Nat.lt_or_ge j s.conns.length with hlt | hge
    · rw [List.getElem?_append_left hlt] at hx; exact ⟨x, hx, h1, h2⟩
    · rw [List.getElem?_append_right hge] at hx
      have := List.mem_of_getElem? hx
      rw [List.mem_singleton] at this
      subst this
      exact absurd h1 hd
  rcases step_eff h with h | rfl
  swap
  · exact hl
  cases h with
  | quiet _ hm => exact hm.live hl
  | found _ _ _ _ _ hc => exact (Mild.of_eq hc).live hl
  | added d _ _ _ _ _ hc _ hd => exact happ (fun h => by rw [hd h] at hs; cases hs) hc
  | evict _ _ _ _ _ _ hm => exact hm.live hl
  | evicted t _ _ _ _ _ hc _ _ hd => exact happ (fun h => by rw [hd h] at hs; cases hs) hc
  | removed i y hy _ _ _ hlen hc =>
    obtain ⟨x', hx', h1, h2⟩ := hl
    have hj : j < s.conns.length := by rw [← hlen]; exact (List.getElem?_eq_some_iff.1 hx').1
    obtain ⟨x2, g1, -, g3, g4, -⟩ := hc j _ (List.getElem?_eq_getElem hj)
    rw [hx'] at g1; cases g1
    exact ⟨_, List.getElem?_eq_getElem hj, g3 ▸ h1, fun h => h2 (g4.2 (.inl h))⟩
  | released _ _ _ _ _ _ hm => exact hm.live hl

/-- Ended workers stay ended. -/
theorem allEnded_step {w w' : Wk.State ε} {act : Wk.Action ε} (h : Wk.step w act = some w') (he : allEnded w = true) : allEnded w' = true := by
  have hw : ∀ (i : Nat) (p : Wk.Pc ε), w.workers[i]? = some p → ∃ b, p = .ended b := by
    intro i p hp
    have := List.all_eq_true.1 he p (List.mem_of_getElem? hp)
    cases p <;> simp_all
  cases act with
  | enqueue it =>
    simp only [Wk.step] at h
    split at h
    · cases h
    · split at h
      · cases h; exact he
      · cases h
  | closeQueue => simp only [Wk.step] at h; split at h; cases h; cases h; exact he
  | work i =>
    simp only [Wk.step] at h
    cases hp : w.workers[i]? with
    | none => rw [hp] at h; cases h
    | some p => obtain ⟨b, rfl⟩ := hw i p hp; rw [hp] at h; cases h
  | handlerReturn i r =>
    simp only [Wk.step] at h
    cases hp : w.workers[i]? with
    | none => rw [hp] at h; cases h
    | some p => obtain ⟨b, rfl⟩ := hw i p hp; rw [hp] at h; cases h
  | send k hd data =>
    simp only [Wk.step] at h
    split at h
    · split at h
      · cases h
        unfold Wk.State.ctxSend
        split
        · split <;> exact he
        · exact he
      · cases h
    · cases h

theorem queueClosed_step {w w' : Wk.State ε} {act : Wk.Action ε} (h : Wk.step w act = some w') (hn : act ≠ .closeQueue) : w'.queueClosed = w.queueClosed := by
  cases act with
  | enqueue it =>
    simp only [Wk.step] at h
    split at h
    · cases h
    · split at h
      · cases h; rfl
      · cases h
  | closeQueue => exact absurd rfl hn
  | work i =>
    simp only [Wk.step] at h
    repeat' split at h
    all_goals first
      | (cases h; done)
      | (cases h; rfl)
  | handlerReturn i r =>
    simp only [Wk.step] at h
    repeat' split at h
    all_goals first
      | (cases h; done)
      | (cases h; rfl)
  | send k hd data =>
    simp only [Wk.step] at h
    split at h
    · split at h
      · cases h
        unfold Wk.State.ctxSend
        split
        · split <;> rfl
        · rfl
      · cases h
    · cases h

/-- The stages of the end of a node. -/
structure Stage (cfg : Cfg ε) (s : State ε) : Prop where
  workers : ∀ w, s.wk = some w → Wk.Reachable cfg.numWorkers cfg.numHandlers w
  init : s.accept = .none ↔ s.wk = none
  rel : ∀ l b, s.accept = .releasing l b → ∀ j, live s j → j ∈ l
  gone : 6 ≤ s.accept.stage → ∀ j, ¬ live s j
  queue : ∀ w, s.wk = some w → w.queueClosed = true → 7 ≤ s.accept.stage
  wrk : 8 ≤ s.accept.stage → ∀ w, s.wk = some w → allEnded w = true
  done : s.doneClosed = true → s.accept = .ended
  got : .gotClosed ∈ s.closers → s.accept = .ended

theorem serving_stage {a : Accept} (h : 4 ≤ a.stage) : a.serving = false := by cases a <;> simp_all [Accept.stage, Accept.serving]

theorem none_stage {a : Accept} : a.stage = 0 ↔ a = .none := by cases a <;> simp [Accept.stage]

theorem Stage.new (cfg : Cfg ε) : Stage cfg (State.new : State ε) where
  workers w h := by cases h
  init := ⟨fun _ => rfl, fun _ => rfl⟩
  rel l b h := by cases h
  gone h := by simp [State.new, Accept.stage] at h
  queue w h := by cases h
  wrk h := by simp [State.new, Accept.stage] at h
  done h := by cases h
  got h := by cases h

/-- Nobody gets past the accept goroutine. -/
theorem Adv.mono {s s' : State ε} (h : Adv s s') : s.accept = s'.accept ∨ 4 ≤ s'.accept.stage ∧ s.accept.stage ≤ s'.accept.stage ∨ s.accept.stage ≤ 3 := by
  cases h with
  | same h => exact .inl h.symm
  | early h => exact .inr (.inr h)
  | _ => simp_all [Accept.stage]

theorem Stage.step {cfg : Cfg ε} {s s' : State ε} {a : Action ε} (hi : Stage cfg s) (hv : Inv cfg.max s) (hre : Reaches s) (h : step cfg s a = some s') : Stage cfg s' := by
  have hA := adv h
  obtain ⟨hw, -⟩ := step_wk h
  have hb : 4 ≤ s.accept.stage → ∀ j, live s' j → live s j := fun h4 j => live_back h (serving_stage h4)
  have hsame : s.accept.stage ≠ 6 → 1 ≤ s.accept.stage → s'.wk = s.wk ∨ ∃ w w' act, s.wk = some w ∧ s'.wk = some w' ∧ Wk.step w act = some w' ∧ act ≠ .closeQueue := by
    intro h6 h1
    rcases hw with hw | ⟨hn, -⟩ | ⟨w, w', act, h2, h3, h4, h5⟩
    · exact .inl hw
    · rw [hn] at h1; simp [Accept.stage] at h1
    · exact .inr ⟨w, w', act, h2, h3, h4, fun hq => by rw [(h5 hq).1] at h6; simp [Accept.stage] at h6⟩
  refine ⟨?_, ?_, ?_, ?_, ?_, ?_, ?_, ?_⟩
  · intro w hw'
    rcases hw with hw | ⟨-, -, hw⟩ | ⟨w0, w', act, h2, h3, h4, -⟩
    · exact hi.workers w (hw ▸ hw')
    · rw [hw] at hw'; cases hw'; exact ReachFrom.refl _
    · rw [h3] at hw'; cases hw'; exact (hi.workers w0 h2).snoc h4
  · have hn : s.accept ≠ .none → s'.accept ≠ .none := by
      intro hne
      cases hA with
      | same h => rwa [h]
      | early _ _ hn => exact hn
      | _ => simp_all
    rcases hw with hw | ⟨-, h2, h3⟩ | ⟨w0, w', act, h2, h3, -⟩
    · rw [hw, ← hi.init]
      refine ⟨fun h => by_contra fun hne => hn hne h, fun hs => ?_⟩
      cases hA with
      | same h => rw [h, hs]
      | early _ _ _ hl => exact absurd (hw.trans (hi.init.1 hs)) (hl hs)
      | _ => simp_all
    · simp [h2, h3]
    · have hne : s.accept ≠ .none := fun h => by rw [hi.init.1 h] at h2; cases h2
      simp [hn hne, h3]
  · intro l b hl j hj
    cases hA with
    | same h => exact hi.rel l b (h ▸ hl) j (hb (by rw [← h, hl]; simp [Accept.stage]) j hj)
    | early _ h' => rw [hl] at h'; simp [Accept.stage] at h'
    | release l' h h' hp =>
      rw [h'] at hl; cases hl
      have hj' := hb (by rw [h]; simp [Accept.stage]) j hj
      rcases hv.cover (by rw [h]; rfl) j hj' with ⟨e, he, rfl⟩ | hev
      · exact hp.symm.subset (List.mem_map_of_mem he)
      · simp [ev, h, Accept.victim] at hev
    | mark l' h h' => rw [h'] at hl; cases hl; exact hi.rel _ _ h j (hb (by rw [h]; simp [Accept.stage]) j hj)
    | next i l' h h' hd =>
      rw [h'] at hl; cases hl
      have hj' := hb (by rw [h]; simp [Accept.stage]) j hj
      rcases List.mem_cons.1 (hi.rel _ _ h j hj') with rfl | hm
      · obtain ⟨x, hx, -, hp⟩ := hj'
        exact absurd (done_past hre hx hd) hp
      · exact hm
    | _ => simp_all
  · intro h6 j hj
    cases hA with
    | same h => exact hi.gone (h ▸ h6) j (hb (by rw [← h]; omega) j hj)
    | early _ h' => omega
    | release l' h h' => rw [h'] at h6; simp [Accept.stage] at h6
    | mark l' h h' => rw [h'] at h6; simp [Accept.stage] at h6
    | next i l' h h' => rw [h'] at h6; simp [Accept.stage] at h6
    | released b h h' =>
      have := hi.rel _ _ h j (hb (by rw [h]; simp [Accept.stage]) j hj)
      cases this
    | closeWork h => exact hi.gone (by rw [h]; simp [Accept.stage]) j (hb (by rw [h]; simp [Accept.stage]) j hj)
    | waited _ h => exact hi.gone (by rw [h]; simp [Accept.stage]) j (hb (by rw [h]; simp [Accept.stage]) j hj)
    | store h => exact hi.gone (by rw [h]; simp [Accept.stage]) j (hb (by rw [h]; simp [Accept.stage]) j hj)
    | ended h => exact hi.gone (by rw [h]; simp [Accept.stage]) j (hb (by rw [h]; simp [Accept.stage]) j hj)
  · intro w' hw' hq
    have hmono : 7 ≤ s.accept.stage → 7 ≤ s'.accept.stage := by
      intro h7
      rcases hA.mono with h | h | h
      · rwa [← h]
      · omega
      · omega
    rcases hw with hw | ⟨-, -, hw⟩ | ⟨w0, w1, act, h2, h3, h4, h5⟩
    · exact hmono (hi.queue w' (hw ▸ hw') hq)
    · rw [hw] at hw'; cases hw'; cases hq
    · rw [h3] at hw'; cases hw'
      by_cases ha : act = .closeQueue
      · rw [(h5 ha).2]; simp [Accept.stage]
      · exact hmono (hi.queue w0 h2 (queueClosed_step h4 ha ▸ hq))
  · intro h8 w' hw'
    have hs8 : 7 ≤ s.accept.stage ∧ (∀ w, s.wk = some w → allEnded w = true) := by
      cases hA with
      | same h => exact ⟨by rw [← h]; omega, hi.wrk (h ▸ h8)⟩
      | early _ h' => omega
      | waited w h hw0 hall => exact ⟨by rw [h]; simp [Accept.stage], fun w1 hw1 => by rw [hw0] at hw1; cases hw1; exact hall⟩
      | store h => exact ⟨by rw [h]; simp [Accept.stage], hi.wrk (by rw [h]; simp [Accept.stage])⟩
      | ended h => exact ⟨by rw [h]; simp [Accept.stage], hi.wrk (by rw [h]; simp [Accept.stage])⟩
      | release l' h h' => rw [h'] at h8; simp [Accept.stage] at h8
      | mark l' h h' => rw [h'] at h8; simp [Accept.stage] at h8
      | next i l' h h' => rw [h'] at h8; simp [Accept.stage] at h8
      | released b h h' => rw [h'] at h8; simp [Accept.stage] at h8
      | closeWork h h' => rw [h'] at h8; simp [Accept.stage] at h8
    rcases hsame (by omega) (by omega) with hw | ⟨w0, w1, act, h2, h3, h4, -⟩
    · exact hs8.2 w' (hw ▸ hw')
    · rw [h3] at hw'; cases hw'; exact allEnded_step h4 (hs8.2 w0 h2)
  · intro hd
    have hend : s.doneClosed = true → s.accept = .ended := hi.done
    cases hA with
    | same h hd' => rw [h]; exact hend (hd' ▸ hd)
    | early h _ _ _ hd' => rw [hend (hd' ▸ hd)] at h; simp [Accept.stage] at h
    | ended h h' => exact h'
    | _ => simp_all
  · intro hg
    cases hA with
    | same h _ hg' =>
      rw [h]
      rcases hg' hg with hg | hd
      · exact hi.got hg
      · exact hi.done hd
    | early h _ _ _ _ hg' => rw [hi.got (hg' ▸ hg)] at h; simp [Accept.stage] at h
    | ended h h' => exact h'
    | _ => simp_all [hi.got]

theorem Stage.reach {cfg : Cfg ε} {s : State ε} (h : Reachable cfg s) : Stage cfg s :=
  h.ind (P := fun s => Stage cfg s) (Stage.new cfg) (fun _ _ _ hr hi h => hi.step (Inv.reach hr) (Reaches.reach hr) h)

end Noise.Node
