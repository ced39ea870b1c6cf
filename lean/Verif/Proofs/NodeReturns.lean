import Verif.Proofs.SearchLive
import Verif.Spec.Calls
/-! # Calls of a node return -/
namespace Noise.NodeR
open Spec Node
variable {ε : Type}

/-- When the goroutine of a call can go on. -/
def Ready1 (s : State ε) (c : Call ε) : Prop := match c.pc with
  | .get => (s.pool .outbound).lock = none
  | .evict _ _ => False
  | .select j => ∃ x : Conn ε, s.conns[j]? = some x ∧ (c.ended = true ∨ x.c.ready = true ∨ x.c.readerDone = true)
  | .closing j _ => ∃ x : Conn ε, s.conns[j]? = some x ∧ (x.c.once = .fresh ∨ x.c.once = .done)
  | .wait j _ => ∃ x : Conn ε, s.conns[j]? = some x ∧ x.c.clientDone = true
  | .reqWait _ _ => c.ended = true
  | .returned _ => False
  | _ => True

theorem Ready1.able {cfg : Cfg ε} {s : State ε} {k : Nat} {c : Call ε} (hr : Reachable cfg s) (hcr : s.crashed = false) (hk : s.calls[k]? = some c)
    (h : Ready1 s c) : ∃ a s', Spec.Goes k a ∧ step cfg s a = some s' := by
  obtain ⟨f, hmine, -⟩ := Mine.reach hr
  have hgot := hmine k c hk
  unfold Got at hgot
  unfold Ready1 at h
  cases hp : c.pc with
  | get =>
    simp only [hp] at h
    refine ⟨.callStep k, ?_⟩
    simp only [Node.step, hcr, Bool.false_eq_true, if_false, hk, State.callStep, hp]
    cases hl : c.left with
    | zero => exact ⟨_, .inl rfl, rfl⟩
    | succ n =>
      simp only [State.get, h, ne_eq, not_true_eq_false, if_false]
      split
      · exact ⟨_, .inl rfl, rfl⟩
      · split
        · split <;> exact ⟨_, .inl rfl, rfl⟩
        · exact ⟨_, .inl rfl, rfl⟩
  | evict v b => simp only [hp] at h
  | select j =>
    simp only [hp] at h
    obtain ⟨x, hx, he⟩ := h
    have go : ∀ b : Callers.Branch, b.enabled c.ended x.c = true → ∃ a s', Spec.Goes k a ∧ step cfg s a = some s' := fun b hb => by
      refine ⟨.select k b, ?_⟩
      simp only [Node.step, hcr, Bool.false_eq_true, if_false, hk, hp, hx, hb, if_true]
      cases b.error x.c <;> exact ⟨_, .inr (.inl ⟨_, rfl⟩), rfl⟩
    rcases he with he | he | he
    · exact go .ctxDone he
    · exact go .ready he
    · exact go .readerDone he
  | closing j w =>
    simp only [hp] at h
    obtain ⟨x, hx, ho | ho⟩ := h
    · refine ⟨.callStep k, ?_⟩
      simp only [Node.step, hcr, Bool.false_eq_true, if_false, hk, State.callStep, hp, State.closeClient, hx, ho, State.stepConn, Cl.step, Cl.State.closeBegin, if_true, Option.map_some]
      exact ⟨_, .inl rfl, rfl⟩
    · refine ⟨.callStep k, ?_⟩
      simp only [Node.step, hcr, Bool.false_eq_true, if_false, hk, State.callStep, hp, State.closeClient, hx, ho]
      exact ⟨_, .inl rfl, rfl⟩
  | wait j w =>
    simp only [hp] at h
    obtain ⟨x, hx, ho⟩ := h
    refine ⟨.callStep k, ?_⟩
    simp only [Node.step, hcr, Bool.false_eq_true, if_false, hk, State.callStep, hp, State.isDone, hx, ho, if_true]
    exact ⟨_, .inl rfl, rfl⟩
  | failing =>
    refine ⟨.callStep k, ?_⟩
    simp only [Node.step, hcr, Bool.false_eq_true, if_false, hk, State.callStep, hp]
    exact ⟨_, .inl rfl, rfl⟩
  | got j =>
    simp only [hp] at hgot
    obtain ⟨x, ⟨hx, -⟩, -⟩ := hgot
    refine ⟨.callStep k, ?_⟩
    cases hd : c.kind with
    | ping =>
      simp only [Node.step, hcr, Bool.false_eq_true, if_false, hk, State.callStep, hp, hd]
      exact ⟨_, .inl rfl, rfl⟩
    | send data =>
      simp only [Node.step, hcr, Bool.false_eq_true, if_false, hk, State.callStep, hp, hd, hx, State.stepConn, Cl.step, Option.map_some]
      exact ⟨_, .inl rfl, rfl⟩
    | request data =>
      simp only [Node.step, hcr, Bool.false_eq_true, if_false, hk, State.callStep, hp, hd, hx, State.stepConn, Cl.step]
      rcases hnn : x.c.reqs.nextNonce x.c.calls.length with ⟨r, _ | n⟩ <;> simp only [Option.map_some] <;> exact ⟨_, .inl rfl, rfl⟩
  | reqSend j i =>
    obtain ⟨x, d, hx, hd, hst⟩ := stOf_some.1 (Asked.reach hr k c (j, i) .registered hk (by rw [hp]; rfl))
    simp only at hx hd
    refine ⟨.callStep k, ?_⟩
    simp only [Node.step, hcr, Bool.false_eq_true, if_false, hk, State.callStep, hp, State.stepConn, hx, Cl.step, hd, hst, if_true, Option.map_some]
    exact ⟨_, .inl rfl, rfl⟩
  | reqWait j i =>
    simp only [hp] at h
    obtain ⟨x, d, hx, hd, hst⟩ := stOf_some.1 (Asked.reach hr k c (j, i) .waiting hk (by rw [hp]; rfl))
    simp only at hx hd
    refine ⟨.cancel k, ?_⟩
    simp only [Node.step, hcr, Bool.false_eq_true, if_false, hk, hp, h, State.stepConn, hx, Cl.step, hd, hst, if_true, Option.map_some]
    exact ⟨_, .inr (.inr (.inr rfl)), rfl⟩
  | returned r => simp only [hp] at h

section
variable {cfg : Cfg ε} {σ : Nat → State ε} {α : Nat → Option (Action ε)}

theorem at_reach (hrun : Spec.CallsRun cfg σ α) (t : Nat) : Reachable cfg (σ t) := hrun.start.trans (Fair.reach hrun.exec t)

/-- What one moment does to a call. -/
theorem adv (hrun : Spec.CallsRun cfg σ α) (hne : ∀ (t k : Nat) (d : Call ε), (σ t).calls[k]? = some d → ∀ v b, d.pc ≠ .evict v b) {t q : Nat} {d : Call ε} (hq : (σ t).calls[q]? = some d) :
    ∃ d', (σ (t + 1)).calls[q]? = some d' ∧ d'.kind = d.kind ∧ (d.ended = true → d'.ended = true) ∧ (rank d' < rank d ∨ d'.pc = d.pc ∧ d'.left = d.left ∧
      (Takes α (Spec.Goes q) t → ∃ j w, d.pc = .closing j w ∧ ∃ x : Conn ε, (σ (t + 1)).conns[j]? = some x ∧ x.c.once = .running)) := by
  rcases hrun.exec t with ⟨ha, e⟩ | ⟨b, ha, hb⟩
  · exact ⟨d, by rw [e]; exact hq, rfl, id, .inr ⟨rfl, rfl, by rintro ⟨a, h, -⟩; rw [ha] at h; cases h⟩⟩
  obtain ⟨d', g1, g2, g3, g4⟩ := call_keeps (at_reach hrun t) hb hq
  refine ⟨d', g1, g2, g4.ended, ?_⟩
  have notake' : ¬ Goes q b → ¬ Takes α (Spec.Goes q) t := by
    rintro hn ⟨a', h1, h3⟩
    rw [ha] at h1; cases h1
    exact hn h3
  by_cases hg : Goes q b
  · obtain ⟨d2, g5, -, ho⟩ := own_step hb hg hq (hrun.alive _)
    rw [g1] at g5; cases g5
    rcases ho.rank (hne t q d hq) (hne (t + 1) q _ g1) with h | ⟨h1, h2, h3⟩
    · exact .inl h
    · exact .inr ⟨h1, h2, fun _ => h3⟩
  · refine .inr ⟨?_, ?_, fun h => (notake' hg h).elim⟩ <;>
    · rcases call_alone hb hq with h | rfl | h
      · rw [g1] at h; cases h; rfl
      · unfold Node.step at hb
        split at hb
        · cases hb
        simp only [hq, Option.map_some, Option.some.injEq] at hb
        rw [← hb] at g1
        simp only [State.setCall, List.getElem?_set_self (List.getElem?_eq_some_iff.1 hq).1, Option.some.injEq] at g1
        rw [← g1]
      · exact (hg h).elim

/-- A call gets closer to its return, or stays where it is. -/
theorem adv_le (hrun : Spec.CallsRun cfg σ α) (hne : ∀ (t k : Nat) (d : Call ε), (σ t).calls[k]? = some d → ∀ v b, d.pc ≠ .evict v b) {t t' q : Nat} {d : Call ε} (hq : (σ t).calls[q]? = some d)
    (hle : t ≤ t') : ∃ d', (σ t').calls[q]? = some d' ∧ d'.kind = d.kind ∧ (d.ended = true → d'.ended = true) ∧ (rank d' < rank d ∨ d'.pc = d.pc ∧ d'.left = d.left) := by
  induction hle with
  | refl => exact ⟨d, hq, rfl, id, .inr ⟨rfl, rfl⟩⟩
  | step _ ih =>
    obtain ⟨d1, g1, g2, g3, g4⟩ := ih
    obtain ⟨d2, f1, f2, f3, f4⟩ := NodeR.adv hrun hne g1
    refine ⟨d2, f1, f2.trans g2, fun h => f3 (g3 h), ?_⟩
    rcases g4 with g4 | ⟨g4, g5⟩
    · left
      rcases f4 with f4 | ⟨f4, f5, -⟩
      · omega
      · have : rank d2 = rank d1 := by simp only [rank, f4, f5]
        omega
    · rcases f4 with f4 | ⟨f4, f5, -⟩
      · left
        have : rank d1 = rank d := by simp only [rank, g4, g5]
        omega
      · exact .inr ⟨f4.trans g4, f5.trans g5⟩

/-- A call that stays able to go on goes on. -/
theorem drops (hrun : Spec.CallsRun cfg σ α) (hne : ∀ (t k : Nat) (d : Call ε), (σ t).calls[k]? = some d → ∀ v b, d.pc ≠ .evict v b) {q : Nat} {t : Nat} {d : Call ε}
    (hq : (σ t).calls[q]? = some d) (R G : Nat → Prop) (hR : R t)
    (hrun' : ∀ t d', (σ t).calls[q]? = some d' → d'.pc = d.pc → (d.ended = true → d'.ended = true) → R t → Ready1 (σ t) d' ∧ (R (t + 1) ∨ G (t + 1)))
    (hG : ∀ t, (∃ j w, d.pc = .closing j w ∧ ∃ x : Conn ε, (σ t).conns[j]? = some x ∧ x.c.once = .running) → R t → G t) :
    ∃ t', t ≤ t' ∧ (G t' ∨ ∃ d', (σ t').calls[q]? = some d' ∧ rank d' < rank d) := by
  refine Fair.well1 (hrun.call q) (P := fun t => ∃ d', (σ t).calls[q]? = some d' ∧ (d.ended = true → d'.ended = true) ∧ d'.pc = d.pc ∧ d'.left = d.left ∧ R t)
    (G := fun t => G t ∨ ∃ d', (σ t).calls[q]? = some d' ∧ rank d' < rank d) (fun _ => 0) ?_ t ⟨d, hq, id, rfl, rfl, hR⟩
  rintro t ⟨d1, g1, g3, g4, g5, g6⟩
  right
  obtain ⟨r1, r2⟩ := hrun' t d1 g1 g4 g3 g6
  obtain ⟨a, s', ha, hs⟩ := r1.able (at_reach hrun t) (hrun.alive t) g1
  refine ⟨⟨a, ha, by rw [hs]; rfl⟩, ?_⟩
  obtain ⟨d2, f1, f2, f3, f4⟩ := NodeR.adv hrun hne g1
  have hrk : rank d1 = rank d := by simp only [rank, g4, g5]
  rcases f4 with f4 | ⟨f4, f5, f6⟩
  · exact .inl (.inr ⟨d2, f1, by omega⟩)
  · rcases r2 with r2 | r2
    swap
    · exact .inl (.inl r2)
    by_cases ht : Takes α (Spec.Goes q) t
    · obtain ⟨j, w, hj, hx⟩ := f6 ht
      exact .inl (.inl (hG (t + 1) ⟨j, w, by rw [← g4]; exact hj, hx⟩ r2))
    · exact .inr ⟨⟨d2, f1, fun h => f3 (g3 h), f4.trans g4, f5.trans g5, r2⟩, .inr ⟨rfl, ht⟩⟩

/-- What one moment does to a connection. -/
theorem grows_at (hrun : Spec.CallsRun cfg σ α) (t j : Nat) (x : Conn ε) (hx : (σ t).conns[j]? = some x) : ∃ x', (σ (t + 1)).conns[j]? = some x' ∧ ∃ as, Cl.run x.c as = some x'.c := by
  rcases hrun.exec t with ⟨-, e⟩ | ⟨a, -, hs⟩
  · exact ⟨x, by rw [e]; exact hx, [], rfl⟩
  · obtain ⟨x', h1, -, -, h2⟩ := step_grows hs j x hx
    exact ⟨x', h1, h2⟩

/-- A client that has ended stays so. -/
theorem closed_stays (hrun : Spec.CallsRun cfg σ α) {t t' j : Nat} (hle : t ≤ t') (h : ∃ x : Conn ε, (σ t).conns[j]? = some x ∧ x.c.once = .done ∧ x.c.clientDone = true) :
    ∃ x : Conn ε, (σ t').conns[j]? = some x ∧ x.c.once = .done ∧ x.c.clientDone = true :=
  Fair.stays (P := fun t => ∃ x : Conn ε, (σ t).conns[j]? = some x ∧ x.c.once = .done ∧ x.c.clientDone = true) (by
    rintro t ⟨x, h1, h2, h3⟩
    obtain ⟨x', g1, as, g2⟩ := grows_at hrun t j x h1
    exact ⟨x', g1, run_once g2 h2, Search.clientDone_run g2 h3⟩) hle h

theorem settled_run {a b : Cl.State ε} {as : List (Cl.Action ε)} (hs : Cl.run a as = some b) (h : a.ready = true ∨ a.readerDone = true) : b.ready = true ∨ b.readerDone = true :=
  Cl.run_inv (P := fun c => c.ready = true ∨ c.readerDone = true) (fun c a c' h hs => by
    cl_cases a hs
    all_goals grind [Cl.State.closeReady, Cl.State.closeReaderDone, Cl.State.closeWriterDone, Cl.State.closeClientDone, Cl.State.report, Cl.State.send, Cl.State.setCall]) hs h

/-- So does an attempt that has succeeded or failed. -/
theorem settled_stays (hrun : Spec.CallsRun cfg σ α) {t t' j : Nat} (hle : t ≤ t') (h : ∃ x : Conn ε, (σ t).conns[j]? = some x ∧ (x.c.ready = true ∨ x.c.readerDone = true)) :
    ∃ x : Conn ε, (σ t').conns[j]? = some x ∧ (x.c.ready = true ∨ x.c.readerDone = true) :=
  Fair.stays (P := fun t => ∃ x : Conn ε, (σ t).conns[j]? = some x ∧ (x.c.ready = true ∨ x.c.readerDone = true)) (by
    rintro t ⟨x, h1, h2⟩
    obtain ⟨x', g1, as, g2⟩ := grows_at hrun t j x h1
    exact ⟨x', g1, settled_run g2 h2⟩) hle h

/-- A call whose context has ended returns; so do calls of `Ping` and `Send` if all attempts to connect succeed or fail. -/
theorem call_returns (hrun : Spec.CallsRun cfg σ α) (hne : ∀ (t k : Nat) (d : Call ε), (σ t).calls[k]? = some d → ∀ v b, d.pc ≠ .evict v b) (hlock : ∀ t, ((σ t).pool .outbound).lock = none)
    {q : Nat} : ∀ (n : Nat) {t : Nat} {d : Call ε}, rank d ≤ n → (σ t).calls[q]? = some d → (d.ended = true ∨ Spec.Settles σ ∧ ∀ data, d.kind ≠ .request data) →
    ∃ t' d' r, t ≤ t' ∧ (σ t').calls[q]? = some d' ∧ d'.pc = .returned r := by
  intro n
  induction n with
  | zero =>
    intro t d hn hq he
    have hev := hne t q d hq
    cases hp : d.pc with
    | returned r => exact ⟨t, d, r, Nat.le_refl _, hq, hp⟩
    | evict v b => exact (hev v b hp).elim
    | _ => simp [rank, hp] at hn
  | succ n ih =>
    intro t d hn hq he
    have hev := hne t q d hq
    -- it is enough that the rank drops
    have suff : (∃ t', t ≤ t' ∧ ∃ d', (σ t').calls[q]? = some d' ∧ rank d' < rank d) → ∃ t' d' r, t ≤ t' ∧ (σ t').calls[q]? = some d' ∧ d'.pc = .returned r := by
      rintro ⟨t1, hle, d1, g1, g2⟩
      obtain ⟨d1', f1, f2, f3, -⟩ := adv_le hrun hne hq hle
      rw [g1] at f1; cases f1
      obtain ⟨t', d', r, h1, h2, h3⟩ := ih (t := t1) (d := d1) (by omega) g1 (he.imp f3 fun h => ⟨h.1, fun data => by rw [f2]; exact h.2 data⟩)
      exact ⟨t', d', r, by omega, h2, h3⟩
    have plain : (∀ t' d', (σ t').calls[q]? = some d' → d'.pc = d.pc → (d.ended = true → d'.ended = true) → Ready1 (σ t') d') → (∀ j w, d.pc ≠ .closing j w) → ∃ t' d' r, t ≤ t' ∧ (σ t').calls[q]? = some d' ∧ d'.pc = .returned r := by
      intro hR hnc
      obtain ⟨t', hle, h | h⟩ := drops hrun hne hq (fun _ => True) (fun _ => False) trivial (fun t' d' g1 g2 g3 _ => ⟨hR t' d' g1 g2 g3, .inl trivial⟩) (fun t' ⟨j, w, hj, _⟩ => (hnc j w hj).elim)
      · exact h.elim
      · exact suff ⟨t', hle, h⟩
    have hAt : ∀ j, d.pc = .select j ∨ (∃ w, d.pc = .closing j w) → ∃ x : Conn ε, (σ t).conns[j]? = some x := by
      intro j hp
      obtain ⟨f, hmine, -⟩ := Mine.reach (at_reach hrun t)
      have := hmine q d hq
      unfold Got at this
      rcases hp with hp | ⟨w, hp⟩ <;> rw [hp] at this <;> obtain ⟨x, hx, -⟩ := this <;> exact ⟨x, hx⟩
    cases hp : d.pc with
    | returned r => exact ⟨t, d, r, Nat.le_refl _, hq, hp⟩
    | evict v b => exact (hev v b hp).elim
    | get => exact plain (fun t' d' _ g _ => by rw [Ready1, g, hp]; exact hlock t') (by rw [hp]; simp)
    | failing => exact plain (fun t' d' _ g _ => by rw [Ready1, g, hp]; trivial) (by rw [hp]; simp)
    | got j => exact plain (fun t' d' _ g _ => by rw [Ready1, g, hp]; trivial) (by rw [hp]; simp)
    | reqSend j i => exact plain (fun t' d' _ g _ => by rw [Ready1, g, hp]; trivial) (by rw [hp]; simp)
    | reqWait j i =>
      refine plain (fun t' d' _ g g' => ?_) (by rw [hp]; simp)
      rw [Ready1, g, hp]
      rcases he with he | ⟨-, he⟩
      · exact g' he
      · obtain ⟨f, hmine, -⟩ := Mine.reach (at_reach hrun t)
        have := hmine q d hq
        unfold Got at this
        rw [hp] at this
        obtain ⟨-, x, -, y, -, hk, -⟩ := this
        exact (he _ hk).elim
    | select j =>
      obtain ⟨x, hx⟩ := hAt j (.inl hp)
      rcases he with he | ⟨hset, -⟩
      · obtain ⟨t', hle', h | h⟩ := drops hrun hne hq (fun t' => ∃ x : Conn ε, (σ t').conns[j]? = some x) (fun _ => False) ⟨x, hx⟩
          (fun t' d' g1 g2 g3 ⟨y, hy⟩ => ⟨by rw [Ready1, g2, hp]; exact ⟨y, hy, .inl (g3 he)⟩, .inl (by obtain ⟨y', hy', -⟩ := grows_at hrun t' j y hy; exact ⟨y', hy'⟩)⟩) (fun t' ⟨j', w', hj, _⟩ => by rw [hp] at hj; cases hj)
        · exact h.elim
        · exact suff ⟨t', hle', h⟩
      · obtain ⟨t1, x1, hle, hx1, hs1⟩ := hset t j x hx
        obtain ⟨d1, f1, f2, f3, f4⟩ := adv_le hrun hne hq hle
        rcases f4 with f4 | ⟨f4, f5⟩
        · exact suff ⟨t1, hle, d1, f1, f4⟩
        · have hrk : rank d1 = rank d := by simp only [rank, f4, f5]
          obtain ⟨t', hle', h | ⟨d', h1, h2⟩⟩ := drops hrun hne f1 (fun t' => ∃ x : Conn ε, (σ t').conns[j]? = some x ∧ (x.c.ready = true ∨ x.c.readerDone = true)) (fun _ => False) ⟨x1, hx1, hs1⟩
            (fun t' d' g1 g2 _ g3 => ⟨by rw [Ready1, g2, f4, hp]; obtain ⟨y, y1, y2⟩ := g3; exact ⟨y, y1, .inr y2⟩, .inl (settled_stays hrun (Nat.le_succ _) g3)⟩) (fun t' ⟨j', w', hj, _⟩ => by rw [f4, hp] at hj; cases hj)
          · exact h.elim
          · exact suff ⟨t', by omega, d', h1, by omega⟩
    | wait j w =>
      obtain ⟨x, hx, hdone⟩ := Waited.reach (at_reach hrun t) (hrun.alive t) q d hq j w hp
      obtain ⟨t1, x1, hle, hx1, ho1, hc1⟩ := hrun.closes t j x hx (by rw [hdone]; simp)
      obtain ⟨d1, f1, f2, f3, f4⟩ := adv_le hrun hne hq hle
      rcases f4 with f4 | ⟨f4, f5⟩
      · exact suff ⟨t1, hle, d1, f1, f4⟩
      · have hrk : rank d1 = rank d := by simp only [rank, f4, f5]
        obtain ⟨t', hle', h | ⟨d', h1, h2⟩⟩ := drops hrun hne f1 (fun t' => ∃ x : Conn ε, (σ t').conns[j]? = some x ∧ x.c.once = .done ∧ x.c.clientDone = true) (fun _ => False) ⟨x1, hx1, ho1, hc1⟩
          (fun t' d' g1 g2 _ g3 => ⟨by rw [Ready1, g2, f4, hp]; obtain ⟨y, y1, -, y3⟩ := g3; exact ⟨y, y1, y3⟩, .inl (closed_stays hrun (Nat.le_succ _) g3)⟩) (fun t' ⟨j', w', hj, _⟩ => by rw [f4, hp] at hj; cases hj)
        · exact h.elim
        · exact suff ⟨t', by omega, d', h1, by omega⟩
    | closing j w =>
      -- somebody begins to close it
      have first : ∃ t1, t ≤ t1 ∧ ((∃ x : Conn ε, (σ t1).conns[j]? = some x ∧ x.c.once ≠ .fresh) ∨ ∃ d', (σ t1).calls[q]? = some d' ∧ rank d' < rank d) := by
        obtain ⟨x, hx⟩ := hAt j (.inr ⟨w, hp⟩)
        by_cases hf : x.c.once = .fresh
        · refine drops hrun hne hq (fun t' => ∃ x : Conn ε, (σ t').conns[j]? = some x ∧ x.c.once = .fresh) (fun t' => ∃ x : Conn ε, (σ t').conns[j]? = some x ∧ x.c.once ≠ .fresh) ⟨x, hx, hf⟩ ?_ ?_
          · rintro t' d' g1 g2 - ⟨y, hy, hyo⟩
            refine ⟨by rw [Ready1, g2, hp]; exact ⟨y, hy, .inl hyo⟩, ?_⟩
            obtain ⟨y', hy', -⟩ := grows_at hrun t' j y hy
            by_cases ho : y'.c.once = .fresh
            · exact .inl ⟨y', hy', ho⟩
            · exact .inr ⟨y', hy', ho⟩
          · rintro t' ⟨j', w', hj, y, hy, hyo⟩ -
            rw [hp] at hj; cases hj
            exact ⟨y, hy, by rw [hyo]; simp⟩
        · exact ⟨t, Nat.le_refl _, .inl ⟨x, hx, hf⟩⟩
      obtain ⟨t0, hle0, ⟨x, hx, hon⟩ | h⟩ := first
      swap
      · exact suff ⟨t0, hle0, h⟩
      obtain ⟨t1, x1, hle, hx1, ho1, hc1⟩ := hrun.closes t0 j x hx hon
      obtain ⟨d1, f1, f2, f3, f4⟩ := adv_le hrun hne hq (show t ≤ t1 by omega)
      rcases f4 with f4 | ⟨f4, f5⟩
      · exact suff ⟨t1, by omega, d1, f1, f4⟩
      · have hrk : rank d1 = rank d := by simp only [rank, f4, f5]
        obtain ⟨t', hle', h | ⟨d', h1, h2⟩⟩ := drops hrun hne f1 (fun t' => ∃ x : Conn ε, (σ t').conns[j]? = some x ∧ x.c.once = .done ∧ x.c.clientDone = true) (fun _ => False) ⟨x1, hx1, ho1, hc1⟩
          (fun t' d' g1 g2 _ g3 => ⟨by rw [Ready1, g2, f4, hp]; obtain ⟨y, y1, y2, -⟩ := g3; exact ⟨y, y1, .inr y2⟩, .inl (closed_stays hrun (Nat.le_succ _) g3)⟩)
          (fun t' ⟨j', w', hj, y, hy, hyo⟩ ⟨z, hz, hzo, _⟩ => by rw [f4, hp] at hj; cases hj; rw [hy] at hz; cases hz; rw [hyo] at hzo; cases hzo)
        · exact h.elim
        · exact suff ⟨t', by omega, d', h1, by omega⟩

/-- With few addresses. -/
theorem few_returns (hrun : Spec.CallsRun cfg σ α) {L : List Text} (hL : L.length ≤ cfg.max) (hin : ∀ (t k : Nat) (d : Call ε), (σ t).calls[k]? = some d → d.addr ∈ L)
    {q t : Nat} {d : Call ε} (hq : (σ t).calls[q]? = some d) (he : d.ended = true ∨ Spec.Settles σ ∧ ∀ data, d.kind ≠ .request data) : ∃ t' d' r, t ≤ t' ∧ (σ t').calls[q]? = some d' ∧ d'.pc = .returned r :=
  call_returns hrun (fun t => (Search.few_reach hL (at_reach hrun t) (hin t)).1) (fun t => (Search.few_reach hL (at_reach hrun t) (hin t)).2) _ (Nat.le_refl _) hq he

end
end Noise.NodeR
