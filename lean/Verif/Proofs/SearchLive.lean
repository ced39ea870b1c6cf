import Verif.Proofs.Search
import Verif.Proofs.Fair
import Verif.Props.Node
import Mathlib.Data.Set.Finite.List
/-! # A search on a node returns -/
namespace Noise.Search
open Spec
variable {ε : Type}

/-- With few addresses, no call evicts. -/
theorem few_reach {cfg : Node.Cfg ε} {L : List Text} (hL : L.length ≤ cfg.max) {s : Node.State ε} (h : Node.Reachable cfg s) (hin : ∀ (k : Nat) (c : Node.Call ε), s.calls[k]? = some c → c.addr ∈ L) :
    (∀ (k : Nat) (c : Node.Call ε), s.calls[k]? = some c → ∀ v b, c.pc ≠ .evict v b) ∧ (s.pool .outbound).lock = none := by
  have key : (∀ e ∈ (s.pool .outbound).entries, e.1 ∈ L) ∧ ∀ t, t.side = .outbound → Node.ev s t = none := by
    refine h.ind (P := fun s => (∀ (k : Nat) (c : Node.Call ε), s.calls[k]? = some c → c.addr ∈ L) → (∀ e ∈ (s.pool .outbound).entries, e.1 ∈ L) ∧ ∀ t, t.side = .outbound → Node.ev s t = none) ?_ ?_ hin
    · exact fun _ => ⟨fun e he => (by cases he), fun t ht => (by cases t with | accept => cases ht | call k => rfl)⟩
    · intro s1 s2 a hr ih hs hin
      have hin1 : ∀ (k : Nat) (c : Node.Call ε), s1.calls[k]? = some c → c.addr ∈ L := fun k c hk => by
        obtain ⟨c', g1, -, g2, -⟩ := Node.call_keeps hr hs hk
        rw [← g2]; exact hin k c' g1
      obtain ⟨h1, h2⟩ := ih hin1
      exact within_step hr hL hs (by rintro b ⟨k, c, hc, rfl⟩; exact hin1 k c hc) h1 h2
  refine ⟨fun k c hk v b hp => ?_, outbound_unlocked h fun k => key.2 _ rfl⟩
  have := key.2 (.call k) rfl
  simp [Node.ev, hk, hp, Node.Pc.victim] at this

section
variable {S : Sorter} {c : Cfg ε} {σ : Nat → State ε} {α : Nat → Option (Action ε)} {peers : List ID}

theorem inv_at (hx : Execution (step S c) σ α) (h0 : Inv S c peers (σ 0)) (t : Nat) : Inv S c peers (σ t) :=
  (Fair.reach hx t).inv (fun _ _ _ hp hs => Inv.step hp hs) h0

/-- What one moment does to a call. -/
theorem adv (hrun : Spec.Runs S c σ α) (h0 : Inv S c peers (σ 0)) (hne : ∀ (t k : Nat) (d : Node.Call ε), (σ t).node.calls[k]? = some d → ∀ v b, d.pc ≠ .evict v b) {t q : Nat} {d : Node.Call ε} (hq : (σ t).node.calls[q]? = some d) :
    ∃ d', (σ (t + 1)).node.calls[q]? = some d' ∧ d'.kind = d.kind ∧ (d.ended = true → d'.ended = true) ∧ (Node.rank d' < Node.rank d ∨ d'.pc = d.pc ∧ d'.left = d.left ∧
      (Takes α (fun a => ∃ b, a = .node b ∧ Goes q b) t → ∃ j w, d.pc = .closing j w ∧ ∃ x : Node.Conn ε, (σ (t + 1)).node.conns[j]? = some x ∧ x.c.once = .running)) := by
  have hi := inv_at hrun.exec h0 t
  have same : (σ (t + 1)).node = (σ t).node → (¬ Takes α (fun a => ∃ b, a = .node b ∧ Goes q b) t) → ∃ d', (σ (t + 1)).node.calls[q]? = some d' ∧ d'.kind = d.kind ∧ (d.ended = true → d'.ended = true) ∧ (Node.rank d' < Node.rank d ∨ d'.pc = d.pc ∧ d'.left = d.left ∧
      (Takes α (fun a => ∃ b, a = .node b ∧ Goes q b) t → ∃ j w, d.pc = .closing j w ∧ ∃ x : Node.Conn ε, (σ (t + 1)).node.conns[j]? = some x ∧ x.c.once = .running)) :=
    fun e hn => ⟨d, by rw [e]; exact hq, rfl, id, .inr ⟨rfl, rfl, fun h => (hn h).elim⟩⟩
  rcases hrun.exec t with ⟨ha, e⟩ | ⟨a, ha, hs⟩
  · exact same (by rw [e]) (by rintro ⟨a, h, -⟩; rw [ha] at h; cases h)
  have notake : (∀ b, a ≠ .node b) → ¬ Takes α (fun a => ∃ b, a = .node b ∧ Goes q b) t := by
    rintro hn ⟨a', h1, b, h2, -⟩
    rw [ha] at h1; cases h1
    exact hn b h2
  rcases step_cases hs with ⟨b, rfl, hb, -, -⟩ | ⟨b, rfl, -, e1, -⟩ | ⟨i, j, id, rfl, -, -, hnd, -⟩ | ⟨i, j, who, b, k, r, rfl, -, -, -, -, e1, -⟩
  · obtain ⟨d', g1, g2, g3, g4⟩ := Node.call_keeps hi.node hb hq
    refine ⟨d', g1, g2, g4.ended, ?_⟩
    have notake' : ¬ Goes q b → ¬ Takes α (fun a => ∃ b, a = .node b ∧ Goes q b) t := by
      rintro hn ⟨a', h1, b', h2, h3⟩
      rw [ha] at h1; cases h1; cases h2
      exact hn h3
    by_cases hg : Goes q b
    · obtain ⟨d2, g5, -, ho⟩ := Node.own_step hb hg hq (hrun.alive _)
      rw [g1] at g5; cases g5
      rcases ho.rank (hne t q d hq) (hne (t + 1) q _ g1) with h | ⟨h1, h2, h3⟩
      · exact .inl h
      · exact .inr ⟨h1, h2, fun _ => h3⟩
    · refine .inr ⟨?_, ?_, fun h => (notake' hg h).elim⟩ <;>
      · rcases Node.call_alone hb hq with h | rfl | h
        · rw [g1] at h; cases h; rfl
        · unfold Node.step at hb
          split at hb
          · cases hb
          simp only [hq, Option.map_some, Option.some.injEq] at hb
          rw [← hb] at g1
          simp only [Node.State.setCall, List.getElem?_set_self (List.getElem?_eq_some_iff.1 hq).1, Option.some.injEq] at g1
          rw [← g1]
        · exact (hg h).elim
  · exact same e1 (notake (by simp))
  · obtain ⟨d', g1, g2, g3, g4⟩ := Node.call_keeps hi.node hnd hq
    refine ⟨d', g1, g2, g4.ended, .inr ⟨?_, ?_, fun h => (notake (by simp) h).elim⟩⟩ <;>
    · rcases Node.call_alone hnd hq with h | h | h | ⟨b, h⟩ | h | h
      · rw [g1] at h; cases h; rfl
      all_goals cases h
  · exact same e1 (notake (by simp))

/-- A call gets closer to its return, or stays where it is. -/
theorem adv_le (hrun : Spec.Runs S c σ α) (h0 : Inv S c peers (σ 0)) (hne : ∀ (t k : Nat) (d : Node.Call ε), (σ t).node.calls[k]? = some d → ∀ v b, d.pc ≠ .evict v b) {t t' q : Nat} {d : Node.Call ε} (hq : (σ t).node.calls[q]? = some d)
    (hle : t ≤ t') : ∃ d', (σ t').node.calls[q]? = some d' ∧ d'.kind = d.kind ∧ (d.ended = true → d'.ended = true) ∧ (Node.rank d' < Node.rank d ∨ d'.pc = d.pc ∧ d'.left = d.left) := by
  induction hle with
  | refl => exact ⟨d, hq, rfl, id, .inr ⟨rfl, rfl⟩⟩
  | step _ ih =>
    obtain ⟨d1, g1, g2, g3, g4⟩ := ih
    obtain ⟨d2, f1, f2, f3, f4⟩ := adv hrun h0 hne g1
    refine ⟨d2, f1, f2.trans g2, fun h => f3 (g3 h), ?_⟩
    rcases g4 with g4 | ⟨g4, g5⟩
    · left
      rcases f4 with f4 | ⟨f4, f5, -⟩
      · omega
      · have : Node.rank d2 = Node.rank d1 := by simp only [Node.rank, f4, f5]
        omega
    · rcases f4 with f4 | ⟨f4, f5, -⟩
      · left
        have : Node.rank d1 = Node.rank d := by simp only [Node.rank, g4, g5]
        omega
      · exact .inr ⟨f4.trans g4, f5.trans g5⟩

/-- A call that stays able to go on goes on. -/
theorem drops (hrun : Spec.Runs S c σ α) (h0 : Inv S c peers (σ 0)) (hne : ∀ (t k : Nat) (d : Node.Call ε), (σ t).node.calls[k]? = some d → ∀ v b, d.pc ≠ .evict v b) {q : Nat} {data : Bytes} {t : Nat} {d : Node.Call ε}
    (hq : (σ t).node.calls[q]? = some d) (hk : d.kind = .request data) (he : d.ended = true) (R G : Nat → Prop) (hR : R t)
    (hrun' : ∀ t d', (σ t).node.calls[q]? = some d' → d'.pc = d.pc → R t → Node.Ready (σ t).node d' ∧ (R (t + 1) ∨ G (t + 1)))
    (hG : ∀ t, (∃ j w, d.pc = .closing j w ∧ ∃ x : Node.Conn ε, (σ t).node.conns[j]? = some x ∧ x.c.once = .running) → R t → G t) :
    ∃ t', t ≤ t' ∧ (G t' ∨ ∃ d', (σ t').node.calls[q]? = some d' ∧ Node.rank d' < Node.rank d) := by
  refine Fair.well1 (hrun.call q) (P := fun t => ∃ d', (σ t).node.calls[q]? = some d' ∧ d'.kind = .request data ∧ d'.ended = true ∧ d'.pc = d.pc ∧ d'.left = d.left ∧ R t)
    (G := fun t => G t ∨ ∃ d', (σ t).node.calls[q]? = some d' ∧ Node.rank d' < Node.rank d) (fun _ => 0) ?_ t ⟨d, hq, hk, he, rfl, rfl, hR⟩
  rintro t ⟨d1, g1, g2, g3, g4, g5, g6⟩
  right
  obtain ⟨r1, r2⟩ := hrun' t d1 g1 g4 g6
  obtain ⟨a, s', ha, hs⟩ := r1.able (inv_at hrun.exec h0 t).node (hrun.alive t) g1 g3 g2
  refine ⟨⟨.node a, ⟨a, rfl, ha⟩, by simp [Search.step, hrun.alive t, hs]⟩, ?_⟩
  obtain ⟨d2, f1, f2, f3, f4⟩ := adv hrun h0 hne g1
  have hrk : Node.rank d1 = Node.rank d := by simp only [Node.rank, g4, g5]
  rcases f4 with f4 | ⟨f4, f5, f6⟩
  · exact .inl (.inr ⟨d2, f1, by omega⟩)
  · rcases r2 with r2 | r2
    swap
    · exact .inl (.inl r2)
    by_cases ht : Takes α (fun a => ∃ b, a = .node b ∧ Goes q b) t
    · obtain ⟨j, w, hj, hx⟩ := f6 ht
      exact .inl (.inl (hG (t + 1) ⟨j, w, by rw [← g4]; exact hj, hx⟩ r2))
    · exact .inr ⟨⟨d2, f1, f2.trans g2, f3 g3, f4.trans g4, f5.trans g5, r2⟩, .inr ⟨rfl, ht⟩⟩

/-- What one moment does to a connection. -/
theorem grows_at (hrun : Spec.Runs S c σ α) (t j : Nat) (x : Node.Conn ε) (hx : (σ t).node.conns[j]? = some x) : ∃ x', (σ (t + 1)).node.conns[j]? = some x' ∧ ∃ as, Cl.run x.c as = some x'.c := by
  rcases hrun.exec t with ⟨-, e⟩ | ⟨a, -, hs⟩
  · exact ⟨x, by rw [e]; exact hx, [], rfl⟩
  · rcases step_node hs with e | ⟨b, hb⟩
    · exact ⟨x, by rw [e]; exact hx, [], rfl⟩
    · obtain ⟨x', h1, -, -, h2⟩ := Node.step_grows hb j x hx
      exact ⟨x', h1, h2⟩

theorem clientDone_run {a b : Cl.State ε} {as : List (Cl.Action ε)} (hs : Cl.run a as = some b) (h : a.clientDone = true) : b.clientDone = true :=
  Cl.run_inv (P := fun c => c.clientDone = true) (fun c a c' h hs => by
    cl_cases a hs
    all_goals grind [Cl.State.closeReady, Cl.State.closeReaderDone, Cl.State.closeWriterDone, Cl.State.closeClientDone, Cl.State.report, Cl.State.send, Cl.State.setCall]) hs h

/-- A client that has ended stays so. -/
theorem closed_stays (hrun : Spec.Runs S c σ α) {t t' j : Nat} (hle : t ≤ t') (h : ∃ x : Node.Conn ε, (σ t).node.conns[j]? = some x ∧ x.c.once = .done ∧ x.c.clientDone = true) :
    ∃ x : Node.Conn ε, (σ t').node.conns[j]? = some x ∧ x.c.once = .done ∧ x.c.clientDone = true :=
  Fair.stays (P := fun t => ∃ x : Node.Conn ε, (σ t).node.conns[j]? = some x ∧ x.c.once = .done ∧ x.c.clientDone = true) (by
    rintro t ⟨x, h1, h2, h3⟩
    obtain ⟨x', g1, as, g2⟩ := grows_at hrun t j x h1
    exact ⟨x', g1, Node.run_once g2 h2, clientDone_run g2 h3⟩) hle h

/-- A call of `Request`, the context of which has ended, returns. -/
theorem call_returns (hrun : Spec.Runs S c σ α) (h0 : Inv S c peers (σ 0)) (hne : ∀ (t k : Nat) (d : Node.Call ε), (σ t).node.calls[k]? = some d → ∀ v b, d.pc ≠ .evict v b) (hlock : ∀ t, ((σ t).node.pool .outbound).lock = none)
    {q : Nat} {data : Bytes} : ∀ (n : Nat) {t : Nat} {d : Node.Call ε}, Node.rank d ≤ n → (σ t).node.calls[q]? = some d → d.kind = .request data → d.ended = true →
    ∃ t' d' r, t ≤ t' ∧ (σ t').node.calls[q]? = some d' ∧ d'.pc = .returned r := by
  intro n
  induction n with
  | zero =>
    intro t d hn hq hk he
    have hev := hne t q d hq
    cases hp : d.pc with
    | returned r => exact ⟨t, d, r, Nat.le_refl _, hq, hp⟩
    | evict v b => exact (hev v b hp).elim
    | _ => simp [Node.rank, hp] at hn
  | succ n ih =>
    intro t d hn hq hk he
    have hev := hne t q d hq
    -- it is enough that the rank drops
    have suff : (∃ t', t ≤ t' ∧ ∃ d', (σ t').node.calls[q]? = some d' ∧ Node.rank d' < Node.rank d) → ∃ t' d' r, t ≤ t' ∧ (σ t').node.calls[q]? = some d' ∧ d'.pc = .returned r := by
      rintro ⟨t1, hle, d1, g1, g2⟩
      obtain ⟨d1', f1, f2, f3, -⟩ := adv_le hrun h0 hne hq hle
      rw [g1] at f1; cases f1
      obtain ⟨t', d', r, h1, h2, h3⟩ := ih (t := t1) (d := d1) (by omega) g1 (f2.trans hk) (f3 he)
      exact ⟨t', d', r, by omega, h2, h3⟩
    have plain : (∀ t' d', (σ t').node.calls[q]? = some d' → d'.pc = d.pc → Node.Ready (σ t').node d') → (∀ j w, d.pc ≠ .closing j w) → ∃ t' d' r, t ≤ t' ∧ (σ t').node.calls[q]? = some d' ∧ d'.pc = .returned r := by
      intro hR hnc
      obtain ⟨t', hle, h | h⟩ := drops hrun h0 hne hq hk he (fun _ => True) (fun _ => False) trivial (fun t' d' g1 g2 _ => ⟨hR t' d' g1 g2, .inl trivial⟩) (fun t' ⟨j, w, hj, _⟩ => (hnc j w hj).elim)
      · exact h.elim
      · exact suff ⟨t', hle, h⟩
    cases hp : d.pc with
    | returned r => exact ⟨t, d, r, Nat.le_refl _, hq, hp⟩
    | evict v b => exact (hev v b hp).elim
    | get => exact plain (fun t' d' _ g => by rw [Node.Ready, g, hp]; exact hlock t') (by rw [hp]; simp)
    | select j => exact plain (fun t' d' _ g => by rw [Node.Ready, g, hp]; trivial) (by rw [hp]; simp)
    | failing => exact plain (fun t' d' _ g => by rw [Node.Ready, g, hp]; trivial) (by rw [hp]; simp)
    | got j => exact plain (fun t' d' _ g => by rw [Node.Ready, g, hp]; trivial) (by rw [hp]; simp)
    | reqSend j i => exact plain (fun t' d' _ g => by rw [Node.Ready, g, hp]; trivial) (by rw [hp]; simp)
    | reqWait j i => exact plain (fun t' d' _ g => by rw [Node.Ready, g, hp]; trivial) (by rw [hp]; simp)
    | wait j w =>
      obtain ⟨x, hx, hdone⟩ := Node.Waited.reach (inv_at hrun.exec h0 t).node (hrun.alive t) q d hq j w hp
      obtain ⟨t1, x1, hle, hx1, ho1, hc1⟩ := hrun.closes t j x hx (by rw [hdone]; simp)
      obtain ⟨d1, f1, f2, f3, f4⟩ := adv_le hrun h0 hne hq hle
      rcases f4 with f4 | ⟨f4, f5⟩
      · exact suff ⟨t1, hle, d1, f1, f4⟩
      · have hrk : Node.rank d1 = Node.rank d := by simp only [Node.rank, f4, f5]
        obtain ⟨t', hle', h | ⟨d', h1, h2⟩⟩ := drops hrun h0 hne f1 (f2.trans hk) (f3 he) (fun t' => ∃ x : Node.Conn ε, (σ t').node.conns[j]? = some x ∧ x.c.once = .done ∧ x.c.clientDone = true) (fun _ => False) ⟨x1, hx1, ho1, hc1⟩
          (fun t' d' g1 g2 g3 => ⟨by rw [Node.Ready, g2, f4, hp]; obtain ⟨y, y1, -, y3⟩ := g3; exact ⟨y, y1, y3⟩, .inl (closed_stays hrun (Nat.le_succ _) g3)⟩) (fun t' ⟨j', w', hj, _⟩ => by rw [f4, hp] at hj; cases hj)
        · exact h.elim
        · exact suff ⟨t', by omega, d', h1, by omega⟩
    | closing j w =>
      -- somebody begins to close it
      have first : ∃ t1, t ≤ t1 ∧ ((∃ x : Node.Conn ε, (σ t1).node.conns[j]? = some x ∧ x.c.once ≠ .fresh) ∨ ∃ d', (σ t1).node.calls[q]? = some d' ∧ Node.rank d' < Node.rank d) := by
        have hAt : ∃ x : Node.Conn ε, (σ t).node.conns[j]? = some x := by
          obtain ⟨f, hmine, -⟩ := Node.Mine.reach (inv_at hrun.exec h0 t).node
          have := hmine q d hq
          unfold Node.Got at this; rw [hp] at this
          obtain ⟨x, hx, -⟩ := this
          exact ⟨x, hx⟩
        obtain ⟨x, hx⟩ := hAt
        by_cases hf : x.c.once = .fresh
        · refine drops hrun h0 hne hq hk he (fun t' => ∃ x : Node.Conn ε, (σ t').node.conns[j]? = some x ∧ x.c.once = .fresh) (fun t' => ∃ x : Node.Conn ε, (σ t').node.conns[j]? = some x ∧ x.c.once ≠ .fresh) ⟨x, hx, hf⟩ ?_ ?_
          · rintro t' d' g1 g2 ⟨y, hy, hyo⟩
            refine ⟨by rw [Node.Ready, g2, hp]; exact ⟨y, hy, .inl hyo⟩, ?_⟩
            obtain ⟨y', hy', -⟩ := grows_at hrun t' j y hy
            by_cases ho : y'.c.once = .fresh
            · exact .inl ⟨y', hy', ho⟩
            · exact .inr ⟨y', hy', ho⟩
          · rintro t' ⟨j', w', hj, y, hy, hyo⟩ -
            rw [hp] at hj; cases hj
            exact ⟨y, hy, by rw [hyo]; simp⟩
        · exact ⟨t, Nat.le_refl _, .inl ⟨x, hx, hf⟩⟩
      obtain ⟨t0, hle0, ⟨x, hx, hon⟩ | h⟩ := first
      swap
      · exact suff ⟨t0, hle0, h⟩
      obtain ⟨t1, x1, hle, hx1, ho1, hc1⟩ := hrun.closes t0 j x hx hon
      obtain ⟨d1, f1, f2, f3, f4⟩ := adv_le hrun h0 hne hq (show t ≤ t1 by omega)
      rcases f4 with f4 | ⟨f4, f5⟩
      · exact suff ⟨t1, by omega, d1, f1, f4⟩
      · have hrk : Node.rank d1 = Node.rank d := by simp only [Node.rank, f4, f5]
        obtain ⟨t', hle', h | ⟨d', h1, h2⟩⟩ := drops hrun h0 hne f1 (f2.trans hk) (f3 he) (fun t' => ∃ x : Node.Conn ε, (σ t').node.conns[j]? = some x ∧ x.c.once = .done ∧ x.c.clientDone = true) (fun _ => False) ⟨x1, hx1, ho1, hc1⟩
          (fun t' d' g1 g2 g3 => ⟨by rw [Node.Ready, g2, f4, hp]; obtain ⟨y, y1, y2, -⟩ := g3; exact ⟨y, y1, .inr y2⟩, .inl (closed_stays hrun (Nat.le_succ _) g3)⟩)
          (fun t' ⟨j', w', hj, y, hy, hyo⟩ ⟨z, hz, hzo, _⟩ => by rw [f4, hp] at hj; cases hj; rw [hy] at hz; cases hz; rw [hyo] at hzo; cases hzo)
        · exact h.elim
        · exact suff ⟨t', by omega, d', h1, by omega⟩

/-- A search that has not returned can go on, or waits for an answer. -/
theorem progress {S : Sorter} {c : Iter.Cfg} {peers : List ID} {s : Iter.State} (h : Iter.Inv S c peers s) (hn : s.returned = none) :
    (∃ a s', (∀ i j who ans, a ≠ .lookup i (.answer j who ans)) ∧ Iter.step S c s a = some s') ∨ ∃ i j id, wk s i j = some (.request id) := by
  cases hch : s.shared.chan with
  | cons x r => exact Or.inl ⟨.collect, _, by simp, by simp only [Iter.step, hch]; rfl⟩
  | nil =>
    by_cases hall : s.lookups.all (fun x => decide (x.main = .done)) = true
    · cases hc : s.closed with
      | false => exact Or.inl ⟨.close, _, by simp, by simp only [Iter.step]; rw [if_pos ⟨hc, hall⟩]⟩
      | true => exact Or.inl ⟨.finish, _, by simp, by simp only [Iter.step]; rw [if_pos ⟨hc, hch, hn⟩]⟩
    · obtain ⟨l, hl, hne⟩ : ∃ l ∈ s.lookups, l.main ≠ .done := by
        refine Classical.byContradiction fun hcon => hall (List.all_eq_true.2 fun w hw => ?_)
        simp only [decide_eq_true_eq]
        exact Classical.byContradiction fun hne => hcon ⟨w, hw, hne⟩
      obtain ⟨i, hi⟩ := List.mem_iff_getElem?.1 hl
      rcases Iter.lookup_progress (h.loc l hl) hne hch with ⟨a, ⟨sh', l'⟩, ha, hst⟩ | ⟨id, hm⟩
      · refine Or.inl ⟨.lookup i a, { s with shared := sh', lookups := s.lookups.set i l' }, ?_, by simp only [Iter.step, hi, hst]⟩
        intro i' j who ans he
        cases he
        cases ha
      · obtain ⟨j, hj⟩ := List.mem_iff_getElem?.1 hm
        exact Or.inr ⟨i, j, id, by simp only [wk, hi]; exact hj⟩

/-- There are finitely many keys. -/
theorem all_keys : ∃ U : List PublicKey, ∀ k, k ∈ U := by
  have h8 : Finite UInt8 := Finite.of_injective UInt8.toFin fun a b h => UInt8.toFin_inj.1 h
  have hf : Finite PublicKey := (List.finite_length_eq UInt8 32).to_subtype
  have : Fintype PublicKey := Fintype.ofFinite _
  exact ⟨Finset.univ.toList, fun k => Finset.mem_toList.2 (Finset.mem_univ k)⟩

/-- What one moment does to the search. -/
theorem moment (hx : Execution (step S c) σ α) (h0 : Inv S c peers (σ 0)) {U : List PublicKey} (hU : ∀ k, k ∈ U) (t : Nat) :
    ((σ (t + 1)).it = (σ t).it ∧ (σ (t + 1)).asks = (σ t).asks ∧ (∀ a, α t = some a → ∃ b, a = .node b)) ∨ Iter.gMeasure U (σ (t + 1)).it < Iter.gMeasure U (σ t).it := by
  have hi := inv_at hx h0 t
  have dec : ∀ {a s'}, Iter.step S c.it (σ t).it a = some s' → Iter.gMeasure U s' < Iter.gMeasure U (σ t).it := fun h => by
    have := Iter.gMeasure_step U hi.it (fun _ _ _ _ e _ => hU e.id) h
    omega
  rcases hx t with ⟨ha, e⟩ | ⟨a, ha, hs⟩
  · exact .inl ⟨by rw [e], by rw [e], fun a h => by rw [ha] at h; cases h⟩
  rcases step_cases hs with ⟨b, rfl, -, e1, e2⟩ | ⟨b, -, hb, -⟩ | ⟨i, j, id, -, -, hb, -⟩ | ⟨i, j, who, b, k, r, -, -, -, -, hb, -⟩
  · exact .inl ⟨e1, e2, fun a h => by rw [ha] at h; cases h; exact ⟨b, rfl⟩⟩
  · exact .inr (dec hb)
  · exact .inr (dec hb)
  · exact .inr (dec hb)

/-- From some time on the search does nothing. -/
theorem settles (hx : Execution (step S c) σ α) (h0 : Inv S c peers (σ 0)) : ∃ T, ∀ t, T ≤ t → (σ t).it = (σ T).it ∧ (σ t).asks = (σ T).asks ∧ ∀ a, α t = some a → ∃ b, a = .node b := by
  obtain ⟨U, hU⟩ := all_keys
  have main : ∀ n t, Iter.gMeasure U (σ t).it = n → ∃ T, ∀ t, T ≤ t → (σ t).it = (σ T).it ∧ (σ t).asks = (σ T).asks ∧ ∀ a, α t = some a → ∃ b, a = .node b := by
    intro n
    induction n using Nat.strongRecOn with
    | _ n ih =>
      intro t0 hn
      by_cases hd : ∃ t, t0 ≤ t ∧ Iter.gMeasure U (σ (t + 1)).it < Iter.gMeasure U (σ t).it
      · obtain ⟨t, hle, hlt⟩ := hd
        have : Iter.gMeasure U (σ t).it ≤ n := Fair.stays (P := fun t => Iter.gMeasure U (σ t).it ≤ n) (fun t hP => by
          rcases moment hx h0 hU t with ⟨h, -⟩ | h
          · rw [h]; exact hP
          · omega) hle (Nat.le_of_eq hn)
        exact ih _ (by omega) (t + 1) rfl
      · refine ⟨t0, fun t hle => ?_⟩
        have step' : ∀ t, t0 ≤ t → (σ (t + 1)).it = (σ t).it ∧ (σ (t + 1)).asks = (σ t).asks ∧ ∀ a, α t = some a → ∃ b, a = .node b := fun t hle => by
          rcases moment hx h0 hU t with h | h
          · exact h
          · exact (hd ⟨t, hle, h⟩).elim
        refine ⟨?_, ?_, (step' t hle).2.2⟩
        · induction hle with
          | refl => rfl
          | step hle ih => exact (step' _ hle).1.trans ih
        · induction hle with
          | refl => rfl
          | step hle ih => exact (step' _ hle).2.1.trans ih
  exact main _ 0 rfl

/-- The search returns. -/
theorem returns (hrun : Spec.Runs S c σ α) (h0 : Inv S c peers (σ 0)) {L : List Text} (hL : L.length ≤ c.node.max) (hin : ∀ (t k : Nat) (d : Node.Call ε), (σ t).node.calls[k]? = some d → d.addr ∈ L) : ∃ t, (σ t).it.returned ≠ none := by
  refine Classical.byContradiction fun hno => ?_
  have hnone : ∀ t, (σ t).it.returned = none := fun t => Classical.byContradiction fun h => hno ⟨t, h⟩
  have hi := inv_at hrun.exec h0
  have hne : ∀ (t k : Nat) (d : Node.Call ε), (σ t).node.calls[k]? = some d → ∀ v b, d.pc ≠ .evict v b := fun t => (few_reach hL (hi t).node (hin t)).1
  have hlock : ∀ t, ((σ t).node.pool .outbound).lock = none := fun t => (few_reach hL (hi t).node (hin t)).2
  obtain ⟨T, hT⟩ := settles hrun.exec h0
  have still : ∀ C : Action ε → Prop, (∀ b, ¬ C (.node b)) → ∀ T', T ≤ T' → WeaklyFair σ α (Able (step S c) C) C → (∀ t, T' ≤ t → Able (step S c) C (σ t)) → False := by
    intro C hC T' hle hf hab
    obtain ⟨t, ht, ⟨a, h1, h2⟩ | h⟩ := hf T'
    · obtain ⟨b, rfl⟩ := (hT t (by omega)).2.2 a h1
      exact hC b h2
    · exact h (hab t ht)
  rcases progress (hi T).it (hnone T) with ⟨a, s', hna, hs⟩ | ⟨i, j, id, hw⟩
  · by_cases hwk : ∃ i j, a = .lookup i (.worker j)
    · obtain ⟨i, j, rfl⟩ := hwk
      refine still (Works i j) (by rintro b (h | h | ⟨_, h⟩) <;> cases h) T (Nat.le_refl _) (hrun.worker i j) fun t ht => ?_
      have hs' := hs
      rw [← (hT t ht).1] at hs'
      cases hnx : next (σ t).it i j with
      | none => exact ⟨_, .inl rfl, by simp [step, hrun.alive t, hnx, hs']⟩
      | some id => exact ⟨_, .inr (.inl rfl), by simp [step, hrun.alive t, hnx, hs', Node.step]⟩
    · refine still (· = .it a) (by rintro b h; cases h) T (Nat.le_refl _) (hrun.search a fun i j h => hwk ⟨i, j, h⟩) fun t ht => ⟨_, rfl, ?_⟩
      have hs' := hs
      rw [← (hT t ht).1] at hs'
      simp only [step, hrun.alive t, Bool.false_eq_true, if_false]
      split
      · exact (hna _ _ _ _ rfl).elim
      · exact (hwk ⟨_, _, rfl⟩).elim
      · rw [hs']; rfl
  · obtain ⟨a0, ha0, e1, e2⟩ := (hi T).cover i j id hw
    obtain ⟨a, ha⟩ : ∃ a, (σ T).asks.find? (fun a => a.lookup = i ∧ a.worker = j) = some a := by
      cases hf : (σ T).asks.find? (fun a => a.lookup = i ∧ a.worker = j) with
      | some a => exact ⟨a, rfl⟩
      | none => have := List.find?_eq_none.1 hf a0 ha0; simp [e1, e2] at this
    have ham := List.mem_of_find?_eq_some ha
    obtain ⟨t1, d, hle, hd, hde⟩ := hrun.timeout T a ham
    obtain ⟨id', -, k, hk, hkind, -⟩ := (hi t1).asks a (by rw [(hT t1 hle).2.1]; exact ham)
    rw [hd] at hk; cases hk
    obtain ⟨t2, d2, r, hle2, hd2, hr⟩ := call_returns hrun h0 hne hlock _ (Nat.le_refl _) hd hkind hde
    refine still (Works i j) (by rintro b (h | h | ⟨_, h⟩) <;> cases h) t2 (by omega) (hrun.worker i j) fun t ht => ?_
    have hcall : ∃ d' : Node.Call ε, (σ t).node.calls[a.call]? = some d' ∧ d'.pc = .returned r := by
      obtain ⟨d', g1, -, -, g4 | ⟨g4, -⟩⟩ := adv_le hrun h0 hne hd2 ht
      · simp [Node.rank, hr] at g4
      · exact ⟨d', g1, g4.trans hr⟩
    obtain ⟨d', g1, g2⟩ := hcall
    refine ⟨.reply i j zeroPublicKey, .inr (.inr ⟨_, rfl⟩), ?_⟩
    have hT' := hT t (by omega)
    simp only [step, hrun.alive t, Bool.false_eq_true, if_false, hT'.2.1, hT'.1, ha, g1, g2]
    unfold wk at hw
    split at hw
    · next l hl => simp [Iter.step, hl, Iter.lookupStep, hw]
    · cases hw

end
end Noise.Search
