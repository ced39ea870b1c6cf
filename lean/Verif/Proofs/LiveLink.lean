import Verif.Proofs.LiveEnd
import Verif.Proofs.LiveWorker
import Verif.Proofs.Link
/-! # Fair executions of two connected nodes: both ends and the workers make progress -/
namespace Noise.Link
open Spec
variable {ε : Type} {N H : Nat} {σ : Nat → State ε} {α : Nat → Option (Action ε)}

theorem wire_lt {c : Cl.State ε} {n : Nat} (h : n < (flushedOf c.log).length) : n < (wire c).length := Nat.lt_of_lt_of_le h (Cl.flushed_prefix c.log).length_le

/-- What A's client does. -/
def actA : Option (Action ε) → Option (Cl.Action ε)
  | some (.a act) => some act
  | _ => none

/-- What B's client does. -/
def actB (s : State ε) : Option (Action ε) → Option (Cl.Action ε)
  | some (.b act) => some act
  | some (.w (.send k h data)) => match s.w.items[k]? with
    | some it => if it.client = 0 ∧ (it.msg.isRequest = false ∨ s.w.sent k h = false) then some (.send ⟨it.msg.nonce, data⟩) else none
    | none => none
  | _ => none

/-- What B's workers do. -/
def actW (s : State ε) : Option (Action ε) → Option (Wk.Action ε)
  | some (.w act) => some act
  | some (.b .deliver) => match s.b.main with
    | .delivering m => some (.enqueue ⟨0, m⟩)
    | _ => none
  | _ => none

/-- The parts of a step. -/
theorem parts {s s' : State ε} {a : Action ε} (hc : a.calm = true) (hs : step s a = some s') :
    ((actA (some a) = none ∧ s'.a = s.a) ∨ ∃ act, actA (some a) = some act ∧ act.calm = true ∧ Cl.step s.a act = some s'.a) ∧
    ((actB s (some a) = none ∧ s'.b = s.b) ∨ ∃ act, actB s (some a) = some act ∧ act.calm = true ∧ Cl.step s.b act = some s'.b) ∧
    ((actW s (some a) = none ∧ s'.w = s.w) ∨ ∃ act, actW s (some a) = some act ∧ act.calm = true ∧ Wk.step s.w act = some s'.w) := by
  cases a with
  | a act =>
    have h1 : Cl.step s.a act = some s'.a ∧ s'.b = s.b ∧ s'.w = s.w := by
      simp only [step, stepA] at hs
      split at hs <;> (try split at hs) <;> first
        | (cases hs; done)
        | (obtain ⟨x, hx, rfl⟩ := Option.map_eq_some_iff.1 hs; exact ⟨hx, rfl, rfl⟩)
    exact ⟨Or.inr ⟨act, rfl, hc, h1.1⟩, Or.inl ⟨rfl, h1.2.1⟩, Or.inl ⟨rfl, h1.2.2⟩⟩
  | b act =>
    by_cases hd : act = .deliver
    · subst hd
      simp only [step, stepB] at hs
      split at hs
      · rename_i m hm
        simp only [Option.bind_eq_some_iff, Option.map_eq_some_iff] at hs
        obtain ⟨x, hx, y, hy, rfl⟩ := hs
        refine ⟨Or.inl ⟨rfl, rfl⟩, Or.inr ⟨.deliver, rfl, rfl, hx⟩, Or.inr ⟨.enqueue ⟨0, m⟩, ?_, rfl, hy⟩⟩
        simp only [actW, hm]
      · cases hs
    · have h1 : Cl.step s.b act = some s'.b ∧ s'.a = s.a ∧ s'.w = s.w := by
        simp only [step, stepB] at hs
        split at hs <;> (try split at hs) <;> first
          | (cases hs; done)
          | exact absurd rfl hd
          | (obtain ⟨x, hx, rfl⟩ := Option.map_eq_some_iff.1 hs; exact ⟨hx, rfl, rfl⟩)
      refine ⟨Or.inl ⟨rfl, h1.2.1⟩, Or.inr ⟨act, rfl, hc, h1.1⟩, Or.inl ⟨?_, h1.2.2⟩⟩
      cases act <;> first | rfl | exact absurd rfl hd
  | w act =>
    have hcalm : act.calm = true := by
      cases act with
      | handlerReturn i r => cases r <;> first | rfl | cases hc
      | closeQueue => cases hc
      | _ => rfl
    by_cases hsend : ∃ k h d, act = .send k h d
    · obtain ⟨k, h, d, rfl⟩ := hsend
      simp only [step, stepW] at hs
      split at hs
      · rename_i it hit
        split at hs
        · rename_i hcond
          simp only [Option.bind_eq_some_iff, Option.map_eq_some_iff] at hs
          obtain ⟨x, hx, y, hy, rfl⟩ := hs
          refine ⟨Or.inl ⟨rfl, rfl⟩, Or.inr ⟨.send ⟨it.msg.nonce, d⟩, ?_, rfl, hy⟩, Or.inr ⟨_, rfl, hcalm, hx⟩⟩
          simp only [actB, hit]; rw [if_pos hcond]
        · rename_i hcond
          obtain ⟨x, hx, rfl⟩ := Option.map_eq_some_iff.1 hs
          refine ⟨Or.inl ⟨rfl, rfl⟩, Or.inl ⟨?_, rfl⟩, Or.inr ⟨_, rfl, hcalm, hx⟩⟩
          simp only [actB, hit]; rw [if_neg hcond]
      · cases hs
    · have h1 : Wk.step s.w act = some s'.w ∧ s'.a = s.a ∧ s'.b = s.b := by
        simp only [step, stepW] at hs
        split at hs <;> (try split at hs) <;> first
          | (cases hs; done)
          | exact absurd ⟨_, _, _, rfl⟩ hsend
          | (obtain ⟨x, hx, rfl⟩ := Option.map_eq_some_iff.1 hs; exact ⟨hx, rfl, rfl⟩)
      refine ⟨Or.inl ⟨rfl, h1.2.1⟩, Or.inl ⟨?_, h1.2.2⟩, Or.inr ⟨act, rfl, hcalm, h1.1⟩⟩
      cases act <;> first | rfl | exact absurd ⟨_, _, _, rfl⟩ hsend

theorem FairRun.base (r : FairRun N H σ α) (t : Nat) : Base N H (σ t) := by
  have := Fair.reach r.exec t
  rw [r.init] at this
  exact Base.reach this

theorem FairRun.parts (r : FairRun N H σ α) (t : Nat) :
    ((actA (α t) = none ∧ (σ (t + 1)).a = (σ t).a) ∨ ∃ act, actA (α t) = some act ∧ act.calm = true ∧ Cl.step (σ t).a act = some (σ (t + 1)).a) ∧
    ((actB (σ t) (α t) = none ∧ (σ (t + 1)).b = (σ t).b) ∨ ∃ act, actB (σ t) (α t) = some act ∧ act.calm = true ∧ Cl.step (σ t).b act = some (σ (t + 1)).b) ∧
    ((actW (σ t) (α t) = none ∧ (σ (t + 1)).w = (σ t).w) ∨ ∃ act, actW (σ t) (α t) = some act ∧ act.calm = true ∧ Wk.step (σ t).w act = some (σ (t + 1)).w) := by
  rcases r.exec t with ⟨h1, h2⟩ | ⟨a, h1, h2⟩
  · rw [h1, h2]; exact ⟨Or.inl ⟨rfl, rfl⟩, Or.inl ⟨rfl, rfl⟩, Or.inl ⟨rfl, rfl⟩⟩
  · rw [h1]; exact Link.parts (r.calm t a h1) h2

/-- The main goroutine of a client can go on. -/
def CanMain (c : Cl.State ε) (avail : Prop) : Prop :=
  (∃ m, c.main = .routing m) ∨ (c.main.well = true ∧ c.main.looping = false ∧ Cl.needsFrame c = false) ∨ c.main = .recvCb ∨ (c.main = .recv ∧ Cl.needsFrame c = false ∧ avail)

theorem able_main {c : Cl.State ε} {m : Message} {avail : Prop} (h : CanMain c avail) :
    ∃ act : Cl.Action ε, act.ofMain = true ∧ (Cl.step c act).isSome = true ∧ ((∀ m', act ≠ .readMsg m') ∨ (c.main = .recv ∧ act = .readMsg m)) := by
  rcases h with ⟨m, h⟩ | ⟨h1, h2, h3⟩ | h | ⟨h, h', _⟩
  · exact ⟨.main, rfl, by simp [Cl.step, Cl.State.mainStep, h], Or.inl (by simp)⟩
  · cases hc : c.main <;> rw [hc] at h1 h2 <;> (try (cases h1; done)) <;> (try (cases h2; done))
    · refine ⟨.main, rfl, ?_, Or.inl (by simp)⟩
      cases hs : c.side <;> simp [Cl.step, Cl.State.mainStep, hc, hs]
    · exact ⟨.dialOK, rfl, by simp [Cl.step, hc], Or.inl (by simp)⟩
    · simp only [Cl.needsFrame, hc, decide_eq_false_iff_not] at h3
      cases hs : c.suite with
      | false => exact ⟨.hsKey, rfl, by simp [Cl.step, hc, hs]; omega, Or.inl (by simp)⟩
      | true => exact ⟨.hsOK .zero, rfl, by simp [Cl.step, hc, hs]; omega, Or.inl (by simp)⟩
    · exact ⟨.main, rfl, by simp [Cl.step, Cl.State.mainStep, hc], Or.inl (by simp)⟩
    · exact ⟨.main, rfl, by simp [Cl.step, Cl.State.mainStep, hc], Or.inl (by simp)⟩
    · refine ⟨.main, rfl, ?_, Or.inl (by simp)⟩
      simp only [Cl.step, Cl.State.mainStep, hc]
      split <;> rfl
  · exact ⟨.main, rfl, by simp [Cl.step, Cl.State.mainStep, h], Or.inl (by simp)⟩
  · simp only [Cl.needsFrame, h, decide_eq_false_iff_not] at h'
    exact ⟨.readMsg m, rfl, by simp [Cl.step, h]; omega, Or.inr ⟨h, rfl⟩⟩

/-- While a message waits for the queue, only `deliver` moves the main goroutine. -/
theorem delivering_step {s s' : Cl.State ε} {a : Cl.Action ε} {m : Message} (ha : a.calm = true) (hs : Cl.step s a = some s') (hm : s.main = .delivering m) :
    (a = .deliver ∧ s'.main = .recvCb) ∨ (a ≠ .deliver ∧ a.ofMain = false ∧ s'.main = .delivering m) := by
  cl_cases a hs
  all_goals first
    | (simp [Cl.Action.calm] at ha; done)
    | (simp_all; done)
    | (right; refine ⟨by simp, rfl, ?_⟩; simp_all [Cl.State.send, Cl.State.setCall, Cl.State.closeWriterDone]; done)
    | (left; exact ⟨rfl, rfl⟩)

theorem FairRun.workers (r : FairRun N H σ α) : Wk.Run N H (fun t => (σ t).w) (fun t => actW (σ t) (α t)) where
  init := by show (σ 0).w = _; rw [r.init]; rfl
  step := fun t => (r.parts t).2.2
  fair := by
    intro i t
    obtain ⟨t', h1, h2⟩ := r.runs (.worker i) t
    refine ⟨t', h1, ?_⟩
    rcases h2 with ⟨a, h3, h4⟩ | h2
    · left
      rcases h4 with rfl | rfl
      · left; simp only [h3, actW]
      · right; simp only [h3, actW]
    · right
      rintro (h | h)
      · refine h2 ⟨.w (.work i), ⟨Or.inl rfl, trivial⟩, ?_⟩
        simp only [step, stepW, Option.isSome_map]; exact h
      · refine h2 ⟨.w (.handlerReturn i none), ⟨Or.inr rfl, trivial⟩, ?_⟩
        simp only [step, stepW, Option.isSome_map]; exact h

theorem FairRun.endA (r : FairRun N H σ α) : Cl.End .outbound (fun t => (σ t).a) (fun t => actA (α t)) (fun t => (σ t).readA) (fun t => flushedOf (σ t).b.log) where
  init := by show (σ 0).a = _; rw [r.init]; rfl
  step := fun t => (r.parts t).1
  read := by
    intro t
    have b := r.base t
    have := congrArg List.length b.readA
    simp only [readBy, List.length_append, List.length_take] at this
    have := b.leA
    omega
  mono := by
    intro t
    rcases (r.parts t).2.1 with ⟨_, e⟩ | ⟨act, _, _, e⟩
    · rw [e]; exact List.prefix_refl _
    · exact Cl.flushed_mono e
  main := by
    intro t
    obtain ⟨t', h1, h2⟩ := r.runs .mainA t
    refine ⟨t', h1, ?_⟩
    rcases h2 with ⟨a, h3, act, rfl, h4⟩ | h2
    · rcases h4 with h4 | rfl
      · left; exact ⟨act, by simp only [h3, actA], h4⟩
      · right
        have hp := (r.parts t').1
        simp only [h3, actA] at hp
        rcases hp with ⟨e, _⟩ | ⟨act, e, _, hs⟩
        · cases e
        · injection e with e; subst e
          simp only [Cl.step] at hs
          split at hs
          · rename_i m hm
            rintro (⟨m', h⟩ | ⟨_, h, _⟩ | h | ⟨h, _⟩)
            · rw [hm] at h; cases h
            · rw [hm] at h; cases h
            · rw [hm] at h; cases h
            · rw [hm] at h; cases h
          · cases hs
    · right
      intro hcan
      apply h2
      by_cases hav : (σ t').readA < (flushedOf (σ t').b.log).length
      · obtain ⟨act, o1, o2, o3⟩ := able_main (m := (wire (σ t').b)[(σ t').readA]'(wire_lt hav)) hcan
        refine ⟨.a act, ⟨⟨act, rfl, Or.inl o1⟩, by cases act <;> first | trivial | exact hav | (rcases o3 with o3 | o3 <;> simp_all)⟩, ?_⟩
        rcases o3 with o3 | ⟨_, rfl⟩
        · cases act <;> simp only [step, stepA, Option.isSome_map] <;> first | exact o2 | exact absurd rfl (o3 _) | cases o1
        · simp only [step, stepA]
          rw [if_pos (List.getElem?_eq_getElem (wire_lt hav)), Option.isSome_map]; exact o2
      · have hcan' : CanMain (σ t').a True ∧ (σ t').a.main ≠ .recv := by
          rcases hcan with h | h | h | h
          · obtain ⟨m, h⟩ := h; exact ⟨Or.inl ⟨m, h⟩, by rw [h]; simp⟩
          · exact ⟨Or.inr (Or.inl h), by intro e; rw [e] at h; cases h.2.1⟩
          · exact ⟨Or.inr (Or.inr (Or.inl h)), by rw [h]; simp⟩
          · exact absurd h.2.2 hav
        obtain ⟨act, o1, o2, o3⟩ := able_main (m := ⟨0, []⟩) hcan'.1
        refine ⟨.a act, ⟨⟨act, rfl, Or.inl o1⟩, by cases act <;> first | trivial | exact hav | (rcases o3 with o3 | o3 <;> simp_all)⟩, ?_⟩
        rcases o3 with o3 | ⟨e, _⟩
        · cases act <;> simp only [step, stepA, Option.isSome_map] <;> first | exact o2 | exact absurd rfl (o3 _) | cases o1
        · exact absurd e hcan'.2
  net := by
    intro t
    obtain ⟨t', h1, h2⟩ := r.netA t
    refine ⟨t', h1, ?_⟩
    rcases h2 with ⟨a, h3, rfl⟩ | h2
    · left; simp only [h3, actA]
    · right
      rintro ⟨q1, q2, q3⟩
      refine h2 ⟨q1, ?_, q3⟩
      unfold Cl.needsFrame at q2
      split at q2 <;> simp_all
  writer := by
    intro t
    obtain ⟨t', h1, h2⟩ := r.runs .writerA t
    refine ⟨t', h1, ?_⟩
    rcases h2 with ⟨a, h3, rfl⟩ | h2
    · left; simp only [h3, actA]
    · right
      intro h
      exact h2 ⟨.a .writer, ⟨rfl, trivial⟩, by simp only [step, stepA, Option.isSome_map]; exact h⟩
  deliver := by
    intro t m hm
    by_cases hd : ∃ t', t ≤ t' ∧ actA (α t') = some .deliver
    · exact hd
    · exfalso
      have hstay : ∀ t', t ≤ t' → (σ t').a.main = .delivering m := by
        intro t' ht'
        refine (Fair.stays (P := fun x => t ≤ x ∧ (σ x).a.main = .delivering m) ?_ ht' ⟨Nat.le_refl _, hm⟩).2
        rintro x ⟨hx, hxm⟩
        refine ⟨by omega, ?_⟩
        rcases (r.parts x).1 with ⟨_, e⟩ | ⟨act, e1, e2, e3⟩
        · rw [e]; exact hxm
        · rcases delivering_step e2 e3 hxm with ⟨rfl, _⟩ | ⟨_, _, h⟩
          · exact absurd ⟨x, hx, e1⟩ hd
          · exact h
      obtain ⟨t', h1, h2⟩ := r.runs .mainA t
      rcases h2 with ⟨a, h3, act, rfl, h4⟩ | h2
      · have hp := (r.parts t').1
        simp only [h3, actA] at hp
        rcases hp with ⟨e, _⟩ | ⟨act', e, hc, hs⟩
        · cases e
        · injection e with e; subst e
          rcases delivering_step hc hs (hstay t' h1) with ⟨rfl, _⟩ | ⟨n1, n2, _⟩
          · exact hd ⟨t', h1, by simp only [h3, actA]⟩
          · rcases h4 with h4 | h4
            · rw [n2] at h4; cases h4
            · exact n1 h4
      · refine h2 ⟨.a .deliver, ⟨⟨.deliver, rfl, Or.inr rfl⟩, trivial⟩, ?_⟩
        simp only [step, stepA, Option.isSome_map, Cl.step, hstay t' h1]; rfl

theorem FairRun.endB (r : FairRun N H σ α) (hN : 0 < N) : Cl.End .inbound (fun t => (σ t).b) (fun t => actB (σ t) (α t)) (fun t => (σ t).readB) (fun t => flushedOf (σ t).a.log) where
  init := by show (σ 0).b = _; rw [r.init]; rfl
  step := fun t => (r.parts t).2.1
  read := by
    intro t
    have b := r.base t
    have := congrArg List.length b.readB
    simp only [readBy, List.length_append, List.length_take] at this
    have := b.leB
    omega
  mono := by
    intro t
    rcases (r.parts t).1 with ⟨_, e⟩ | ⟨act, _, _, e⟩
    · rw [e]; exact List.prefix_refl _
    · exact Cl.flushed_mono e
  main := by
    intro t
    obtain ⟨t', h1, h2⟩ := r.runs .mainB t
    refine ⟨t', h1, ?_⟩
    rcases h2 with ⟨a, h3, act, rfl, h4⟩ | h2
    · rcases h4 with h4 | rfl
      · left; exact ⟨act, by simp only [h3, actB], h4⟩
      · right
        have hp := (r.parts t').2.1
        simp only [h3, actB] at hp
        rcases hp with ⟨e, _⟩ | ⟨act, e, _, hs⟩
        · cases e
        · injection e with e; subst e
          simp only [Cl.step] at hs
          split at hs
          · rename_i m hm
            rintro (⟨m', h⟩ | ⟨_, h, _⟩ | h | ⟨h, _⟩)
            · rw [hm] at h; cases h
            · rw [hm] at h; cases h
            · rw [hm] at h; cases h
            · rw [hm] at h; cases h
          · cases hs
    · right
      intro hcan
      apply h2
      by_cases hav : (σ t').readB < (flushedOf (σ t').a.log).length
      · obtain ⟨act, o1, o2, o3⟩ := able_main (m := (wire (σ t').a)[(σ t').readB]'(wire_lt hav)) hcan
        refine ⟨.b act, ⟨⟨act, rfl, Or.inl o1⟩, by cases act <;> first | trivial | exact hav | (rcases o3 with o3 | o3 <;> simp_all)⟩, ?_⟩
        rcases o3 with o3 | ⟨_, rfl⟩
        · cases act <;> simp only [step, stepB, Option.isSome_map] <;> first | exact o2 | exact absurd rfl (o3 _) | cases o1
        · simp only [step, stepB]
          rw [if_pos (List.getElem?_eq_getElem (wire_lt hav)), Option.isSome_map]; exact o2
      · have hcan' : CanMain (σ t').b True ∧ (σ t').b.main ≠ .recv := by
          rcases hcan with h | h | h | h
          · obtain ⟨m, h⟩ := h; exact ⟨Or.inl ⟨m, h⟩, by rw [h]; simp⟩
          · exact ⟨Or.inr (Or.inl h), by intro e; rw [e] at h; cases h.2.1⟩
          · exact ⟨Or.inr (Or.inr (Or.inl h)), by rw [h]; simp⟩
          · exact absurd h.2.2 hav
        obtain ⟨act, o1, o2, o3⟩ := able_main (m := ⟨0, []⟩) hcan'.1
        refine ⟨.b act, ⟨⟨act, rfl, Or.inl o1⟩, by cases act <;> first | trivial | exact hav | (rcases o3 with o3 | o3 <;> simp_all)⟩, ?_⟩
        rcases o3 with o3 | ⟨e, _⟩
        · cases act <;> simp only [step, stepB, Option.isSome_map] <;> first | exact o2 | exact absurd rfl (o3 _) | cases o1
        · exact absurd e hcan'.2
  net := by
    intro t
    obtain ⟨t', h1, h2⟩ := r.netB t
    refine ⟨t', h1, ?_⟩
    rcases h2 with ⟨a, h3, rfl⟩ | h2
    · left; simp only [h3, actB]
    · right
      rintro ⟨q1, q2, q3⟩
      refine h2 ⟨q1, ?_, q3⟩
      unfold Cl.needsFrame at q2
      split at q2 <;> simp_all
  writer := by
    intro t
    obtain ⟨t', h1, h2⟩ := r.runs .writerB t
    refine ⟨t', h1, ?_⟩
    rcases h2 with ⟨a, h3, rfl⟩ | h2
    · left; simp only [h3, actB]
    · right
      intro h
      exact h2 ⟨.b .writer, ⟨rfl, trivial⟩, by simp only [step, stepB, Option.isSome_map]; exact h⟩
  deliver := by
    intro t m hm
    by_cases hd : ∃ t', t ≤ t' ∧ α t' = some (.b .deliver)
    · obtain ⟨t', h1, h2⟩ := hd
      exact ⟨t', h1, by simp only [h2, actB]⟩
    · exfalso
      have hstay : ∀ t', t ≤ t' → (σ t').b.main = .delivering m := by
        intro t' ht'
        refine (Fair.stays (P := fun x => t ≤ x ∧ (σ x).b.main = .delivering m) ?_ ht' ⟨Nat.le_refl _, hm⟩).2
        rintro x ⟨hx, hxm⟩
        refine ⟨by omega, ?_⟩
        rcases (r.parts x).2.1 with ⟨_, e⟩ | ⟨act, e1, e2, e3⟩
        · rw [e]; exact hxm
        · rcases delivering_step e2 e3 hxm with ⟨rfl, _⟩ | ⟨_, _, h⟩
          · refine absurd ⟨x, hx, ?_⟩ hd
            unfold actB at e1
            split at e1
            · injection e1 with e1; subst e1; assumption
            · split at e1
              · split at e1 <;> cases e1
              · cases e1
            · cases e1
          · exact h
      have hfull : ∃ t1, t ≤ t1 ∧ ∀ t', t1 ≤ t' → ¬ Able step (· = .b .deliver) (σ t') := by
        by_cases hio : ∀ t, ∃ t', t ≤ t' ∧ Able step (· = .b .deliver) (σ t')
        · obtain ⟨t', h1, a, h2, rfl⟩ := r.queue hio t
          exact absurd ⟨t', h1, h2⟩ hd
        · have : ∃ t1, ∀ t', t1 ≤ t' → ¬ Able step (· = .b .deliver) (σ t') := by
            by_cases hx : ∃ t1, ∀ t', t1 ≤ t' → ¬ Able step (· = .b .deliver) (σ t')
            · exact hx
            · exfalso
              apply hio
              intro t1
              by_cases hy : ∃ t', t1 ≤ t' ∧ Able step (· = .b .deliver) (σ t')
              · exact hy
              · exact absurd ⟨t1, fun t' h1 h2 => hy ⟨t', h1, h2⟩⟩ hx
          obtain ⟨t1, h1⟩ := this
          exact ⟨max t t1, by omega, fun t' h => h1 t' (by omega)⟩
      obtain ⟨t1, ht1, hno⟩ := hfull
      have hN' : ∀ t', t1 ≤ t' → N ≤ (σ t').w.items.length - (σ t').w.head := by
        intro t' ht'
        obtain ⟨g, f, _⟩ := r.workers.good t'
        have hna := hno t' ht'
        by_cases hlt : (σ t').w.items.length - (σ t').w.head < N
        · exfalso
          apply hna
          refine ⟨.b .deliver, rfl, ?_⟩
          have f1 : (σ t').w.queueClosed = false := f.opened
          have g1 : (σ t').w.numWorkers = N := g.nw
          simp only [step, stepB, hstay t' (by omega), Cl.step, Wk.step, f1, g1, if_pos hlt, Option.bind_some, Option.map_some]
          rfl
        · omega
      obtain ⟨t2, ht2, hhead⟩ := r.workers.takes hN (t0 := t1) (by
        intro t' ht' _
        have := hN' t' ht'
        show (σ t').w.head < (σ t').w.items.length
        omega)
      -- the head moves at some step between t1 and t2, and then there is room
      have hmove : ∃ x, t1 ≤ x ∧ (σ x).w.head < (σ (x + 1)).w.head := by
        by_cases hx : ∃ x, t1 ≤ x ∧ (σ x).w.head < (σ (x + 1)).w.head
        · exact hx
        · exfalso
          have : (σ t2).w.head ≤ (σ t1).w.head := by
            refine (Fair.stays (P := fun x => t1 ≤ x ∧ (σ x).w.head ≤ (σ t1).w.head) ?_ ht2 ⟨Nat.le_refl _, Nat.le_refl _⟩).2
            rintro x ⟨h1, h2⟩
            refine ⟨by omega, ?_⟩
            by_cases hlt : (σ x).w.head < (σ (x + 1)).w.head
            · exact absurd ⟨x, h1, hlt⟩ hx
            · omega
          have hhead : (σ t1).w.head < (σ t2).w.head := hhead
          omega
      obtain ⟨x, hx, hlt⟩ := hmove
      have f2 : (σ x).w.items.length ≤ (σ x).w.head + N := (r.workers.good x).2.1.room
      have h3 := hN' (x + 1) (by omega)
      rcases (r.parts x).2.2 with ⟨_, e⟩ | ⟨act, _, _, e⟩
      · rw [e] at hlt; omega
      · rcases (Wk.queue_step e).2 with q | ⟨q1, q2, q3, _⟩
        · omega
        · rw [q1, q2] at h3; omega

end Noise.Link
