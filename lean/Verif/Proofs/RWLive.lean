import Verif.Proofs.RW
import Mathlib.Logic.Hydra
/-! # No deadlock, termination, and how nested calls deadlock -/
namespace Noise.RW
open Noise.Spec
variable {σ ρ Op : Type}

/-! ## No deadlock -/

/-- Whoever has announced itself as writer is at its `Lock`. -/
def Announced (s : State σ ρ Op) : Prop := ∀ k, s.writer = some (k, false) → ∃ p, s.calls[k]? = some ⟨.lock .w p, false⟩

theorem Announced.step {impl : Op → Prog σ ρ} {s s' : State σ ρ Op} {a : Action Op} (h : Announced s) (hs : RW.step impl s a = some s') : Announced s' := by
  intro k hk
  cases a with
  | call op =>
    simp only [RW.step, Option.some.injEq] at hs
    subst hs
    obtain ⟨p, hp⟩ := h k hk
    exact ⟨p, by rw [List.getElem?_append_left (List.getElem?_eq_some_iff.1 hp).1]; exact hp⟩
  | go j =>
    simp only [RW.step] at hs
    split at hs
    · rename_i p hj
      have key : s.writer = some (k, false) → (∀ q, p ≠ .lock .w q) → ∀ c, (s.calls.set j c)[k]? = s.calls[k]? := by
        intro hw hne c
        obtain ⟨q, hq⟩ := h k hw
        have : j ≠ k := by
          rintro rfl
          rw [hj] at hq; injection hq with hq; injection hq with hq _
          exact hne q hq
        rw [List.getElem?_set_ne this]
      cases p with
      | ret r =>
        simp only [State.go, Option.some.injEq] at hs; subst hs
        simpa [key hk (by intro q e; cases e)] using h k hk
      | act u n =>
        simp only [State.go, State.setProg, Option.some.injEq] at hs; subst hs
        simpa [key hk (by intro q e; cases e)] using h k hk
      | lock m p =>
        cases m with
        | r =>
          simp only [State.go, State.setProg] at hs
          split at hs
          · injection hs with hs; subst hs
            rename_i hw; rw [show _ = none from hw] at hk; cases hk
          · cases hs
        | w =>
          simp only [State.go, State.setProg] at hs
          split at hs
          · injection hs with hs; subst hs
            simp only [Option.some.injEq, Prod.mk.injEq, and_true] at hk
            subst hk
            exact ⟨p, hj⟩
          · split at hs
            · injection hs with hs; subst hs
              simp at hk
            · cases hs
      | unlock m p =>
        cases m with
        | r =>
          simp only [State.go, State.setProg, Option.some.injEq] at hs; subst hs
          simpa [key hk (by intro q e; cases e)] using h k hk
        | w =>
          simp only [State.go, State.setProg, Option.some.injEq] at hs; subst hs
          cases hk
    · cases hs

theorem Announced.reach {impl : Op → Prog σ ρ} {init : σ} {s : State σ ρ Op} (h : Reachable impl init s) : Announced s :=
  ReachFrom.inv (P := Announced) (fun _ _ _ => Announced.step) h fun k hk => by cases hk

/-- If no writer is there, every call can go on. -/
theorem go_free {s : State σ ρ Op} (hw : s.writer = none) (k : Nat) (p : Prog σ ρ) : (s.go k p).isSome = true := by
  cases p with
  | ret r => rfl
  | act u n => rfl
  | lock m p => cases m <;> simp [State.go, hw]
  | unlock m p => cases m <;> rfl

/-- As long as a call has not returned, some call can go on. -/
theorem progress {impl : Op → Prog σ ρ} {apply : Op → σ → σ × ρ} (hm : ∀ op, Method (impl op) (apply op)) {init : σ} {s : State σ ρ Op} (h : Reachable impl init s)
    {k : Nat} {c : Call σ ρ} (hk : s.calls[k]? = some c) (hc : c.returned = false) : ∃ j, (step impl s (.go j)).isSome = true := by
  obtain ⟨order, hi⟩ := Inv.reach hm h
  have hgo : ∀ {j : Nat} {p : Prog σ ρ}, s.calls[j]? = some ⟨p, false⟩ → (s.go j p).isSome = true → ∃ j, (step impl s (.go j)).isSome = true := by
    intro j p hj hp
    exact ⟨j, by simp only [step, hj]; exact hp⟩
  cases hw : s.writer with
  | none =>
    obtain ⟨p, b⟩ := c
    simp only at hc; subst hc
    exact hgo hk (go_free hw k p)
  | some w =>
    obtain ⟨j, b⟩ := w
    cases b with
    | true =>
      obtain ⟨hr, hlt⟩ := hi.excl j hw
      obtain ⟨op, -, hp⟩ := hi.phase j _ (List.getElem?_eq_getElem hlt)
      have hj := List.getElem?_eq_getElem hlt
      generalize s.calls[j] = c' at hp hj
      cases hp with
      | waiting _ _ h3 => exact absurd hw h3
      | reading p r _ h2 => rw [hr] at h2; cases h2
      | done r b _ h3 => exact absurd hw h3
      | writing p r hq =>
        refine hgo hj ?_
        cases hq with
        | ret r => rfl
        | act _ _ => rfl
    | false =>
      obtain ⟨p, hj⟩ := Announced.reach h j hw
      cases hr : s.readers with
      | nil => exact hgo hj (by simp [State.go, hw, hr])
      | cons i l =>
        have hlt := hi.rsmall i (by rw [hr]; simp)
        have hri : i ∈ s.readers := by rw [hr]; simp
        obtain ⟨op, -, hp⟩ := hi.phase i _ (List.getElem?_eq_getElem hlt)
        have hi' := List.getElem?_eq_getElem hlt
        generalize s.calls[i] = c' at hp hi'
        cases hp with
        | waiting _ h2 _ => exact absurd hri h2
        | writing p r _ _ h2 => exact absurd hri h2
        | done r b h2 => exact absurd hri h2
        | reading p r hq =>
          refine hgo hi' ?_
          cases hq with
          | ret r => rfl
          | act _ _ => rfl

/-! ## Termination -/

/-- What is left to do becomes less with each step. -/
inductive Less : Call σ ρ → Call σ ρ → Prop
  | act (u : σ → σ) (n : σ → Prog σ ρ) (s : σ) : Less ⟨n s, false⟩ ⟨.act u n, false⟩
  | lock (m : Mode) (p : Prog σ ρ) : Less ⟨p, false⟩ ⟨.lock m p, false⟩
  | unlock (m : Mode) (p : Prog σ ρ) : Less ⟨p, false⟩ ⟨.unlock m p, false⟩
  | ret (r : ρ) : Less ⟨.ret r, true⟩ ⟨.ret r, false⟩

theorem less_wf : WellFounded (Less : Call σ ρ → Call σ ρ → Prop) := by
  have ht : ∀ p : Prog σ ρ, Acc Less ⟨p, true⟩ := fun p => ⟨_, fun c h => by cases h⟩
  refine ⟨fun ⟨p, b⟩ => ?_⟩
  cases b with
  | true => exact ht p
  | false =>
    induction p with
    | ret r => exact ⟨_, fun c h => by cases h; exact ht _⟩
    | act u n ih => exact ⟨_, fun c h => by cases h; exact ih _⟩
    | lock m p ih => exact ⟨_, fun c h => by cases h; exact ih⟩
    | unlock m p ih => exact ⟨_, fun c h => by cases h; exact ih⟩

theorem set_cut {l : List (Call σ ρ)} {k : Nat} {c c' : Call σ ρ} (hk : l[k]? = some c) (h : Less c' c) : Relation.CutExpand Less (↑(l.set k c') : Multiset (Call σ ρ)) ↑l := by
  obtain ⟨hlt, e⟩ := List.getElem?_eq_some_iff.1 hk
  have h1 : l = l.take k ++ c :: l.drop (k + 1) := by rw [← e]; simp
  have h2 : l.set k c' = l.take k ++ c' :: l.drop (k + 1) := by rw [List.set_eq_take_append_cons_drop, if_pos hlt]
  have p1 : (↑l : Multiset (Call σ ρ)) = ↑(l.take k ++ l.drop (k + 1)) + {c} := by
    conv_lhs => rw [h1]
    rw [← Multiset.coe_singleton, Multiset.coe_add, Multiset.coe_eq_coe]
    exact (List.perm_middle.trans (List.perm_append_singleton c _).symm)
  have p2 : (↑(l.set k c') : Multiset (Call σ ρ)) = ↑(l.take k ++ l.drop (k + 1)) + {c'} := by
    rw [h2, ← Multiset.coe_singleton, Multiset.coe_add, Multiset.coe_eq_coe]
    exact (List.perm_middle.trans (List.perm_append_singleton c' _).symm)
  rw [p1, p2]
  exact Relation.cutExpand_add_single _ h

/-- The measure: what is left to do, and then whether nobody has announced itself. -/
def measure (s : State σ ρ Op) : Multiset (Call σ ρ) × Nat := (↑s.calls, if s.writer = none then 1 else 0)

theorem go_decreases {impl : Op → Prog σ ρ} {s s' : State σ ρ Op} {k : Nat} (hs : step impl s (.go k) = some s') :
    Prod.Lex (Relation.CutExpand Less) (· < ·) (measure s') (measure s) := by
  simp only [step] at hs
  split at hs
  · rename_i p hk
    cases p with
    | ret r => simp only [State.go, Option.some.injEq] at hs; subst hs; exact .left _ _ (set_cut hk (.ret r))
    | act u n => simp only [State.go, State.setProg, Option.some.injEq] at hs; subst hs; exact .left _ _ (set_cut hk (.act u n _))
    | lock m p =>
      cases m with
      | r =>
        simp only [State.go, State.setProg] at hs
        split at hs
        · injection hs with hs; subst hs; exact .left _ _ (set_cut hk (.lock _ p))
        · cases hs
      | w =>
        simp only [State.go, State.setProg] at hs
        split at hs
        · rename_i hw
          injection hs with hs; subst hs
          simp only [measure, hw]
          exact .right _ (by simp)
        · split at hs
          · injection hs with hs; subst hs; exact .left _ _ (set_cut hk (.lock _ p))
          · cases hs
    | unlock m p =>
      cases m with
      | r => simp only [State.go, State.setProg, Option.some.injEq] at hs; subst hs; exact .left _ _ (set_cut hk (.unlock _ p))
      | w => simp only [State.go, State.setProg, Option.some.injEq] at hs; subst hs; exact .left _ _ (set_cut hk (.unlock _ p))
  · cases hs

/-- Without new calls, every execution comes to an end. -/
theorem terminates (impl : Op → Prog σ ρ) (f : Nat → State σ ρ Op) (hf : ∀ n, ∃ k, step impl (f n) (.go k) = some (f (n + 1))) : False := by
  have wf : WellFounded (Prod.Lex (Relation.CutExpand (Less : Call σ ρ → Call σ ρ → Prop)) ((· < ·) : Nat → Nat → Prop)) := WellFounded.prod_lex less_wf.cutExpand Nat.lt_wfRel.wf
  have : ∀ x, ∀ n, measure (f n) = x → False := by
    intro x
    induction x using wf.induction with
    | _ x ih =>
      intro n hn
      obtain ⟨k, hk⟩ := hf n
      exact ih _ (hn ▸ go_decreases hk) (n + 1) rfl
  exact this _ 0 rfl

/-! ## Deadlock -/

/-- Call `k`, which holds the mutex as reader, is at an `RLock`, and call `w` has announced itself as writer. -/
def Deadlock (k w : Nat) (p q : Prog σ ρ) (s : State σ ρ Op) : Prop :=
  s.calls[k]? = some ⟨.lock .r p, false⟩ ∧ s.calls[w]? = some ⟨.lock .w q, false⟩ ∧ k ∈ s.readers ∧ s.writer = some (w, false)

theorem Deadlock.step {impl : Op → Prog σ ρ} {k w : Nat} {p q : Prog σ ρ} {s s' : State σ ρ Op} {a : Action Op} (h : Deadlock k w p q s) (hs : RW.step impl s a = some s')
    (hu : ∀ (j : Nat) (x : Prog σ ρ), s.calls[j]? ≠ some ⟨.unlock .w x, false⟩) : Deadlock k w p q s' := by
  obtain ⟨h1, h2, h3, h4⟩ := h
  cases a with
  | call op =>
    simp only [RW.step, Option.some.injEq] at hs
    subst hs
    exact ⟨by rw [List.getElem?_append_left (List.getElem?_eq_some_iff.1 h1).1]; exact h1, by rw [List.getElem?_append_left (List.getElem?_eq_some_iff.1 h2).1]; exact h2, h3, h4⟩
  | go j =>
    simp only [RW.step] at hs
    split at hs
    · rename_i x hj
      have hjk : (∀ y, x ≠ .lock .r y) → j ≠ k := by
        rintro hx rfl; rw [hj] at h1; injection h1 with h1; injection h1 with h1 _; exact hx _ h1
      have hjw : (∀ y, x ≠ .lock .w y) → j ≠ w := by
        rintro hx rfl; rw [hj] at h2; injection h2 with h2; injection h2 with h2 _; exact hx _ h2
      cases x with
      | ret r =>
        simp only [State.go, Option.some.injEq] at hs; subst hs
        have a1 := hjk (by intro y e; cases e)
        have a2 := hjw (by intro y e; cases e)
        exact ⟨by rw [List.getElem?_set_ne a1]; exact h1, by rw [List.getElem?_set_ne a2]; exact h2, h3, h4⟩
      | act u n =>
        simp only [State.go, State.setProg, Option.some.injEq] at hs; subst hs
        have a1 := hjk (by intro y e; cases e)
        have a2 := hjw (by intro y e; cases e)
        exact ⟨by rw [List.getElem?_set_ne a1]; exact h1, by rw [List.getElem?_set_ne a2]; exact h2, h3, h4⟩
      | lock m x =>
        cases m with
        | r => simp only [State.go, h4] at hs; simp at hs
        | w =>
          simp only [State.go, h4] at hs
          rw [if_neg (by simp), if_neg] at hs
          · cases hs
          · rintro ⟨-, e⟩; rw [e] at h3; cases h3
      | unlock m x =>
        cases m with
        | r =>
          simp only [State.go, State.setProg, Option.some.injEq] at hs; subst hs
          have a1 := hjk (by intro y e; cases e)
          have a2 := hjw (by intro y e; cases e)
          exact ⟨by rw [List.getElem?_set_ne a1]; exact h1, by rw [List.getElem?_set_ne a2]; exact h2, (List.mem_erase_of_ne (Ne.symm a1)).2 h3, h4⟩
        | w => exact absurd hj (hu j x)
    · cases hs

/-- `Unlock` only comes after `Lock`. -/
inductive Prog.Paired : Prog σ ρ → Prop
  | ret (r : ρ) : Paired (.ret r)
  | act {u : σ → σ} {n : σ → Prog σ ρ} : (∀ s, Paired (n s)) → Paired (.act u n)
  | lockW (p : Prog σ ρ) : Paired (.lock .w p)
  | lockR {p : Prog σ ρ} : Paired p → Paired (.lock .r p)
  | unlockR {p : Prog σ ρ} : Paired p → Paired (.unlock .r p)

/-- Deadlock: moreover nobody is between `Lock` and `Unlock`, and the calls, including those made from now on, do not get anywhere unless they are of the kind that does not need the mutex. -/
structure Dead (free : Op → Prop) (k w : Nat) (p q : Prog σ ρ) (s : State σ ρ Op) : Prop where
  dead : Deadlock k w p q s
  paired : ∀ (j : Nat) (c : Call σ ρ), s.calls[j]? = some c → c.returned = false → c.prog.Paired
  logged : ∀ j r, .ret j r ∈ s.log → ∃ op, .inv j op ∈ s.log ∧ free op
  later : ∀ (j : Nat) (c : Call σ ρ), s.calls[j]? = some c → ∃ op, .inv j op ∈ s.log ∧ (free op ∨ ∃ m x, c = ⟨.lock m x, false⟩)

theorem Dead.step {impl : Op → Prog σ ρ} {free : Op → Prop} (hp : ∀ op, (impl op).Paired) (hl : ∀ op, free op ∨ ∃ m x, impl op = .lock m x) {k w : Nat} {p q : Prog σ ρ} {s s' : State σ ρ Op} {a : Action Op}
    (h : Dead free k w p q s) (hs : RW.step impl s a = some s') : Dead free k w p q s' := by
  have hd : Deadlock k w p q s' := h.dead.step hs fun j x hj => by have := h.paired j _ hj rfl; cases this
  obtain ⟨h1, h2, h3, h4⟩ := h.dead
  cases a with
  | call op =>
    simp only [RW.step, Option.some.injEq] at hs
    subst hs
    have hget : ∀ j c, (s.calls ++ [⟨impl op, false⟩])[j]? = some c → s.calls[j]? = some c ∨ (j = s.calls.length ∧ c = ⟨impl op, false⟩) := by
      intro j c hj
      rw [List.getElem?_append] at hj
      split at hj
      · exact .inl hj
      · rename_i hlt
        have := (List.getElem?_eq_some_iff.1 hj).1
        simp only [List.length_singleton] at this
        have e : j = s.calls.length := by omega
        subst e
        simp only [Nat.sub_self, List.getElem?_cons_zero, Option.some.injEq] at hj
        exact .inr ⟨rfl, hj.symm⟩
    refine ⟨hd, ?_, ?_, ?_⟩
    · intro j c hj hc
      rcases hget j c hj with hj | ⟨-, rfl⟩
      · exact h.paired j c hj hc
      · exact hp op
    · intro j r hj
      rcases List.mem_append.1 hj with hj | hj
      · obtain ⟨o, h1, h2⟩ := h.logged j r hj; exact ⟨o, List.mem_append_left _ h1, h2⟩
      · simp at hj
    · intro j c hj
      rcases hget j c hj with hj | ⟨rfl, rfl⟩
      · obtain ⟨o, h1, h2⟩ := h.later j c hj; exact ⟨o, List.mem_append_left _ h1, h2⟩
      · exact ⟨op, by simp, (hl op).imp_right fun ⟨m, x, e⟩ => ⟨m, x, by rw [e]⟩⟩
  | go j =>
    simp only [RW.step] at hs
    split at hs
    · rename_i x hj
      have hpx := h.paired j _ hj rfl
      -- a call that takes a step is not at a lock
      have hnl : ∀ m y, x ≠ .lock m y := by
        rintro m y rfl
        cases m with
        | r => simp only [State.go, h4] at hs; simp at hs
        | w =>
          simp only [State.go, h4] at hs
          rw [if_neg (by simp), if_neg] at hs
          · cases hs
          · rintro ⟨-, e⟩; rw [e] at h3; cases h3
      have hfree : ∃ op, .inv j op ∈ s.log ∧ free op := by
        obtain ⟨o, ho, hf⟩ := h.later j _ hj
        refine ⟨o, ho, ?_⟩
        rcases hf with hf | ⟨m, y, hf⟩
        · exact hf
        · injection hf with hf _
          exact absurd hf (hnl m y)
      have hlt := (List.getElem?_eq_some_iff.1 hj).1
      -- the effect of the step on the calls and the log
      have key : ∀ (c : Call σ ρ) (l : List (CallEv Op ρ)), s'.calls = s.calls.set j c → s'.log = s.log ++ l → (c.returned = false → c.prog.Paired) → (∀ e ∈ l, ∃ r, e = .ret j r) → Dead free k w p q s' := by
        intro c l e1 e2 hc hle
        have hget : ∀ i c', s'.calls[i]? = some c' → (i = j ∧ c' = c) ∨ s.calls[i]? = some c' := by
          intro i c' hi
          rw [e1] at hi
          by_cases e : i = j
          · subst e; rw [List.getElem?_set_self hlt] at hi; injection hi with hi; exact .inl ⟨rfl, hi.symm⟩
          · rw [List.getElem?_set_ne (Ne.symm e)] at hi; exact .inr hi
        refine ⟨hd, ?_, ?_, ?_⟩
        · intro i c' hi hr
          rcases hget i c' hi with ⟨rfl, rfl⟩ | hi
          · exact hc hr
          · exact h.paired i c' hi hr
        · intro i r hi
          rw [e2] at hi ⊢
          rcases List.mem_append.1 hi with hi | hi
          · obtain ⟨o, h1, h2⟩ := h.logged i r hi; exact ⟨o, List.mem_append_left _ h1, h2⟩
          · obtain ⟨r', e⟩ := hle _ hi
            injection e with e _
            subst e
            obtain ⟨o, h1, h2⟩ := hfree; exact ⟨o, List.mem_append_left _ h1, h2⟩
        · intro i c' hi
          rw [e2]
          rcases hget i c' hi with ⟨rfl, rfl⟩ | hi
          · obtain ⟨o, h1, h2⟩ := hfree; exact ⟨o, List.mem_append_left _ h1, .inl h2⟩
          · obtain ⟨o, h1, h2⟩ := h.later i c' hi; exact ⟨o, List.mem_append_left _ h1, h2⟩
      cases hpx with
      | ret r =>
        simp only [State.go, Option.some.injEq] at hs; subst hs
        exact key _ _ rfl rfl (fun e => by cases e) (by simp)
      | act hn =>
        simp only [State.go, State.setProg, Option.some.injEq] at hs; subst hs
        exact key _ [] rfl (by simp) (fun _ => hn _) (by simp)
      | lockW y => exact absurd rfl (hnl _ _)
      | lockR hy => exact absurd rfl (hnl _ _)
      | unlockR hy =>
        simp only [State.go, State.setProg, Option.some.injEq] at hs; subst hs
        exact key _ [] rfl (by simp) (fun _ => hy) (by simp)
    · cases hs

/-! ## Readers only -/

/-- Nothing is written and the mutex is only taken with `RLock`, possibly while it is already held so. -/
inductive Prog.Reads : Prog σ ρ → Prop
  | ret (r : ρ) : Reads (.ret r)
  | get {n : σ → Prog σ ρ} : (∀ s, Reads (n s)) → Reads (.act id n)
  | lock {p : Prog σ ρ} : Reads p → Reads (.lock .r p)
  | unlock {p : Prog σ ρ} : Reads p → Reads (.unlock .r p)

theorem Prog.Reads.bind {τ : Type} {p : Prog σ ρ} {f : ρ → Prog σ τ} (h : p.Reads) (hf : ∀ r, (f r).Reads) : (p.bind f).Reads := by
  induction h with
  | ret r => exact hf r
  | get _ ih => exact .get ih
  | lock _ ih => exact .lock ih
  | unlock _ ih => exact .unlock ih

/-- The object stays as it is, and every call returns what it would return alone. -/
structure Readers (impl : Op → Prog σ ρ) (x : σ) (s : State σ ρ Op) : Prop where
  obj : s.obj = x
  writer : s.writer = none
  calls : ∀ (j : Nat) (c : Call σ ρ), s.calls[j]? = some c → ∃ op, .inv j op ∈ s.log ∧ c.prog.Reads ∧ (c.prog.run x).2 = ((impl op).run x).2
  logged : ∀ j r, .ret j r ∈ s.log → ∃ op, .inv j op ∈ s.log ∧ r = ((impl op).run x).2

theorem Readers.step {impl : Op → Prog σ ρ} {x : σ} {s s' : State σ ρ Op} {a : Action Op} (h : Readers impl x s) (ha : ∀ op, a = .call op → (impl op).Reads) (hs : RW.step impl s a = some s') : Readers impl x s' := by
  obtain ⟨h1, h2, h3, h4⟩ := h
  cases a with
  | call op =>
    simp only [RW.step, Option.some.injEq] at hs
    subst hs
    refine ⟨h1, h2, ?_, ?_⟩
    · intro j c hj
      simp only at hj
      rw [List.getElem?_append] at hj
      split at hj
      · obtain ⟨o, ho, h⟩ := h3 j c hj
        exact ⟨o, List.mem_append_left _ ho, h⟩
      · have hlt := (List.getElem?_eq_some_iff.1 hj).1
        simp only [List.length_singleton] at hlt
        have e : j = s.calls.length := by omega
        subst e
        simp only [Nat.sub_self, List.getElem?_cons_zero, Option.some.injEq] at hj
        subst hj
        exact ⟨op, by simp, ha op rfl, rfl⟩
    · intro j r hj
      rcases List.mem_append.1 hj with hj | hj
      · obtain ⟨o, ho, h⟩ := h4 j r hj
        exact ⟨o, List.mem_append_left _ ho, h⟩
      · simp at hj
  | go j =>
    simp only [RW.step] at hs
    split at hs
    · rename_i p hj
      obtain ⟨op, ho, hr, he⟩ := h3 j _ hj
      have hlt := (List.getElem?_eq_some_iff.1 hj).1
      have key : ∀ (q : Prog σ ρ) (b : Bool) (l : List (CallEv Op ρ)), q.Reads → (q.run x).2 = (p.run x).2 → ∀ (i : Nat) (c : Call σ ρ), (s.calls.set j ⟨q, b⟩)[i]? = some c →
          ∃ op, .inv i op ∈ s.log ++ l ∧ c.prog.Reads ∧ (c.prog.run x).2 = ((impl op).run x).2 := by
        intro q b l hq hqr i c hi
        by_cases e : i = j
        · subst e; rw [List.getElem?_set_self hlt] at hi; injection hi with hi; subst hi
          exact ⟨op, List.mem_append_left _ ho, hq, hqr.trans he⟩
        · rw [List.getElem?_set_ne (Ne.symm e)] at hi
          obtain ⟨o, ho, h⟩ := h3 i c hi
          exact ⟨o, List.mem_append_left _ ho, h⟩
      cases hr with
      | ret r =>
        simp only [State.go, Option.some.injEq] at hs; subst hs
        refine ⟨h1, h2, key _ _ _ (.ret r) rfl, ?_⟩
        intro i r' hi
        rcases List.mem_append.1 hi with hi | hi
        · obtain ⟨o, ho, h⟩ := h4 i r' hi
          exact ⟨o, List.mem_append_left _ ho, h⟩
        · rw [List.mem_singleton] at hi; injection hi with e1 e2; subst e1; subst e2
          exact ⟨op, List.mem_append_left _ ho, he⟩
      | get hn =>
        simp only [State.go, State.setProg, Option.some.injEq] at hs; subst hs
        rw [h1]
        exact ⟨rfl, h2, by simpa using key _ false [] (hn x) rfl, h4⟩
      | lock hp =>
        simp only [State.go, h2, if_true, State.setProg, Option.some.injEq] at hs; subst hs
        exact ⟨h1, rfl, by simpa using key _ false [] hp rfl, h4⟩
      | unlock hp =>
        simp only [State.go, State.setProg, Option.some.injEq] at hs; subst hs
        exact ⟨h1, h2, by simpa using key _ false [] hp rfl, h4⟩
    · cases hs

theorem Readers.progress {impl : Op → Prog σ ρ} {x : σ} {s : State σ ρ Op} (h : Readers impl x s) {k : Nat} {c : Call σ ρ} (hk : s.calls[k]? = some c) (hc : c.returned = false) : ∃ j, (RW.step impl s (.go j)).isSome = true := by
  obtain ⟨p, b⟩ := c
  simp only at hc; subst hc
  exact ⟨k, by simp only [RW.step, hk]; exact go_free h.writer k p⟩

end Noise.RW
