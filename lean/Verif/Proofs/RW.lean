import Verif.Model.RW
import Verif.Proofs.TS
import Mathlib.Data.List.Nodup
/-! # Methods that hold a mutex are linearizable -/
namespace Noise.RW
open Noise.Spec
variable {σ ρ Op : Type}

/-! ## Orders -/

theorem before_mono {α : Type} {l : List α} {x y : α} (h : Before l x y) (z : List α) : Before (l ++ z) x y := by
  obtain ⟨a, b, c, rfl⟩ := h
  exact ⟨a, b, c ++ z, by simp⟩

theorem before_snoc {α : Type} {l : List α} {x y z : α} (h : Before (l ++ [z]) x y) : Before l x y ∨ (y = z ∧ x ∈ l) := by
  obtain ⟨a, b, c, e⟩ := h
  rcases List.eq_nil_or_concat c with rfl | ⟨c', w, rfl⟩
  · obtain ⟨e1, e2⟩ := List.append_inj' (t₁ := [z]) (t₂ := [y]) e rfl
    rw [List.singleton_inj] at e2
    exact .inr ⟨e2.symm, e1 ▸ by simp⟩
  · rw [show a ++ x :: b ++ y :: (c'.concat w) = (a ++ x :: b ++ y :: c') ++ [w] by simp] at e
    obtain ⟨e1, -⟩ := List.append_inj' e rfl
    exact .inl ⟨a, b, c', e1⟩

theorem before_last {α : Type} {l : List α} {x : α} (h : x ∈ l) (y : α) : Before (l ++ [y]) x y := by
  obtain ⟨a, b, rfl⟩ := List.append_of_mem h
  exact ⟨a, b, [], by simp⟩

/-- The state after the calls. -/
def fin (apply : Op → σ → σ × ρ) (s : σ) (l : List (Nat × Op × ρ)) : σ := l.foldl (fun s e => (apply e.2.1 s).1) s

theorem fin_snoc (apply : Op → σ → σ × ρ) (s : σ) (l : List (Nat × Op × ρ)) (k : Nat) (op : Op) (r : ρ) : fin apply s (l ++ [(k, op, r)]) = (apply op (fin apply s l)).1 := by
  simp [fin]

theorem sequential_snoc {apply : Op → σ → σ × ρ} {s : σ} {l : List (Nat × Op × ρ)} {k : Nat} {op : Op} {r : ρ} :
    Sequential apply s (l ++ [(k, op, r)]) ↔ Sequential apply s l ∧ (apply op (fin apply s l)).2 = r := by
  induction l generalizing s with
  | nil => simp [Sequential, fin]
  | cons e l ih =>
    obtain ⟨a, b, c⟩ := e
    simp only [List.cons_append, Sequential, ih, fin, List.foldl_cons, and_assoc]

/-! ## Programs -/

theorem Prog.Body.read_only {p : Prog σ ρ} (h : Prog.Body .r p) (s : σ) : (p.run s).1 = s := by
  induction h with
  | ret r => rfl
  | act h1 _ ih => simp only [Prog.run, h1 rfl]; exact ih _

/-- What each method does: it returns without looking at the object, or holds the mutex meanwhile. -/
def Method (p : Prog σ ρ) (f : σ → σ × ρ) : Prop :=
  (∃ r, p = .ret r ∧ ∀ s, f s = (s, r)) ∨ ∃ (m : Mode) (body : Prog σ ρ), p = .guarded m body ∧ body.Body m ∧ ∀ s, body.run s = f s

/-- What is left to do after the accesses. -/
def unl (m : Mode) (r : ρ) : Prog σ ρ := .unlock m (.ret r)

/-! ## The invariant -/

/-- How far a call is. -/
inductive Phase (impl : Op → Prog σ ρ) (obj : σ) (writer : Option (Nat × Bool)) (readers : List Nat) (order : List (Nat × Op × ρ)) (fin : σ) (k : Nat) (op : Op) : Call σ ρ → Prop
  | waiting : k ∉ order.map (·.1) → k ∉ readers → writer ≠ some (k, true) → Phase impl obj writer readers order fin k op ⟨impl op, false⟩
  | reading (p : Prog σ ρ) (r : ρ) : p.Body .r → k ∈ readers → (k, op, r) ∈ order → p.run obj = (obj, r) → Phase impl obj writer readers order fin k op ⟨p.bind (unl .r), false⟩
  | writing (p : Prog σ ρ) (r : ρ) : p.Body .w → writer = some (k, true) → k ∉ readers → (k, op, r) ∈ order → p.run obj = (fin, r) → Phase impl obj writer readers order fin k op ⟨p.bind (unl .w), false⟩
  | done (r : ρ) (b : Bool) : k ∉ readers → writer ≠ some (k, true) → (k, op, r) ∈ order → Phase impl obj writer readers order fin k op ⟨.ret r, b⟩

structure Inv (impl : Op → Prog σ ρ) (apply : Op → σ → σ × ρ) (init : σ) (s : State σ ρ Op) (order : List (Nat × Op × ρ)) : Prop where
  nodup : (order.map (·.1)).Nodup
  made : ∀ k op r, (k, op, r) ∈ order → .inv k op ∈ s.log
  rets : ∀ k r, .ret k r ∈ s.log → ∃ op, (k, op, r) ∈ order
  seq : Sequential apply init order
  time : ∀ a r b op, Before s.log (.ret a r) (.inv b op) → b ∈ order.map (·.1) → Before (order.map (·.1)) a b
  small : ∀ k op, .inv k op ∈ s.log → k < s.calls.length
  readers : s.readers.Nodup
  rsmall : ∀ k ∈ s.readers, k < s.calls.length
  excl : ∀ k, s.writer = some (k, true) → s.readers = [] ∧ k < s.calls.length
  obj : (∀ k, s.writer ≠ some (k, true)) → s.obj = fin apply init order
  phase : ∀ k c, s.calls[k]? = some c → ∃ op, .inv k op ∈ s.log ∧ Phase impl s.obj s.writer s.readers order (fin apply init order) k op c

theorem Inv.init (impl : Op → Prog σ ρ) (apply : Op → σ → σ × ρ) (init : σ) : Inv impl apply init (State.new init) [] where
  nodup := List.nodup_nil
  made _ _ _ h := by cases h
  rets _ _ h := by cases h
  seq := trivial
  time _ _ _ _ _ h := by cases h
  small _ _ h := by cases h
  readers := List.nodup_nil
  rsmall _ h := by cases h
  excl _ h := by cases h
  obj _ := rfl
  phase _ _ h := by simp [State.new] at h

theorem Inv.linearizable {impl : Op → Prog σ ρ} {apply : Op → σ → σ × ρ} {init : σ} {s : State σ ρ Op} {order : List (Nat × Op × ρ)} (h : Inv impl apply init s order) : Linearizable apply init s.log :=
  ⟨order, h.nodup, h.made, h.rets, h.seq, h.time⟩

section
variable {impl : Op → Prog σ ρ} {apply : Op → σ → σ × ρ} {init : σ} {s : State σ ρ Op} {order : List (Nat × Op × ρ)}

theorem Inv.call (h : Inv impl apply init s order) (op : Op) :
    Inv impl apply init { s with calls := s.calls ++ [⟨impl op, false⟩], log := s.log ++ [.inv s.calls.length op] } order := by
  have hfresh : s.calls.length ∉ order.map (·.1) := by
    intro hm
    obtain ⟨⟨a, o, r⟩, he, rfl⟩ := List.mem_map.1 hm
    exact absurd (h.small _ _ (h.made _ _ _ he)) (Nat.lt_irrefl _)
  constructor
  · exact h.nodup
  · intro k o r hk; exact List.mem_append_left _ (h.made k o r hk)
  · intro k r hk
    rcases List.mem_append.1 hk with hk | hk
    · exact h.rets k r hk
    · simp at hk
  · exact h.seq
  · intro a r b o hb hbo
    rcases before_snoc hb with hb | ⟨e, -⟩
    · exact h.time a r b o hb hbo
    · injection e with e1 _
      subst e1
      exact absurd hbo hfresh
  · intro k o hk
    simp only [List.length_append, List.length_singleton]
    rcases List.mem_append.1 hk with hk | hk
    · have := h.small k o hk; omega
    · simp at hk; omega
  · exact h.readers
  · intro k hk; simp only [List.length_append, List.length_singleton]; have := h.rsmall k hk; omega
  · intro k hk; refine ⟨(h.excl k hk).1, ?_⟩; simp only [List.length_append, List.length_singleton]; have := (h.excl k hk).2; omega
  · exact h.obj
  · intro k c hk
    simp only [List.getElem?_append] at hk
    split at hk
    · obtain ⟨o, h1, h2⟩ := h.phase k c hk
      exact ⟨o, List.mem_append_left _ h1, h2⟩
    · rename_i hlt
      have hkl : k = s.calls.length := by
        have := (List.getElem?_eq_some_iff.1 hk).1
        simp only [List.length_singleton] at this; omega
      subst hkl
      simp only [Nat.sub_self, List.getElem?_cons_zero, Option.some.injEq] at hk
      subst hk
      exact ⟨op, by simp, .waiting hfresh (fun hm => absurd (h.rsmall _ hm) (Nat.lt_irrefl _)) fun hm => absurd (h.excl _ hm).2 (Nat.lt_irrefl _)⟩

/-- The phases of the other calls when call `k` changes the order and the mutex. -/
theorem Phase.other {obj : σ} {w : Option (Nat × Bool)} {rs : List Nat} {f : σ} {j : Nat} {op : Op} {c : Call σ ρ} (h : Phase impl obj w rs order f j op c)
    {obj' : σ} {w' : Option (Nat × Bool)} {rs' : List Nat} {add : List (Nat × Op × ρ)} {f' : σ}
    (h1 : j ∉ add.map (·.1)) (h2 : j ∈ rs' ↔ j ∈ rs) (h3 : w' = some (j, true) ↔ w = some (j, true)) (h4 : j ∈ rs → obj' = obj) (h5 : w = some (j, true) → obj' = obj ∧ f' = f) :
    Phase impl obj' w' rs' (order ++ add) f' j op c := by
  cases h with
  | waiting a b c => exact .waiting (by rw [List.map_append, List.mem_append]; exact fun h => h.elim a h1) (fun h => b (h2.1 h)) (fun h => c (h3.1 h))
  | reading p r a b c d => exact .reading p r a (h2.2 b) (List.mem_append_left _ c) (by rw [h4 b]; exact d)
  | writing p r a b c d e => exact .writing p r a (h3.2 b) (fun h => c (h2.1 h)) (List.mem_append_left _ d) (by rw [(h5 b).1, (h5 b).2]; exact e)
  | done r b c d e => exact .done r b (fun h => c (h2.1 h)) (fun h => d (h3.1 h)) (List.mem_append_left _ e)

/-- Call `k` is put at the end of the order. -/
theorem Inv.extend (h : Inv impl apply init s order) {k : Nat} {op : Op} {r : ρ} (hk : k ∉ order.map (·.1)) (hr : (apply op (fin apply init order)).2 = r) :
    ((order ++ [(k, op, r)]).map (·.1)).Nodup ∧ Sequential apply init (order ++ [(k, op, r)]) ∧
    (∀ a r' b o, Before s.log (.ret a r') (.inv b o) → b ∈ (order ++ [(k, op, r)]).map (·.1) → Before ((order ++ [(k, op, r)]).map (·.1)) a b) := by
  refine ⟨?_, sequential_snoc.2 ⟨h.seq, hr⟩, ?_⟩
  · rw [List.map_append]
    exact List.Nodup.append h.nodup (by simp) (by simpa using hk)
  · intro a r' b o hb hbo
    rw [List.map_append] at hbo ⊢
    rcases List.mem_append.1 hbo with hbo | hbo
    · exact before_mono (h.time a r' b o hb hbo) _
    · simp only [List.map_cons, List.map_nil, List.mem_singleton] at hbo
      subst hbo
      obtain ⟨l1, l2, l3, e⟩ := hb
      obtain ⟨o', ho'⟩ := h.rets a r' (by rw [e]; simp)
      exact before_last (List.mem_map.2 ⟨_, ho', rfl⟩) _

end

/-- `go` in terms of the phase. -/
theorem Inv.go {impl : Op → Prog σ ρ} {apply : Op → σ → σ × ρ} (hm : ∀ op, Method (impl op) (apply op)) {init : σ} {s s' : State σ ρ Op} {order : List (Nat × Op × ρ)}
    (h : Inv impl apply init s order) {k : Nat} {p : Prog σ ρ} (hk : s.calls[k]? = some ⟨p, false⟩) (hs : s.go k p = some s') : ∃ order', Inv impl apply init s' order' := by
  have hlt := (List.getElem?_eq_some_iff.1 hk).1
  obtain ⟨op, hinv, hph⟩ := h.phase k _ hk
  -- the calls after the step
  have hget : ∀ {j : Nat} {c c' : Call σ ρ}, (s.calls.set k c')[j]? = some c → (j = k ∧ c = c') ∨ (j ≠ k ∧ s.calls[j]? = some c) := by
    intro j c c' hj
    by_cases e : j = k
    · subst e; rw [List.getElem?_set_self hlt] at hj; injection hj with hj; exact .inl ⟨rfl, hj.symm⟩
    · rw [List.getElem?_set_ne (Ne.symm e)] at hj; exact .inr ⟨e, hj⟩
  generalize hc : (⟨p, false⟩ : Call σ ρ) = c at hph
  cases hph with
  | waiting h1 h2 h3 =>
    injection hc with hc _
    rcases hm op with ⟨r, hr, hf⟩ | ⟨m, body, hb, hbody, hrun⟩
    · -- immediate
      rw [hc, hr] at hs
      simp only [State.go, Option.some.injEq] at hs
      subst hs
      obtain ⟨e1, e2, e3⟩ := h.extend (op := op) (r := r) h1 (by rw [hf])
      have hfin : fin apply init (order ++ [(k, op, r)]) = fin apply init order := by rw [fin_snoc, hf]
      refine ⟨order ++ [(k, op, r)], e1, ?_, ?_, e2, ?_, ?_, h.readers, ?_, ?_, ?_, ?_⟩
      · intro j o r' hj
        rcases List.mem_append.1 hj with hj | hj
        · exact List.mem_append_left _ (h.made j o r' hj)
        · simp only [List.mem_singleton] at hj; injection hj with e f; injection f with f g; subst e f; exact List.mem_append_left _ hinv
      · intro j r' hj
        rcases List.mem_append.1 hj with hj | hj
        · obtain ⟨o, ho⟩ := h.rets j r' hj; exact ⟨o, List.mem_append_left _ ho⟩
        · simp only [List.mem_singleton] at hj; injection hj with e f; subst e f; exact ⟨op, by simp⟩
      · intro a r' b o hb hbo
        rcases before_snoc hb with hb | ⟨e, -⟩
        · exact e3 a r' b o hb hbo
        · cases e
      · intro j o hj
        rcases List.mem_append.1 hj with hj | hj
        · simpa using h.small j o hj
        · simp at hj
      · intro j hj; simpa using h.rsmall j hj
      · intro j hj; simpa using h.excl j hj
      · intro hw; rw [hfin]; exact h.obj hw
      · intro j c hj
        rcases hget hj with ⟨rfl, rfl⟩ | ⟨hne, hj⟩
        · exact ⟨op, List.mem_append_left _ hinv, .done r true h2 h3 (by simp)⟩
        · obtain ⟨o, ho, hp⟩ := h.phase j c hj
          exact ⟨o, List.mem_append_left _ ho, hp.other (by simpa using hne) Iff.rfl Iff.rfl (fun _ => rfl) fun _ => ⟨rfl, hfin⟩⟩
    · rw [hc, hb] at hs
      cases m with
      | r =>
        -- RLock
        simp only [Prog.guarded, State.go, State.setProg] at hs
        split at hs
        · rename_i hw
          injection hs with hs
          subst hs
          have hobj := h.obj (by rw [hw]; simp)
          have hro : (apply op (fin apply init order)).1 = fin apply init order := by rw [← hrun]; exact hbody.read_only _
          obtain ⟨e1, e2, e3⟩ := h.extend (op := op) (r := (apply op (fin apply init order)).2) h1 rfl
          have hfin : fin apply init (order ++ [(k, op, (apply op (fin apply init order)).2)]) = fin apply init order := by rw [fin_snoc, hro]
          refine ⟨order ++ [(k, op, (apply op (fin apply init order)).2)], e1, ?_, ?_, e2, e3, ?_, ?_, ?_, ?_, ?_, ?_⟩
          · intro j o r' hj
            rcases List.mem_append.1 hj with hj | hj
            · exact h.made j o r' hj
            · simp only [List.mem_singleton] at hj; injection hj with e f; injection f with f g; subst e f; exact hinv
          · intro j r' hj; obtain ⟨o, ho⟩ := h.rets j r' hj; exact ⟨o, List.mem_append_left _ ho⟩
          · intro j o hj; simpa using h.small j o hj
          · exact List.nodup_cons.2 ⟨h2, h.readers⟩
          · intro j hj
            rcases List.mem_cons.1 hj with rfl | hj
            · simpa using hlt
            · simpa using h.rsmall j hj
          · intro j hj; rw [show _ = none from hw] at hj; cases hj
          · intro _; rw [hfin]; exact hobj
          · intro j c hj
            rcases hget hj with ⟨rfl, rfl⟩ | ⟨hne, hj⟩
            · refine ⟨op, hinv, .reading body (apply op (fin apply init order)).2 hbody (by simp) (by simp) ?_⟩
              show body.run s.obj = _
              rw [hobj, hrun, ← hro, hro]
              exact Prod.ext hro rfl
            · obtain ⟨o, ho, hp⟩ := h.phase j c hj
              exact ⟨o, ho, hp.other (by simpa using hne) (by simp [hne]) Iff.rfl (fun _ => rfl) fun _ => ⟨rfl, hfin⟩⟩
        · cases hs
      | w =>
        simp only [Prog.guarded, State.go, State.setProg] at hs
        split at hs
        · -- announce
          rename_i hw
          injection hs with hs
          subst hs
          have hobj := h.obj (by rw [hw]; simp)
          refine ⟨order, h.nodup, h.made, h.rets, h.seq, h.time, h.small, h.readers, h.rsmall, ?_, ?_, ?_⟩
          · intro j hj; simp at hj
          · intro _; exact hobj
          · intro j c hj
            obtain ⟨o, ho, hp⟩ := h.phase j c hj
            refine ⟨o, ho, ?_⟩
            have := hp.other (obj' := s.obj) (w' := some (k, false)) (rs' := s.readers) (add := []) (f' := fin apply init order) (by simp) Iff.rfl (by simp [hw]) (fun _ => rfl) fun _ => ⟨rfl, rfl⟩
            simpa using this
        · split at hs
          · -- acquire
            rename_i hw0 hw
            obtain ⟨hw, hrd⟩ := hw
            injection hs with hs
            subst hs
            have hobj := h.obj (by rw [hw]; simp)
            obtain ⟨e1, e2, e3⟩ := h.extend (op := op) (r := (apply op (fin apply init order)).2) h1 rfl
            refine ⟨order ++ [(k, op, (apply op (fin apply init order)).2)], e1, ?_, ?_, e2, e3, ?_, h.readers, ?_, ?_, ?_, ?_⟩
            · intro j o r' hj
              rcases List.mem_append.1 hj with hj | hj
              · exact h.made j o r' hj
              · simp only [List.mem_singleton] at hj; injection hj with e f; injection f with f g; subst e f; exact hinv
            · intro j r' hj; obtain ⟨o, ho⟩ := h.rets j r' hj; exact ⟨o, List.mem_append_left _ ho⟩
            · intro j o hj; simpa using h.small j o hj
            · intro j hj; simpa using h.rsmall j hj
            · intro j hj; simp only [Option.some.injEq, Prod.mk.injEq, and_true] at hj; subst hj; exact ⟨hrd, by simpa using hlt⟩
            · intro hno; exact absurd rfl (hno k)
            · intro j c hj
              rcases hget hj with ⟨rfl, rfl⟩ | ⟨hne, hj⟩
              · refine ⟨op, hinv, .writing body (apply op (fin apply init order)).2 hbody rfl h2 (by simp) ?_⟩
                show body.run s.obj = _
                rw [hobj, hrun, fin_snoc]
              · obtain ⟨o, ho, hp⟩ := h.phase j c hj
                exact ⟨o, ho, hp.other (by simpa using hne) Iff.rfl (by simp [hw, Ne.symm hne]) (fun _ => rfl) fun e => by rw [hw] at e; simp at e⟩
          · cases hs
  | reading q r hq hin hord hrun =>
    injection hc with hc _
    have hwr : ∀ j, s.writer ≠ some (j, true) := by
      intro j hj
      rw [(h.excl j hj).1] at hin; cases hin
    cases hq with
    | ret r' =>
      rw [hc] at hs
      simp only [Prog.bind, unl, State.go, State.setProg, Option.some.injEq] at hs
      subst hs
      simp only [Prog.run, Prod.mk.injEq, true_and] at hrun
      subst hrun
      refine ⟨order, h.nodup, h.made, h.rets, h.seq, h.time, ?_, h.readers.erase _, ?_, ?_, h.obj, ?_⟩
      · intro j o hj; simpa using h.small j o hj
      · intro j hj; simpa using h.rsmall j (List.mem_of_mem_erase hj)
      · intro j hj; exact absurd hj (hwr j)
      · intro j c hj
        rcases hget hj with ⟨rfl, rfl⟩ | ⟨hne, hj⟩
        · exact ⟨op, hinv, .done r' false (fun hx => by rw [h.readers.mem_erase_iff] at hx; exact hx.1 rfl) (hwr j) hord⟩
        · obtain ⟨o, ho, hp⟩ := h.phase j c hj
          refine ⟨o, ho, ?_⟩
          have := hp.other (obj' := s.obj) (w' := s.writer) (rs' := s.readers.erase k) (add := []) (f' := fin apply init order) (by simp) (by rw [h.readers.mem_erase_iff]; simp [hne]) Iff.rfl (fun _ => rfl) fun _ => ⟨rfl, rfl⟩
          simpa using this
    | @act u n hu hn =>
      rw [hc] at hs
      simp only [Prog.bind, State.go, State.setProg, Option.some.injEq] at hs
      subst hs
      have hobj : u s.obj = s.obj := hu rfl _
      refine ⟨order, h.nodup, h.made, h.rets, h.seq, h.time, ?_, h.readers, ?_, ?_, ?_, ?_⟩
      · intro j o hj; simpa using h.small j o hj
      · intro j hj; simpa using h.rsmall j hj
      · intro j hj; exact absurd hj (hwr j)
      · intro _; exact hobj.trans (h.obj hwr)
      · intro j c hj
        rcases hget hj with ⟨rfl, rfl⟩ | ⟨hne, hj⟩
        · refine ⟨op, hinv, .reading (n s.obj) r (hn _) hin hord ?_⟩
          simp only [Prog.run] at hrun
          show (n s.obj).run (u s.obj) = _
          rw [hrun, hobj]
        · obtain ⟨o, ho, hp⟩ := h.phase j c hj
          refine ⟨o, ho, ?_⟩
          have := hp.other (obj' := u s.obj) (w' := s.writer) (rs' := s.readers) (add := []) (f' := fin apply init order) (by simp) Iff.rfl Iff.rfl (fun _ => hobj) fun e => absurd e (hwr j)
          simpa using this
  | writing q r hq hw hnin hord hrun =>
    injection hc with hc _
    obtain ⟨hrd, -⟩ := h.excl k hw
    cases hq with
    | ret r' =>
      rw [hc] at hs
      simp only [Prog.bind, unl, State.go, State.setProg, Option.some.injEq] at hs
      subst hs
      simp only [Prog.run, Prod.mk.injEq] at hrun
      obtain ⟨hobj, rfl⟩ := hrun
      refine ⟨order, h.nodup, h.made, h.rets, h.seq, h.time, ?_, h.readers, ?_, ?_, ?_, ?_⟩
      · intro j o hj; simpa using h.small j o hj
      · intro j hj; simpa using h.rsmall j hj
      · intro j hj; cases hj
      · intro _; exact hobj
      · intro j c hj
        rcases hget hj with ⟨rfl, rfl⟩ | ⟨hne, hj⟩
        · exact ⟨op, hinv, .done r' false hnin (by simp) hord⟩
        · obtain ⟨o, ho, hp⟩ := h.phase j c hj
          refine ⟨o, ho, ?_⟩
          have := hp.other (obj' := s.obj) (w' := none) (rs' := s.readers) (add := []) (f' := fin apply init order) (by simp) Iff.rfl (by rw [hw]; simp [Ne.symm hne]) (fun _ => rfl) fun e => ⟨rfl, rfl⟩
          simpa using this
    | @act u n hu hn =>
      rw [hc] at hs
      simp only [Prog.bind, State.go, State.setProg, Option.some.injEq] at hs
      subst hs
      refine ⟨order, h.nodup, h.made, h.rets, h.seq, h.time, ?_, h.readers, ?_, ?_, ?_, ?_⟩
      · intro j o hj; simpa using h.small j o hj
      · intro j hj; simpa using h.rsmall j hj
      · intro j hj; simpa using h.excl j hj
      · intro hno; exact absurd hw (hno k)
      · intro j c hj
        rcases hget hj with ⟨rfl, rfl⟩ | ⟨hne, hj⟩
        · exact ⟨op, hinv, .writing (n s.obj) r (hn _) hw hnin hord hrun⟩
        · obtain ⟨o, ho, hp⟩ := h.phase j c hj
          refine ⟨o, ho, ?_⟩
          have := hp.other (obj' := u s.obj) (w' := s.writer) (rs' := s.readers) (add := []) (f' := fin apply init order) (by simp) Iff.rfl Iff.rfl (fun hx => by rw [hrd] at hx; cases hx)
            fun e => by rw [hw] at e; simp at e; exact absurd e.symm hne
          simpa using this
  | done r b hn hw hord =>
    injection hc with hc hbf
    rw [hc] at hs
    simp only [State.go, Option.some.injEq] at hs
    subst hs
    refine ⟨order, h.nodup, ?_, ?_, h.seq, ?_, ?_, h.readers, ?_, ?_, h.obj, ?_⟩
    · intro j o r' hj; exact List.mem_append_left _ (h.made j o r' hj)
    · intro j r' hj
      rcases List.mem_append.1 hj with hj | hj
      · exact h.rets j r' hj
      · simp only [List.mem_singleton] at hj; injection hj with e f; subst e f; exact ⟨op, hord⟩
    · intro a r' b' o hb hbo
      rcases before_snoc hb with hb | ⟨e, -⟩
      · exact h.time a r' b' o hb hbo
      · cases e
    · intro j o hj
      rcases List.mem_append.1 hj with hj | hj
      · simpa using h.small j o hj
      · simp at hj
    · intro j hj; simpa using h.rsmall j hj
    · intro j hj; simpa using h.excl j hj
    · intro j c hj
      rcases hget hj with ⟨rfl, rfl⟩ | ⟨hne, hj⟩
      · exact ⟨op, List.mem_append_left _ hinv, .done r true hn hw hord⟩
      · obtain ⟨o, ho, hp⟩ := h.phase j c hj
        exact ⟨o, List.mem_append_left _ ho, hp⟩

theorem Inv.step {impl : Op → Prog σ ρ} {apply : Op → σ → σ × ρ} (hm : ∀ op, Method (impl op) (apply op)) {init : σ} {s s' : State σ ρ Op} {a : Action Op}
    (h : ∃ order, Inv impl apply init s order) (hs : RW.step impl s a = some s') : ∃ order, Inv impl apply init s' order := by
  obtain ⟨order, h⟩ := h
  cases a with
  | call op =>
    simp only [RW.step, Option.some.injEq] at hs
    subst hs
    exact ⟨order, h.call op⟩
  | go k =>
    simp only [RW.step] at hs
    split at hs
    · rename_i p hk
      exact h.go hm hk hs
    · cases hs

theorem Inv.reach {impl : Op → Prog σ ρ} {apply : Op → σ → σ × ρ} (hm : ∀ op, Method (impl op) (apply op)) {init : σ} {s : State σ ρ Op} (h : Reachable impl init s) :
    ∃ order, Inv impl apply init s order :=
  ReachFrom.inv (P := fun s => ∃ order, Inv impl apply init s order) (fun _ _ _ => Inv.step hm) h ⟨[], Inv.init _ _ _⟩

/-- Methods that hold the mutex while they access the object are linearizable. -/
theorem linearizable {impl : Op → Prog σ ρ} {apply : Op → σ → σ × ρ} (hm : ∀ op, Method (impl op) (apply op)) {init : σ} {s : State σ ρ Op} (h : Reachable impl init s) : Linearizable apply init s.log :=
  (Inv.reach hm h).elim fun _ h => h.linearizable

end Noise.RW
