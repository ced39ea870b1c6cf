import Verif.Proofs.TS
import Verif.Spec.Worker
import Mathlib.Tactic.SplitIfs
/-! # Invariants of the workers -/
namespace Noise.Wk
open Spec
variable {ε : Type}

/-- Split an enabled action into the branches of the code and substitute the new state. -/
macro "wk_cases " a:ident hs:ident : tactic => `(tactic| (
  cases $a:ident <;> simp only [Wk.step, State.ctxSend] at $hs:ident <;>
  (repeat' (split at $hs:ident)) <;> (try (cases $hs:ident; done)) <;> (try (injection $hs:ident with $hs:ident; subst $hs:ident))))

@[simp] theorem handlingOf_append (k : Nat) (a b : List (Event ε)) : handlingOf k (a ++ b) = handlingOf k a ++ handlingOf k b := by simp [handlingOf]
@[simp] theorem handlingOf_nil (k : Nat) : handlingOf k ([] : List (Event ε)) = [] := rfl
@[simp] theorem respondersOf_append (k : Nat) (a b : List (Event ε)) : respondersOf k (a ++ b) = respondersOf k a ++ respondersOf k b := by simp [respondersOf]
@[simp] theorem failures_append (a b : List (Event ε)) : failures (a ++ b) = failures a + failures b := by simp [failures]
@[simp] theorem takenOf_append (a b : List (Event ε)) : takenOf (a ++ b) = takenOf a ++ takenOf b := by simp [takenOf]

theorem handledUpTo_succ (w k n : Nat) : handledUpTo (ε := ε) w k (n + 1) = handledUpTo w k n ++ [.started k n, .finished k n none] := by
  simp [handledUpTo, List.range_succ]

/-- What the log says about the item a worker is busy with. -/
def PcOK (H head : Nat) (log : List (Event ε)) (w : Nat) : Pc ε → Prop
  | .next k h => k < head ∧ h ≤ H ∧ handlingOf k log = handledUpTo w k h
  | .inside k h => k < head ∧ h < H ∧ handlingOf k log = handledUpTo w k h ++ [.started k h]
  | .failing k e => k < head ∧ ∃ h, h < H ∧ handlingOf k log = handledUpTo w k h ++ [.started k h, .finished k h (some e)]
  | .closing k => k < head ∧ ∃ h e, h < H ∧ handlingOf k log = handledUpTo w k h ++ [.started k h, .finished k h (some e)]
  | _ => True

/-- The legal histories of an item. -/
def Shape (H k : Nat) (l : List (Event ε)) : Prop :=
  l = [] ∨ ∃ w n, (l = handledUpTo w k n ∧ n ≤ H) ∨ (n < H ∧ (l = handledUpTo w k n ++ [.started k n] ∨
    ∃ e, l = handledUpTo w k n ++ [.started k n, .finished k n (some e)]))

structure Inv (N H : Nat) (s : State ε) : Prop where
  nw : s.numWorkers = N
  nh : s.numHandlers = H
  len : s.workers.length = N
  head : s.head ≤ s.items.length
  shape : ∀ k, Shape H k (handlingOf k s.log)
  fresh : ∀ k, s.head ≤ k → handlingOf k s.log = []
  pc : ∀ w p, s.workers[w]? = some p → PcOK H s.head s.log w p
  taken : takenOf s.log = List.range s.head

/-- The item a worker is busy with. -/
def Pc.item : Pc ε → Option Nat
  | .next k _ | .inside k _ | .failing k _ | .closing k => some k
  | _ => none

theorem PcOK.head_event {H hd : Nat} {log : List (Event ε)} {w : Nat} {p : Pc ε} {k : Nat} (h : PcOK H hd log w p) (hk : p.item = some k) :
    k < hd ∧ ∃ t, handlingOf k log = .taken w k :: t := by
  cases p <;> simp only [Pc.item, Option.some.injEq, reduceCtorEq] at hk <;> subst hk <;> simp only [PcOK] at h
  · exact ⟨h.1, _, h.2.2⟩
  · exact ⟨h.1, _, h.2.2⟩
  · obtain ⟨h1, x, _, h2⟩ := h; exact ⟨h1, _, h2⟩
  · obtain ⟨h1, x, _, _, h2⟩ := h; exact ⟨h1, _, h2⟩

theorem PcOK.frame {H hd hd' : Nat} {log : List (Event ε)} {w : Nat} {p : Pc ε} {es : List (Event ε)} (h : PcOK H hd log w p) (hhd : hd ≤ hd')
    (he : ∀ k, p.item = some k → handlingOf k es = []) : PcOK H hd' (log ++ es) w p := by
  cases p <;> simp only [PcOK] at h ⊢ <;> simp only [Pc.item, Option.some.injEq, forall_eq'] at he <;>
    simp only [handlingOf_append, he, List.append_nil]
  · exact ⟨by omega, h.2⟩
  · exact ⟨by omega, h.2⟩
  · exact ⟨by omega, h.2⟩
  · exact ⟨by omega, h.2⟩

/-- A worker moves on with events about its own item. -/
theorem Inv.move {N H : Nat} {s : State ε} (i : Inv N H s) {w : Nat} {p p' : Pc ε} {es : List (Event ε)} {hd' k : Nat} (hw : s.workers[w]? = some p)
    (hhd : s.head ≤ hd') (hhd' : hd' ≤ s.items.length)
    (hes : ∀ k', k' ≠ k → handlingOf k' es = [])
    (hk : p.item = some k ∨ s.head ≤ k ∨ handlingOf k es = []) (hlt : k < hd' ∨ handlingOf k es = [])
    (hsh : Shape H k (handlingOf k (s.log ++ es))) (hpc : PcOK H hd' (s.log ++ es) w p')
    (htk : takenOf (s.log ++ es) = List.range hd') :
    Inv N H { s.setWorker w p' es with head := hd' } := by
  constructor
  · exact i.nw
  · exact i.nh
  · simp [State.setWorker, i.len]
  · exact hhd'
  · intro k'
    by_cases e : k' = k
    · subst e; exact hsh
    · show Shape H k' (handlingOf k' (s.log ++ es))
      rw [handlingOf_append, hes k' e, List.append_nil]; exact i.shape k'
  · intro k' hk'
    show handlingOf k' (s.log ++ es) = []
    rw [handlingOf_append, i.fresh k' (by have : hd' ≤ k' := hk'; omega)]
    by_cases e : k' = k
    · subst e
      rcases hlt with h | h
      · have : hd' ≤ k' := hk'; omega
      · rw [h]; rfl
    · rw [hes k' e]; rfl
  · intro w' q hq
    simp only [State.setWorker] at hq ⊢
    rw [List.getElem?_set] at hq
    by_cases e : w = w'
    · subst e
      have hlt : w < s.workers.length := (List.getElem?_eq_some_iff.1 hw).1
      simp only [if_true, if_pos hlt, Option.some.injEq] at hq
      subst hq
      exact hpc
    · rw [if_neg e] at hq
      refine (i.pc w' q hq).frame hhd ?_
      intro k' hk'
      by_cases ek : k' = k
      · subst ek
        rcases hk with h | h | h
        · obtain ⟨_, t, ht⟩ := (i.pc w p hw).head_event h
          obtain ⟨_, t', ht'⟩ := (i.pc w' q hq).head_event hk'
          rw [ht] at ht'
          simp only [List.cons.injEq, Event.taken.injEq] at ht'
          exact absurd ht'.1.1 e
        · have := ((i.pc w' q hq).head_event hk').1
          omega
        · exact h
      · exact hes k' ek
  · exact htk

/-- Nothing about items happens. -/
theorem Inv.other {N H : Nat} {s : State ε} (i : Inv N H s) {es : List (Event ε)} (hes : ∀ k, handlingOf k es = []) (ht : takenOf es = []) (items : List Item)
    (hi : s.items.length ≤ items.length) (c : Bool) (f : Nat → Nat → Bool) :
    Inv N H { s with items := items, queueClosed := c, sent := f, log := s.log ++ es } := by
  obtain ⟨h1, h2, h3, h4, h5, h6, h7, h8⟩ := i
  constructor
  · exact h1
  · exact h2
  · exact h3
  · exact Nat.le_trans h4 hi
  · intro k; simpa [hes] using h5 k
  · intro k hk; simpa [hes] using h6 k hk
  · intro w p hp; exact (h7 w p hp).frame (Nat.le_refl _) (fun k _ => hes k)
  · simpa [ht] using h8

theorem Inv.new (N H : Nat) : Inv N H (State.new (ε := ε) N H) := by
  constructor
  · rfl
  · rfl
  · simp [State.new]
  · simp [State.new]
  · intro k; exact Or.inl rfl
  · intro k _; rfl
  · intro w p hp
    simp only [State.new, List.getElem?_replicate] at hp
    split at hp
    · injection hp with hp; subst hp; trivial
    · cases hp
  · rfl

theorem Inv.step {N H : Nat} {s s' : State ε} {a : Action ε} (i : Inv N H s) (hs : step s a = some s') : Inv N H s' := by
  wk_cases a hs
  case enqueue it _ _ => simpa using i.other (es := []) (fun _ => rfl) rfl (s.items ++ [it]) (by simp) s.queueClosed s.sent
  case closeQueue _ => simpa using i.other (es := []) (fun _ => rfl) rfl s.items (Nat.le_refl _) true s.sent
  · rename_i w x hw hlt
    have hf := i.fresh s.head (Nat.le_refl _)
    have hh : handlingOf s.head (s.log ++ [.taken w s.head]) = handledUpTo w s.head 0 := by
      rw [handlingOf_append, hf]; simp [handlingOf, about, handledUpTo]
    refine i.move (k := s.head) hw (Nat.le_succ _) hlt ?_ (Or.inr (Or.inl (Nat.le_refl _))) (Or.inl (Nat.lt_succ_self _)) ?_ ?_ ?_
    · intro k' hk'; simp [handlingOf, about, Ne.symm hk']
    · exact Or.inr ⟨w, 0, Or.inl ⟨hh, Nat.zero_le _⟩⟩
    · exact ⟨Nat.lt_succ_self _, Nat.zero_le _, hh⟩
    · rw [takenOf_append, i.taken, List.range_succ]; rfl
  · rename_i w x hw _ _
    refine i.move (k := 0) hw (Nat.le_refl _) i.head (fun _ _ => rfl) (Or.inr (Or.inr rfl)) (Or.inr rfl) ?_ trivial ?_
    · simpa using i.shape 0
    · simpa using i.taken
  · rename_i w x k h hw hlt
    obtain ⟨p1, p2, p3⟩ := i.pc w _ hw
    have hh : handlingOf k (s.log ++ [.started k h]) = handledUpTo w k h ++ [.started k h] := by
      rw [handlingOf_append, p3]; simp [handlingOf, about]
    rw [i.nh] at hlt
    refine i.move (k := k) hw (Nat.le_refl _) i.head ?_ (Or.inl rfl) (Or.inl p1) ?_ ?_ ?_
    · intro k' hk'; simp [handlingOf, about, Ne.symm hk']
    · exact Or.inr ⟨w, h, Or.inr ⟨hlt, Or.inl hh⟩⟩
    · exact ⟨p1, hlt, hh⟩
    · rw [takenOf_append, i.taken]; simp [takenOf]
  · rename_i w x k h hw _
    refine i.move (k := 0) hw (Nat.le_refl _) i.head (fun _ _ => rfl) (Or.inr (Or.inr rfl)) (Or.inr rfl) ?_ trivial ?_
    · simpa using i.shape 0
    · simpa using i.taken
  · rename_i w x k e hw _ it hit
    obtain ⟨p1, h, p2, p3⟩ := i.pc w _ hw
    refine i.move (k := 0) hw (Nat.le_refl _) i.head (fun _ _ => rfl) (Or.inr (Or.inr rfl)) (Or.inr rfl) ?_ ?_ ?_
    · rw [handlingOf_append]; simpa [handlingOf, about] using i.shape 0
    · refine ⟨p1, h, e, p2, ?_⟩
      rw [handlingOf_append, p3]; simp [handlingOf, about]
    · rw [takenOf_append, i.taken]; simp [takenOf]
  · rename_i w x k hw _ it hit
    refine i.move (k := 0) hw (Nat.le_refl _) i.head (fun _ _ => rfl) (Or.inr (Or.inr rfl)) (Or.inr rfl) ?_ trivial ?_
    · rw [handlingOf_append]; simpa [handlingOf, about] using i.shape 0
    · rw [takenOf_append, i.taken]; simp [takenOf]
  · rename_i w x k h hw r
    obtain ⟨p1, p2, p3⟩ := i.pc w _ hw
    have hh : handlingOf k (s.log ++ [.finished k h none]) = handledUpTo w k (h + 1) := by
      rw [handlingOf_append, p3, handledUpTo_succ]; simp [handlingOf, about]
    refine i.move (k := k) hw (Nat.le_refl _) i.head ?_ (Or.inl rfl) (Or.inl p1) ?_ ?_ ?_
    · intro k' hk'; simp [handlingOf, about, Ne.symm hk']
    · exact Or.inr ⟨w, h + 1, Or.inl ⟨hh, p2⟩⟩
    · exact ⟨p1, p2, hh⟩
    · rw [takenOf_append, i.taken]; simp [takenOf]
  · rename_i w x k h hw r e
    obtain ⟨p1, p2, p3⟩ := i.pc w _ hw
    have hh : handlingOf k (s.log ++ [.finished k h (some e)]) = handledUpTo w k h ++ [.started k h, .finished k h (some e)] := by
      rw [handlingOf_append, p3]; simp [handlingOf, about]
    refine i.move (k := k) hw (Nat.le_refl _) i.head ?_ (Or.inl rfl) (Or.inl p1) ?_ ?_ ?_
    · intro k' hk'; simp [handlingOf, about, Ne.symm hk']
    · exact Or.inr ⟨w, h, Or.inr ⟨p2, Or.inr ⟨e, hh⟩⟩⟩
    · exact ⟨p1, h, p2, hh⟩
    · rw [takenOf_append, i.taken]; simp [takenOf]
  · exact i.other (fun _ => rfl) rfl s.items (Nat.le_refl _) s.queueClosed s.sent
  · exact i.other (fun _ => rfl) rfl s.items (Nat.le_refl _) s.queueClosed _
  · exact i.other (fun _ => rfl) rfl s.items (Nat.le_refl _) s.queueClosed s.sent

theorem Inv.reach {N H : Nat} {s : State ε} (h : Reachable N H s) : Inv N H s := ReachFrom.inv (fun _ _ _ => Inv.step) h (Inv.new N H)

theorem started_lt {N H : Nat} {s : State ε} (h : Reachable N H s) {k j : Nat} (hm : .started k j ∈ s.log) : j < H := by
  have hm' : .started k j ∈ handlingOf k s.log := List.mem_filter.2 ⟨hm, by simp [about]⟩
  have key : ∀ w n, (.started k j : Event ε) ∈ handledUpTo w k n → j < n := by
    intro w n hx
    simpa [handledUpTo] using hx
  rcases (Inv.reach h).shape k with e | ⟨w, n, ⟨e, hn⟩ | ⟨hn, e | ⟨x, e⟩⟩⟩ <;> rw [e] at hm'
  · cases hm'
  · have := key w n hm'; omega
  · rcases List.mem_append.1 hm' with hm' | hm'
    · have := key w n hm'; omega
    · simp at hm'; omega
  · rcases List.mem_append.1 hm' with hm' | hm'
    · have := key w n hm'; omega
    · simp at hm'; omega

/-! ### Responses -/

structure SendInv (s : State ε) : Prop where
  started : ∀ k j n d, .sendOk k j n d ∈ s.log → .started k j ∈ s.log ∧ ∃ it, s.items[k]? = some it ∧ it.msg.nonce = n
  nodup : ∀ k it, s.items[k]? = some it → it.msg.isRequest = true → (respondersOf k s.log).Nodup
  sent : ∀ k j, s.sent k j = true → j ∈ respondersOf k s.log
  marked : ∀ k it j, s.items[k]? = some it → it.msg.isRequest = true → j ∈ respondersOf k s.log → s.sent k j = true

theorem mem_respondersOf {k j : Nat} {log : List (Event ε)} : j ∈ respondersOf k log ↔ ∃ n d, .sendOk k j n d ∈ log := by
  unfold respondersOf
  rw [List.mem_filterMap]
  constructor
  · rintro ⟨e, h1, h2⟩
    cases e <;> simp at h2
    obtain ⟨rfl, rfl⟩ := h2
    exact ⟨_, _, h1⟩
  · rintro ⟨n, d, h⟩
    exact ⟨_, h, by simp⟩

theorem getElem?_append_some {α : Type} {l l' : List α} {k : Nat} {a : α} (h : l[k]? = some a) : (l ++ l')[k]? = some a := by
  rw [List.getElem?_append_left (List.getElem?_eq_some_iff.1 h).1, h]

theorem SendInv.new (N H : Nat) : SendInv (State.new (ε := ε) N H) := by
  constructor <;> simp [State.new, respondersOf]

theorem SendInv.quiet {s s' : State ε} (i : SendInv s) {es : List (Event ε)} (h1 : s'.items = s.items) (h2 : s'.sent = s.sent) (h3 : s'.log = s.log ++ es)
    (h4 : ∀ k, respondersOf k es = []) : SendInv s' := by
  have hr : ∀ k, respondersOf k s'.log = respondersOf k s.log := by intro k; rw [h3, respondersOf_append, h4, List.append_nil]
  constructor
  · intro k j n d hm
    rw [h3] at hm
    rcases List.mem_append.1 hm with hm | hm
    · rw [h1, h3]; obtain ⟨a, b⟩ := i.started k j n d hm
      exact ⟨List.mem_append_left _ a, b⟩
    · have : j ∈ respondersOf k es := mem_respondersOf.2 ⟨n, d, hm⟩
      rw [h4] at this; cases this
  · intro k it hk hq; rw [hr]; rw [h1] at hk; exact i.nodup k it hk hq
  · intro k j; rw [hr, h2]; exact i.sent k j
  · intro k it j hk hq; rw [hr, h2]; rw [h1] at hk; exact i.marked k it j hk hq

theorem hasStarted_iff {s : State ε} {k h : Nat} : s.hasStarted k h = true ↔ .started k h ∈ s.log := by
  unfold State.hasStarted
  rw [List.any_eq_true]
  constructor
  · rintro ⟨e, h1, h2⟩
    cases e <;> simp at h2
    obtain ⟨rfl, rfl⟩ := h2
    exact h1
  · intro hm; exact ⟨_, hm, by simp⟩

theorem SendInv.step {s s' : State ε} {a : Action ε} (i : SendInv s) (hs : step s a = some s') : SendInv s' := by
  wk_cases a hs
  case enqueue it _ _ =>
    have new : ∀ k x, (s.items ++ [it])[k]? = some x → s.items[k]? = some x ∨ (k = s.items.length ∧ respondersOf k s.log = []) := by
      intro k x hk
      rcases Nat.lt_or_ge k s.items.length with hlt | hge
      · left; rwa [List.getElem?_append_left hlt] at hk
      · right
        have hlt : k < (s.items ++ [it]).length := (List.getElem?_eq_some_iff.1 hk).1
        refine ⟨by simp at hlt; omega, ?_⟩
        apply Classical.byContradiction
        intro hne
        obtain ⟨j, hj⟩ := List.exists_mem_of_ne_nil _ hne
        obtain ⟨n, d, hm⟩ := mem_respondersOf.1 hj
        obtain ⟨_, y, hy, _⟩ := i.started k j n d hm
        have := (List.getElem?_eq_some_iff.1 hy).1
        omega
    constructor
    · intro k j n d hm
      obtain ⟨h1, y, h2, h3⟩ := i.started k j n d hm
      exact ⟨h1, y, getElem?_append_some h2, h3⟩
    · intro k x hk hq
      rcases new k x hk with h | ⟨_, h⟩
      · exact i.nodup k x h hq
      · show (respondersOf k s.log).Nodup
        rw [h]; exact List.nodup_nil
    · exact i.sent
    · intro k x j hk hq hj
      rcases new k x hk with h | ⟨_, h⟩
      · exact i.marked k x j h hq hj
      · have hj : j ∈ respondersOf k s.log := hj
        rw [h] at hj; cases hj
  case closeQueue _ => exact i.quiet (es := []) rfl rfl (by simp) (fun _ => rfl)
  · exact i.quiet rfl rfl rfl (fun _ => rfl)
  · exact i.quiet rfl rfl rfl (fun _ => rfl)
  · exact i.quiet rfl rfl rfl (fun _ => rfl)
  · exact i.quiet rfl rfl rfl (fun _ => rfl)
  · exact i.quiet rfl rfl rfl (fun _ => rfl)
  · exact i.quiet rfl rfl rfl (fun _ => rfl)
  · exact i.quiet rfl rfl rfl (fun _ => rfl)
  · exact i.quiet rfl rfl rfl (fun _ => rfl)
  · exact i.quiet rfl rfl rfl (fun _ => rfl)
  · rename_i k h d x it hit hst hreq hsent
    have hst := hasStarted_iff.1 hst
    have hnot : h ∉ respondersOf k s.log := fun hm => hsent (i.marked k it h hit hreq hm)
    have hr : ∀ k', respondersOf k' [(.sendOk k h it.msg.nonce d : Event ε)] = if k = k' then [h] else [] := by
      intro k'; by_cases e : k = k' <;> simp [respondersOf, e]
    constructor
    · intro k' j n d' hm
      rcases List.mem_append.1 hm with hm | hm
      · obtain ⟨a, b⟩ := i.started k' j n d' hm
        exact ⟨List.mem_append_left _ a, b⟩
      · simp only [List.mem_singleton, Event.sendOk.injEq] at hm
        obtain ⟨rfl, rfl, rfl, rfl⟩ := hm
        exact ⟨List.mem_append_left _ hst, it, hit, rfl⟩
    · intro k' y hk hq
      show (respondersOf k' (s.log ++ _)).Nodup
      rw [respondersOf_append, hr]
      split
      · rename_i e; subst e
        rw [List.nodup_append]
        refine ⟨i.nodup _ _ hk hq, by simp, ?_⟩
        intro a ha b hb
        simp only [List.mem_singleton] at hb
        subst hb
        rintro rfl
        exact hnot ha
      · rw [List.append_nil]; exact i.nodup k' y hk hq
    · intro k' j hj
      show j ∈ respondersOf k' (s.log ++ _)
      rw [respondersOf_append, hr]
      simp only at hj
      split at hj
      · rename_i e; obtain ⟨rfl, rfl⟩ := e; simp
      · exact List.mem_append_left _ (i.sent k' j hj)
    · intro k' y j hk hq hj
      have hj : j ∈ respondersOf k' (s.log ++ [_]) := hj
      rw [respondersOf_append, hr] at hj
      show (if k' = k ∧ j = h then true else s.sent k' j) = true
      split
      · rfl
      · rename_i hne
        rcases List.mem_append.1 hj with hj' | hj'
        · exact i.marked k' y j hk hq hj'
        · split at hj'
          · rename_i e; subst e
            exact absurd ⟨rfl, List.mem_singleton.1 hj'⟩ hne
          · cases hj'
  · rename_i k h d x it hit hst hreq
    have hst := hasStarted_iff.1 hst
    have hr : ∀ k' y, s.items[k']? = some y → y.msg.isRequest = true → respondersOf k' [(.sendOk k h it.msg.nonce d : Event ε)] = [] := by
      intro k' y hk hq
      by_cases e : k = k'
      · subst e; rw [hit] at hk; injection hk with hk; subst hk; exact absurd hq hreq
      · simp [respondersOf, e]
    constructor
    · intro k' j n d' hm
      rcases List.mem_append.1 hm with hm | hm
      · obtain ⟨a, b⟩ := i.started k' j n d' hm
        exact ⟨List.mem_append_left _ a, b⟩
      · simp only [List.mem_singleton, Event.sendOk.injEq] at hm
        obtain ⟨rfl, rfl, rfl, rfl⟩ := hm
        exact ⟨List.mem_append_left _ hst, it, hit, rfl⟩
    · intro k' y hk hq
      show (respondersOf k' (s.log ++ _)).Nodup
      rw [respondersOf_append, hr k' y hk hq, List.append_nil]; exact i.nodup k' y hk hq
    · intro k' j hj
      show j ∈ respondersOf k' (s.log ++ _)
      rw [respondersOf_append]
      exact List.mem_append_left _ (i.sent k' j hj)
    · intro k' y j hk hq hj
      have hj : j ∈ respondersOf k' (s.log ++ [_]) := hj
      rw [respondersOf_append, hr k' y hk hq, List.append_nil] at hj
      exact i.marked k' y j hk hq hj

theorem SendInv.reach {N H : Nat} {s : State ε} (h : Reachable N H s) : SendInv s :=
  ReachFrom.ind (P := SendInv) (SendInv.new N H) (fun _ _ _ _ i hs => i.step hs) h

/-! ### Failures -/

/-- The worker is lost: it has seen a handler error. -/
def Pc.lost : Pc ε → Bool
  | .failing _ _ | .closing _ => true
  | .ended b => b
  | _ => false

theorem countP_set {α : Type} (p : α → Bool) {l : List α} {w : Nat} {a b : α} (h : l[w]? = some a) :
    (l.set w b).countP p + (if p a then 1 else 0) = l.countP p + (if p b then 1 else 0) := by
  induction l generalizing w with
  | nil => cases h
  | cons x l ih =>
    cases w with
    | zero =>
      simp only [List.getElem?_cons_zero, Option.some.injEq] at h
      subst h
      simp only [List.set_cons_zero, List.countP_cons]
      omega
    | succ w =>
      simp only [List.getElem?_cons_succ] at h
      simp only [List.set_cons_succ, List.countP_cons]
      have := ih h
      omega

theorem lost_set {l : List (Pc ε)} {w : Nat} {p p' : Pc ε} {c : Nat} (hw : l[w]? = some p)
    (hc : (if p.lost then 1 else 0) + c = if p'.lost then 1 else 0) : l.countP Pc.lost + c = (l.set w p').countP Pc.lost := by
  have := countP_set Pc.lost (b := p') hw
  omega

theorem lost_step {s s' : State ε} {a : Action ε} (h : failures s.log = s.workers.countP Pc.lost) (hs : step s a = some s') :
    failures s'.log = s'.workers.countP Pc.lost := by
  wk_cases a hs
  case enqueue => exact h
  case closeQueue => exact h
  all_goals try (simp only [failures_append]; rw [h]; rfl)
  all_goals
    rename s.workers[_]? = some _ => hw
    simp only [State.setWorker, failures_append, h]
    exact lost_set hw rfl

theorem lost_reach {N H : Nat} {s : State ε} (h : Reachable N H s) : failures s.log = s.workers.countP Pc.lost :=
  ReachFrom.inv (P := fun s => failures s.log = s.workers.countP Pc.lost) (fun _ _ _ => lost_step) h (by
    simp [State.new, failures, Pc.lost, List.countP_replicate])

/-- Workers end without an error only when the queue is closed. -/
theorem ended_reach {N H : Nat} {s : State ε} (h : Reachable N H s) : ∀ w : Nat, s.workers[w]? = some (.ended false) → s.queueClosed = true := by
  refine ReachFrom.inv (P := fun s : State ε => ∀ w : Nat, s.workers[w]? = some (.ended false) → s.queueClosed = true) ?_ h ?_
  · intro s a s' i hs
    have upd : ∀ (w : Nat) (p : Pc ε) es, (p = .ended false → s.queueClosed = true) →
        ∀ w' : Nat, (s.setWorker w p es).workers[w']? = some (.ended false) → s.queueClosed = true := by
      intro w p es hp w' hw'
      simp only [State.setWorker, List.getElem?_set] at hw'
      split at hw'
      · split at hw'
        · injection hw' with hw'; exact hp hw'
        · cases hw'
      · exact i w' hw'
    wk_cases a hs
    all_goals first
      | exact i
      | exact fun _ _ => rfl
      | (refine upd _ _ [] ?_; intro he; cases he; done)
      | (refine upd _ _ [] ?_; intro _; assumption)
  · intro w hw
    simp only [State.new, List.getElem?_replicate] at hw
    split at hw <;> simp at hw

/-- What follows a handler error: it is reported on the connection and the connection is closed, or the worker is about to do so. -/
def FailOK (s : State ε) : Prop := ∀ k h e, .finished k h (some e) ∈ s.log → ∃ it, s.items[k]? = some it ∧
  ((∃ w : Nat, s.workers[w]? = some (.failing k e)) ∨
   (.reported it.client e ∈ s.log ∧ ((∃ w : Nat, s.workers[w]? = some (.closing k)) ∨ .closed it.client ∈ s.log)))

theorem FailOK.step {N H : Nat} {s s' : State ε} {a : Action ε} (g : Inv N H s) (i : FailOK s) (hs : step s a = some s') : FailOK s' := by
  have same : ∀ {s' : State ε}, s'.items = s.items → s'.workers = s.workers → (∃ es, s'.log = s.log ++ es ∧ ∀ k h e, .finished k h (some e) ∉ es) → FailOK s' := by
    rintro s' h1 h2 ⟨es, h3, h4⟩ k h e hm
    rw [h3] at hm
    rcases List.mem_append.1 hm with hm | hm
    · obtain ⟨it, p1, p2⟩ := i k h e hm
      refine ⟨it, h1 ▸ p1, ?_⟩
      rw [h2, h3]
      rcases p2 with p2 | ⟨p2, p3 | p3⟩
      · exact Or.inl p2
      · exact Or.inr ⟨List.mem_append_left _ p2, Or.inl p3⟩
      · exact Or.inr ⟨List.mem_append_left _ p2, Or.inr (List.mem_append_left _ p3)⟩
    · exact absurd hm (h4 k h e)
  -- a worker that is not failing moves on
  have mv : ∀ {s' : State ε} {w : Nat} {p p' : Pc ε} {es : List (Event ε)}, s.workers[w]? = some p → s'.items = s.items → s'.workers = s.workers.set w p' →
      s'.log = s.log ++ es →
      (∀ k e it, p = .failing k e → s.items[k]? = some it → p' = .closing k ∧ .reported it.client e ∈ es) →
      (∀ k it, p = .closing k → s.items[k]? = some it → .closed it.client ∈ es) →
      (∀ k h e, .finished k h (some e) ∈ es → p' = .failing k e ∧ k < s.items.length) → FailOK s' := by
    intro s' w p p' es hw h1 h2 h3 hf hc hn k h e hm
    have hlt : w < s.workers.length := (List.getElem?_eq_some_iff.1 hw).1
    have at' : s'.workers[w]? = some p' := by rw [h2, List.getElem?_set_self hlt]
    have other : ∀ w', w' ≠ w → s'.workers[w']? = s.workers[w']? := fun w' e => by rw [h2, List.getElem?_set_ne (Ne.symm e)]
    rw [h3] at hm
    rcases List.mem_append.1 hm with hm | hm
    · obtain ⟨it, p1, p2⟩ := i k h e hm
      refine ⟨it, h1 ▸ p1, ?_⟩
      rcases p2 with ⟨w', p2⟩ | ⟨p2, ⟨w', p3⟩ | p3⟩
      · by_cases ew : w' = w
        · subst ew
          rw [hw] at p2; injection p2 with p2
          obtain ⟨q1, q2⟩ := hf k e it p2 p1
          exact Or.inr ⟨by rw [h3]; exact List.mem_append_right _ q2, Or.inl ⟨w', at'.trans (by rw [q1])⟩⟩
        · exact Or.inl ⟨w', (other w' ew).trans p2⟩
      · refine Or.inr ⟨by rw [h3]; exact List.mem_append_left _ p2, ?_⟩
        by_cases ew : w' = w
        · subst ew
          rw [hw] at p3; injection p3 with p3
          exact Or.inr (by rw [h3]; exact List.mem_append_right _ (hc k it p3 p1))
        · exact Or.inl ⟨w', (other w' ew).trans p3⟩
      · exact Or.inr ⟨by rw [h3]; exact List.mem_append_left _ p2, Or.inr (by rw [h3]; exact List.mem_append_left _ p3)⟩
    · obtain ⟨q1, q2⟩ := hn k h e hm
      refine ⟨s.items[k], by rw [h1]; exact List.getElem?_eq_getElem q2, Or.inl ⟨w, at'.trans (by rw [q1])⟩⟩
  wk_cases a hs
  case enqueue it _ _ =>
    intro k h e hm
    obtain ⟨x, p1, p2⟩ := i k h e hm
    exact ⟨x, getElem?_append_some p1, p2⟩
  case closeQueue _ => exact same rfl rfl ⟨[], by simp, by simp⟩
  · rename_i hw _; exact mv hw rfl rfl rfl (by simp) (by simp) (by simp)
  · rename_i hw _ _; exact mv hw rfl rfl rfl (by simp) (by simp) (by simp)
  · rename_i hw _; exact mv hw rfl rfl rfl (by simp) (by simp) (by simp)
  · rename_i hw _; exact mv hw rfl rfl rfl (by simp) (by simp) (by simp)
  · rename_i hw _ it hit
    refine mv hw rfl rfl rfl ?_ (by simp) (by simp)
    intro k e x hp hx
    injection hp with hp1 hp2
    subst hp1 hp2
    rw [hit] at hx; injection hx with hx; subst hx
    exact ⟨rfl, by simp⟩
  · rename_i hw _ it hit
    refine mv hw rfl rfl rfl (by simp) ?_ (by simp)
    intro k x hp hx
    injection hp with hp1
    subst hp1
    rw [hit] at hx; injection hx with hx; subst hx
    simp
  · rename_i hw _; exact mv hw rfl rfl rfl (by simp) (by simp) (by simp)
  · rename_i w _ k h hw _ e
    refine mv hw rfl rfl rfl (by simp) (by simp) ?_
    intro k' h' e' hm
    simp only [List.mem_singleton, Event.finished.injEq, Option.some.injEq] at hm
    obtain ⟨rfl, rfl, rfl⟩ := hm
    have := (g.pc w _ hw).1
    exact ⟨rfl, Nat.lt_of_lt_of_le this g.head⟩
  · exact same rfl rfl ⟨_, rfl, by simp⟩
  · exact same rfl rfl ⟨_, rfl, by simp⟩
  · exact same rfl rfl ⟨_, rfl, by simp⟩

theorem FailOK.reach {N H : Nat} {s : State ε} (h : Reachable N H s) : FailOK s :=
  ReachFrom.ind (P := FailOK) (by intro k h e hm; simp [State.new] at hm) (fun _ _ _ hr i hs => i.step (Inv.reach hr) hs) h

/-- Actions of worker `w` alone, with handlers that succeed. -/
def Action.ofWorker (w : Nat) (a : Action ε) : Prop := a = .work w ∨ a = .handlerReturn w none

/-- A worker that is neither lost nor ended can finish what it is doing. -/
theorem drain {s : State ε} {w : Nat} {p : Pc ε} (hw : s.workers[w]? = some p) (hl : p.lost = false) (he : p ≠ .ended false) :
    ∃ as s', (∀ a ∈ as, a.ofWorker w) ∧ runs step s as = some s' ∧ s'.workers[w]? = some .idle ∧ s'.items = s.items ∧ s'.head = s.head := by
  have set : ∀ {s : State ε} {q p : Pc ε} {es}, s.workers[w]? = some q → (s.setWorker w p es).workers[w]? = some p := by
    intro s q p es hq
    simp [State.setWorker, (List.getElem?_eq_some_iff.1 hq).1]
  have next : ∀ (d : Nat) (s : State ε) (k j : Nat), s.workers[w]? = some (.next k j) → s.numHandlers - j = d →
      ∃ as s', (∀ a ∈ as, a.ofWorker w) ∧ runs step s as = some s' ∧ s'.workers[w]? = some .idle ∧ s'.items = s.items ∧ s'.head = s.head := by
    intro d
    induction d with
    | zero =>
      intro s k j hs hd
      have e1 : step s (.work w) = some (s.setWorker w .idle []) := by simp only [step, hs]; rw [if_neg (by omega)]
      exact ⟨[.work w], _, by simp [Action.ofWorker], runs_one e1, set hs, rfl, rfl⟩
    | succ d ih =>
      intro s k j hs hd
      have e1 : step s (.work w) = some (s.setWorker w (.inside k j) [.started k j]) := by simp only [step, hs]; rw [if_pos (by omega)]
      have hs1 := set (p := .inside k j) (es := [.started k j]) hs
      have e2 : step (s.setWorker w (.inside k j) [.started k j]) (.handlerReturn w none) =
          some ((s.setWorker w (.inside k j) [.started k j]).setWorker w (.next k (j + 1)) [.finished k j none]) := by simp only [step, hs1]
      obtain ⟨as, s', h1, h2, h3, h4, h5⟩ := ih _ k (j + 1) (set (p := .next k (j + 1)) (es := [.finished k j none]) hs1) (by simp only [State.setWorker]; omega)
      refine ⟨.work w :: .handlerReturn w none :: as, s', ?_, by simp only [runs, e1, e2]; exact h2, h3, h4, h5⟩
      intro a ha
      simp only [List.mem_cons] at ha
      rcases ha with rfl | rfl | ha
      · exact Or.inl rfl
      · exact Or.inr rfl
      · exact h1 a ha
  cases p with
  | idle => exact ⟨[], s, by simp, rfl, hw, rfl, rfl⟩
  | next k j => exact next _ s k j hw rfl
  | inside k j =>
    have e2 : step s (.handlerReturn w none) = some (s.setWorker w (.next k (j + 1)) [.finished k j none]) := by simp only [step, hw]
    obtain ⟨as, s', h1, h2, h3, h4, h5⟩ := next _ _ k (j + 1) (set (p := .next k (j + 1)) (es := [.finished k j none]) hw) rfl
    refine ⟨.handlerReturn w none :: as, s', ?_, by simp only [runs, e2]; exact h2, h3, h4, h5⟩
    intro a ha
    rcases List.mem_cons.1 ha with rfl | ha
    · exact Or.inr rfl
    · exact h1 a ha
  | failing k e => cases hl
  | closing k => cases hl
  | ended b => cases b with
    | true => cases hl
    | false => exact absurd rfl he

end Noise.Wk
