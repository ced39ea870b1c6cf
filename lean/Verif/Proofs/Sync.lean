import Verif.Spec.Sync
import Verif.Model.NodeRace
import Verif.Proofs.TS
/-! # Lemmas on happens-before with atomics and channels -/
namespace Noise.Spec.Sync
variable {V A C : Type} [DecidableEq V] [DecidableEq A] [DecidableEq C]

theorem Edge.lt {cap : C → Nat} {tr : Trace V A C} {i j : Nat} (h : Edge cap tr i j) : i < j := by cases h <;> assumption

theorem HB.lt {cap : C → Nat} {tr : Trace V A C} {i j : Nat} (h : HB cap tr i j) : i < j := by
  induction h with
  | edge h => exact h.lt
  | trans _ _ h1 h2 => exact Nat.lt_trans h1 h2

/-- The atomic variable that an operation sets. -/
def Op.sets : Op V A C → Option A
  | .store a _ | .cas a _ _ => some a
  | _ => none

def Op.observes : Op V A C → Option A
  | .load a _ | .cas a _ _ => some a
  | _ => none

omit [DecidableEq V] [DecidableEq A] [DecidableEq C] in
theorem sets_iff {a : A} {o : Op V A C} : o.Sets a ↔ o.sets = some a := by
  cases o <;> simp [Op.Sets, Op.sets, eq_comm]

omit [DecidableEq V] [DecidableEq A] [DecidableEq C] in
theorem observes_iff {a : A} {o : Op V A C} : o.Observes a ↔ o.observes = some a := by
  cases o <;> simp [Op.Observes, Op.observes, eq_comm]

/-- `Edge`, computed. -/
def edge (cap : C → Nat) (tr : Trace V A C) (i j : Nat) : Bool :=
  match tr[i]?, tr[j]? with
  | some e, some f => decide (i < j) && (decide (e.tid = f.tid) ||
    (match e.op with | .go u => decide (u = f.tid) | _ => false) ||
    (e.op.sets.isSome && decide (e.op.sets = f.op.observes) && ((tr.take j).drop (i + 1)).all (fun g => decide (g.op.sets ≠ e.op.sets))) ||
    (match e.op, f.op with
      | .send c, .take d => decide (c = d) && decide (before tr i (.send c) = before tr j (.take c))
      | .take c, .send d => decide (c = d) && decide (before tr i (.take c) + cap c = before tr j (.send c))
      | .close c, .recv d => decide (c = d)
      | .done, .wait => true
      | _, _ => false))
  | _, _ => false

theorem Edge.edge {cap : C → Nat} {tr : Trace V A C} {i j : Nat} (h : Edge cap tr i j) : edge cap tr i j = true := by
  unfold Sync.edge
  cases h with
  | po h1 h2 h3 => simp [h1, h2, h3]
  | go_start h1 h2 h3 => simp [h1, h2, h3]
  | @atomic t u o p a h1 h2 h3 h4 h5 h6 =>
    rw [sets_iff] at h4
    rw [observes_iff] at h5
    have h7 : ((tr.take j).drop (i + 1)).all (fun g => decide (g.op.sets ≠ some a)) = true := by
      rw [List.all_eq_true]
      intro g hg
      obtain ⟨k, hk⟩ := List.mem_iff_getElem?.1 hg
      rw [List.getElem?_drop] at hk
      have hlt : i + 1 + k < j := by
        by_contra hn
        rw [List.getElem?_take, if_neg hn] at hk; cases hk
      rw [List.getElem?_take, if_pos hlt] at hk
      have := h6 (i + 1 + k) g.tid g.op (by omega) hlt hk
      rw [sets_iff] at this
      simpa using this
    simp only [h1, h2, h4, h5, h3, decide_true, Option.isSome_some, Bool.true_and, h7, Bool.or_true, Bool.true_or]
  | send_take h1 h2 h3 h4 => simp [h1, h2, h3, h4]
  | take_send h1 h2 h3 h4 => simp [h1, h2, h3, h4]
  | close_recv h1 h2 h3 => simp [h1, h2, h3]
  | done_wait h1 h2 h3 => simp [h1, h2, h3]

theorem Edge.bound {cap : C → Nat} {tr : Trace V A C} {i j : Nat} (h : Edge cap tr i j) : j < tr.length := by
  have := h.edge
  unfold Sync.edge at this
  split at this
  · next h2 => exact (List.getElem?_eq_some_iff.1 h2).1
  · cases this

/-- A set of events that is closed under `Edge`, as computed, has everything that happens after one of them. -/
theorem not_hb {cap : C → Nat} {tr : Trace V A C} (S : Nat → Bool) (hS : ∀ i < tr.length, ∀ j < tr.length, S i = true → edge cap tr i j = true → S j = true) {i j : Nat} (hi : S i = true) (hj : S j = false) : ¬ HB cap tr i j := by
  intro h
  have : S i = true → S j = true := by
    clear hi hj
    induction h with
    | edge h => exact fun hi => hS _ (Nat.lt_trans h.lt h.bound) _ h.bound hi h.edge
    | trans _ _ h1 h2 => exact fun hi => h2 (h1 hi)
  rw [this hi] at hj; cases hj

end Noise.Spec.Sync

namespace Noise.NodeRace
open Noise.Spec.Sync

/-! ## Order within a goroutine -/

theorem mem_opsOf {tr : NTrace} {i t : Nat} {o : NOp} (h : tr[i]? = some (⟨t, o⟩ : NEv)) : o ∈ opsOf t tr :=
  List.mem_map.2 ⟨⟨t, o⟩, List.mem_filter.2 ⟨List.mem_of_getElem? h, by simp⟩, rfl⟩

theorem pair_sublist {α : Type} {l : List α} {i j : Nat} {a b : α} (hi : l[i]? = some a) (hj : l[j]? = some b) (h : i < j) : [a, b].Sublist l := by
  obtain ⟨hi', rfl⟩ := List.getElem?_eq_some_iff.1 hi
  obtain ⟨hj', rfl⟩ := List.getElem?_eq_some_iff.1 hj
  have h1 : l = l.take j ++ l.drop j := (List.take_append_drop j l).symm
  have h2 : [l[i]].Sublist (l.take j) := List.singleton_sublist.2 (List.mem_take_iff_getElem.2 ⟨i, by omega, rfl⟩)
  have h3 : [l[j]].Sublist (l.drop j) := by rw [List.drop_eq_getElem_cons hj']; exact (List.nil_sublist _).cons_cons _
  have := h2.append h3
  rw [← h1] at this
  exact this

/-- Two operations of a goroutine are in the order of its program. -/
theorem pair_ops {tr : NTrace} {i j t : Nat} {o p : NOp} (hi : tr[i]? = some (⟨t, o⟩ : NEv)) (hj : tr[j]? = some (⟨t, p⟩ : NEv)) (h : i < j) : [o, p].Sublist (opsOf t tr) := by
  have := ((pair_sublist hi hj h).filter (fun e : NEv => e.tid = t)).map Ev.op
  simpa [opsOf] using this

/-- In a program the first part of which has no `o` and the second part no `p`, no `p` comes after an `o`. -/
theorem no_pair {A B q : List NOp} {o p : NOp} (hA : o ∉ A) (hB : p ∉ B) (hne : q <+: A ++ B) (h : [o, p].Sublist q) : False := by
  have h := h.trans hne.sublist
  obtain ⟨l1, l2, h1, h2, h3⟩ := List.sublist_append_iff.1 h
  cases l1 with
  | nil =>
    rw [List.nil_append] at h1
    exact hB (h3.subset (by rw [← h1]; simp))
  | cons x l1 =>
    have : o = x := by simpa using congrArg List.head? h1
    exact hA (h2.subset (by rw [this]; simp))

/-- Every `y` of the program comes after an `x`. -/
def Precedes (x y : NOp) (p : List NOp) : Prop := ∀ a b, p = a ++ y :: b → x ∈ a

theorem Precedes.of_not_mem {x y : NOp} {p : List NOp} (h : y ∉ p) : Precedes x y p := fun a b hp => absurd (by rw [hp]; simp) h

theorem Precedes.append {x y : NOp} {p q : List NOp} (hp : Precedes x y p) (hq : Precedes x y q) : Precedes x y (p ++ q) := by
  intro a b h
  rcases List.append_eq_append_iff.1 h with ⟨c, rfl, h2⟩ | ⟨c, h1, h2⟩
  · exact List.mem_append_right _ (hq c b h2)
  · cases c with
    | nil =>
      rw [List.append_nil] at h1
      have := hq [] b (by simpa using h2.symm)
      cases this
    | cons z c =>
      simp only [List.cons_append, List.cons.injEq] at h2
      obtain ⟨rfl, -⟩ := h2
      exact hp a c h1

theorem Precedes.flatMap {α : Type} {x y : NOp} {f : α → List NOp} {l : List α} (h : ∀ a ∈ l, Precedes x y (f a)) : Precedes x y (l.flatMap f) := by
  induction l with
  | nil => exact .of_not_mem (by simp)
  | cons a l ih => rw [List.flatMap_cons]; exact (h a List.mem_cons_self).append (ih fun b hb => h b (List.mem_cons_of_mem _ hb))

theorem Precedes.before {x y : NOp} {p : List NOp} (h : Precedes x y p) {tr : NTrace} {t j : Nat} (htr : opsOf t tr <+: p) (hj : tr[j]? = some (⟨t, y⟩ : NEv)) : ∃ i, i < j ∧ tr[i]? = some (⟨t, x⟩ : NEv) := by
  obtain ⟨hj', hj⟩ := List.getElem?_eq_some_iff.1 hj
  have h1 : tr = tr.take j ++ (⟨t, y⟩ : NEv) :: tr.drop (j + 1) := by
    rw [← hj, ← List.drop_eq_getElem_cons hj', List.take_append_drop]
  obtain ⟨q, hq⟩ := htr
  rw [h1] at hq
  have h2 : p = opsOf t (tr.take j) ++ y :: (opsOf t (tr.drop (j + 1)) ++ q) := by
    rw [← hq]; simp [opsOf]
  have h3 := h _ _ h2
  obtain ⟨e, he, ho⟩ := List.mem_map.1 h3
  obtain ⟨he, ht⟩ := List.mem_filter.1 he
  obtain ⟨i, hi, hi'⟩ := List.mem_take_iff_getElem.1 he
  refine ⟨i, by omega, ?_⟩
  rw [List.getElem?_eq_getElem (by omega), hi']
  congr 1
  cases e
  simp at ht ho
  simp [ht, ho]

/-! ## States along an execution -/

theorem runs_split {S B : Type} {f : S → B → Option S} {s s' : S} {l : List B} (h : runs f s l = some s') {i : Nat} {e : B} (hi : l[i]? = some e) : ∃ s1 s2, runs f s (l.take i) = some s1 ∧ f s1 e = some s2 := by
  obtain ⟨hi', rfl⟩ := List.getElem?_eq_some_iff.1 hi
  rw [← List.take_append_drop i l, List.drop_eq_getElem_cons hi', runs_append] at h
  obtain ⟨s1, h1, h2⟩ := Option.bind_eq_some_iff.1 h
  obtain ⟨s2, h3, -⟩ := runs_cons h2
  exact ⟨s1, s2, h1, h3⟩

theorem exec_started {n : Nat} {s s' : Sync} {e : NEv} (h : exec n s e = some s') : s.started e.tid = true ∧ ∀ t, s'.started t = true → s.started t = true ∨ e.op = .go t := by
  unfold exec at h
  split at h
  · next hs =>
    refine ⟨hs, fun t ht => ?_⟩
    split at h <;> (try split at h) <;> first
      | (cases h; done)
      | (cases h; exact .inl ht)
      | skip
    next u ho _ =>
      cases h
      by_cases hu : t = u
      · exact .inr (by rw [ho, hu])
      · simp only [hu, if_false] at ht; exact .inl ht
  · cases h

/-- Who is not there from the beginning has been started. -/
theorem started_by {n : Nat} {root : Nat → Bool} {tr : NTrace} {s : Sync} (h : runs (exec n) (Sync.init root) tr = some s) (t : Nat) (ht : s.started t = true) : root t = true ∨ ∃ k u : Nat, tr[k]? = some (⟨u, .go t⟩ : NEv) := by
  induction tr using List.reverseRecOn generalizing s with
  | nil => cases h; exact .inl ht
  | append_singleton l e ih =>
    rw [runs_append] at h
    obtain ⟨s1, h1, h2⟩ := Option.bind_eq_some_iff.1 h
    obtain ⟨s2, h3, h4⟩ := runs_cons h2
    cases h4
    rcases (exec_started h3).2 t ht with h5 | h5
    · rcases ih h1 h5 with h6 | ⟨k, u, h6⟩
      · exact .inl h6
      · exact .inr ⟨k, u, by rw [List.getElem?_append_left (List.getElem?_eq_some_iff.1 h6).1]; exact h6⟩
    · exact .inr ⟨l.length, e.tid, by simp [← h5]⟩

theorem go_before {n : Nat} {root : Nat → Bool} {tr : NTrace} {s : Sync} (h : runs (exec n) (Sync.init root) tr = some s) {j t : Nat} {o : NOp} (hj : tr[j]? = some (⟨t, o⟩ : NEv)) (hr : root t = false) :
    ∃ k u : Nat, k < j ∧ tr[k]? = some (⟨u, .go t⟩ : NEv) := by
  obtain ⟨s1, s2, h1, h2⟩ := runs_split h hj
  rcases started_by h1 t (exec_started h2).1 with h3 | ⟨k, u, h3⟩
  · rw [h3] at hr; cases hr
  · have hk : k < j := by
      by_contra hn
      rw [List.getElem?_take, if_neg hn] at h3; cases h3
    rw [List.getElem?_take, if_pos hk] at h3
    exact ⟨k, u, hk, h3⟩

/-- If the node listens, the last operation that has set `listening` has set it to true. -/
theorem set_by {n : Nat} {root : Nat → Bool} {tr : NTrace} {s : Sync} (h : runs (exec n) (Sync.init root) tr = some s) (hl : s.listening = true) :
    ∃ (k u : Nat) (o : NOp), tr[k]? = some (⟨u, o⟩ : NEv) ∧ (o = .store () true ∨ ∃ x, o = .cas () x true) ∧ ∀ (m w : Nat) (q : NOp), k < m → tr[m]? = some (⟨w, q⟩ : NEv) → ¬ q.Sets () := by
  induction tr using List.reverseRecOn generalizing s with
  | nil => cases h; cases hl
  | append_singleton l e ih =>
    rw [runs_append] at h
    obtain ⟨s1, h1, h2⟩ := Option.bind_eq_some_iff.1 h
    obtain ⟨s2, h3, h4⟩ := runs_cons h2
    cases h4
    by_cases hset : e.op.sets = some ()
    · refine ⟨l.length, e.tid, e.op, by simp, ?_, ?_⟩
      · unfold exec at h3
        split at h3
        · cases ho : e.op <;> rw [ho] at hset h3 <;> simp only [Op.sets, reduceCtorEq] at hset <;> simp only at h3
          · cases h3; simp only at hl; subst hl; exact .inl rfl
          · split at h3 <;> cases h3
            simp only at hl; subst hl; exact .inr ⟨_, rfl⟩
        · cases h3
      · intro m w q hm hq
        rw [List.getElem?_eq_none (by simp; omega)] at hq; cases hq
    · have hs1 : s1.listening = true := by
        unfold exec at h3
        split at h3
        · split at h3 <;> (try split at h3) <;> first
            | (cases h3; done)
            | (cases h3; exact hl)
            | skip
          · next ho => rw [ho] at hset; exact absurd rfl hset
          · next ho _ => rw [ho] at hset; exact absurd rfl hset
        · cases h3
      obtain ⟨k, u, o, hk, ho, hq⟩ := ih h1 hs1
      refine ⟨k, u, o, by rw [List.getElem?_append_left (List.getElem?_eq_some_iff.1 hk).1]; exact hk, ho, ?_⟩
      intro m w q hm hmq
      by_cases hml : m < l.length
      · rw [List.getElem?_append_left hml] at hmq; exact hq m w q hm hmq
      · have : m = l.length := by
          have := (List.getElem?_eq_some_iff.1 hmq).1
          simp at this; omega
        subst this
        simp at hmq
        subst hmq
        rw [sets_iff]; exact hset

/-- A compare-and-swap that finds the node listening is ordered after the operation that made it so. -/
theorem cas_after {n : Nat} {root : Nat → Bool} {tr : NTrace} {s : Sync} (h : runs (exec n) (Sync.init root) tr = some s) {j t : Nat} {x : Bool} (hj : tr[j]? = some (⟨t, .cas () true x⟩ : NEv)) :
    ∃ (k u : Nat) (o : NOp), tr[k]? = some (⟨u, o⟩ : NEv) ∧ (o = .store () true ∨ ∃ x, o = .cas () x true) ∧ Edge (cap n) tr k j := by
  obtain ⟨s1, s2, h1, h2⟩ := runs_split h hj
  have hl : s1.listening = true := by
    unfold exec at h2
    split at h2
    · simp only at h2; split at h2 <;> [assumption; cases h2]
    · cases h2
  obtain ⟨k, u, o, h3, h4, h5⟩ := set_by h1 hl
  have hk : k < j := by
    by_contra hn
    rw [List.getElem?_take, if_neg hn] at h3; cases h3
  rw [List.getElem?_take, if_pos hk] at h3
  refine ⟨k, u, o, h3, h4, .atomic (a := ()) h3 hj hk ?_ (.inr ⟨_, _, rfl⟩) ?_⟩
  · rcases h4 with rfl | ⟨x, rfl⟩
    · exact .inl ⟨_, rfl⟩
    · exact .inr ⟨_, _, rfl⟩
  · intro m w q hm hmj hq
    exact h5 m w q hm (by rw [List.getElem?_take, if_pos hmj]; exact hq)

end Noise.NodeRace
