import Verif.Model.PoolLock
import Verif.Proofs.TS
import Mathlib.Data.List.Nodup
import Mathlib.Data.List.Perm.Subperm
/-! # Invariants of the pool and its mutex -/
namespace Noise.PoolLock

structure Inv (s : State) : Prop where
  /-- pooled clients have not run their deferred `remove` -/
  pooled : ∀ a c, (a, c) ∈ s.pool → s.clients[c]? = some (a, .live) ∨ s.clients[c]? = some (a, .removing)
  nodup : (s.pool.map Prod.fst).Nodup
  locked : ∀ t, s.lock = some t → ∃ v a b, s.callers t = .evicting v a ∧ (s.clients[v]? = some (b, .live) ∨ s.clients[v]? = some (b, .removing))
  evicting : ∀ t v a, s.callers t = .evicting v a → s.lock = some t
  bound : s.pool.length ≤ s.max ∧ (s.lock.isSome → s.pool.length < s.max)

theorem Inv.new (max : Nat) : Inv (State.new max) := by
  constructor <;> simp [State.new]

macro "pl_cases " a:ident hs:ident : tactic => `(tactic| (
  cases $a:ident <;> simp only [step, State.setCaller, State.push] at $hs:ident <;>
  (repeat' (split at $hs:ident)) <;> (try (cases $hs:ident; done)) <;> (try (injection $hs:ident with $hs:ident; subst $hs:ident))))

theorem Inv.step {s s' : State} {a : Action} (i : Inv s) (hs : step s a = some s') : Inv s' := by
  have ⟨h1, h2, h3, h4, h5, h6⟩ := i
  have hf : ∀ a, ((s.pool.filter (fun q => q.1 ≠ a)).map Prod.fst).Nodup := fun a => h2.sublist (List.filter_sublist.map _)
  have hd : ((s.pool.dropLast).map Prod.fst).Nodup := h2.sublist ((List.dropLast_sublist _).map _)
  have hfl : ∀ a, (s.pool.filter (fun q => q.1 ≠ a)).length ≤ s.pool.length := fun a => List.length_filter_le _ _
  pl_cases a hs
  · constructor <;> grind
  · rename_i t _ _ a hw hlk _ p hp
    have e := List.find?_some hp
    have m := List.mem_of_find?_eq_some hp
    have hlt : (s.pool.filter (fun q => q.1 ≠ a)).length < s.pool.length := by
      apply List.length_filter_lt_length_iff_exists.2
      refine ⟨p, m, ?_⟩
      simp only [decide_eq_true_eq] at e
      simp [e]
    constructor
    · grind
    · simp only [List.map_cons, List.nodup_cons]
      exact ⟨by grind, hf a⟩
    · grind
    · grind
    · simp only [List.length_cons]; grind
  · rename_i t _ _ a hw hlk _ hp hmx _ v hv
    have m := List.mem_of_getLast? hv
    have hne : 0 < s.pool.length := List.length_pos_of_mem m
    have hsub : ∀ x ∈ s.pool.dropLast, x ∈ s.pool := fun x h => List.dropLast_subset _ h
    constructor
    · grind
    · exact hd
    · intro u hu
      simp only [Option.some.injEq] at hu
      subst hu
      obtain ⟨b, c⟩ := v
      exact ⟨c, a, b, by simp, h1 b c m⟩
    · grind
    · simp only [List.length_dropLast]; exact ⟨by omega, fun _ => by omega⟩
  · rename_i t _ _ a hw hlk _ hp hmx
    have hn : ∀ x ∈ s.pool, x.1 ≠ a := by
      intro x hx
      have := List.find?_eq_none.1 hp x hx
      simpa using this
    constructor
    · grind
    · simp only [List.map_cons, List.nodup_cons]
      exact ⟨by grind, h2⟩
    · grind
    · grind
    · simp only [List.length_cons]; grind
  · grind
  · constructor
    · grind
    · exact h2
    · grind
    · exact h4
    · exact ⟨h5, h6⟩
  · rename_i c a hc hl
    constructor
    · grind
    · exact hf _
    · grind
    · grind
    · simp only; grind
  · constructor
    · grind
    · exact h2
    · grind
    · exact h4
    · exact ⟨h5, h6⟩
  · constructor <;> grind
  · constructor
    · simp
    · simp
    · exact h3
    · exact h4
    · simp only [List.length_nil]; grind

theorem Inv.reach {max : Nat} {s : State} (h : Reach max s) : Inv s := ReachFrom.inv (fun _ _ _ i hs => i.step hs) h (Inv.new max)

theorem max_reach {max : Nat} {s : State} (h : Reach max s) : s.max = max := by
  refine ReachFrom.inv (P := fun s => s.max = max) ?_ h rfl
  intro s a s' e hs
  pl_cases a hs <;> exact e

/-- Once a goroutine waits for an evicted client, it waits forever with the mutex held, and no operation on the pool returns any more. -/
def Stuck (t : Nat) (log : List Event) (s : State) : Prop := Inv s ∧ s.lock = some t ∧ s.log = log

theorem Stuck.step {t : Nat} {log : List Event} {s s' : State} {a : Action} (h : Stuck t log s) (hs : PoolLock.step s a = some s') : Stuck t log s' := by
  obtain ⟨i, hl, hlog⟩ := h
  refine ⟨i.step hs, ?_⟩
  obtain ⟨v, x, b, hv, hc⟩ := i.locked t hl
  have h4 := i.evicting
  pl_cases a hs <;> grind

/-- Addresses requested so far. -/
def Within (S : List Nat) (s : State) : Prop := (∀ p ∈ s.pool, p.1 ∈ S) ∧ (∀ t a, s.callers t = .want a → a ∈ S) ∧ s.lock = none

def Action.within (S : List Nat) : Action → Prop
  | .call _ a => a ∈ S
  | _ => True

theorem Within.step {S : List Nat} {s s' : State} {a : Action} (hlen : S.length ≤ s.max) (i : Inv s) (h : Within S s) (ha : a.within S)
    (hs : PoolLock.step s a = some s') : Within S s' := by
  obtain ⟨h1, h2, h3⟩ := h
  have h4 := i.evicting
  unfold Within
  pl_cases a hs <;> simp only [Action.within] at ha
  · grind
  · grind
  · rename_i t _ _ a hw hlk _ hp hmx _ v hv
    exfalso
    have hn : a ∉ s.pool.map Prod.fst := by
      intro hm
      obtain ⟨q, hq, e⟩ := List.mem_map.1 hm
      exact absurd (List.find?_eq_none.1 hp q hq) (by simp [e])
    have hnd : (a :: s.pool.map Prod.fst).Nodup := List.nodup_cons.2 ⟨hn, i.nodup⟩
    have hsub : (a :: s.pool.map Prod.fst) ⊆ S := by
      intro x hx
      rcases List.mem_cons.1 hx with rfl | hx
      · exact h2 t _ hw
      · obtain ⟨q, hq, rfl⟩ := List.mem_map.1 hx
        exact h1 q hq
    have := (hnd.subperm hsub).length_le
    simp only [List.length_cons, List.length_map] at this
    omega
  all_goals grind


/-- Without `release`: a client that has not run its deferred `remove` is pooled under its address, or is being evicted. -/
def Owned (s : State) : Prop :=
  ∀ c a, (s.clients[c]? = some (a, .live) ∨ s.clients[c]? = some (a, .removing)) → (a, c) ∈ s.pool ∨ ∃ t b, s.callers t = .evicting c b

theorem Owned.step {s s' : State} {a : Action} (i : Inv s) (h : Owned s) (ha : a ≠ .release) (hs : PoolLock.step s a = some s') : Owned s' := by
  have h4 := i.evicting
  have h3 := i.locked
  have hn := i.nodup
  unfold Owned at *
  pl_cases a hs
  · intro c x hc
    rcases h c x hc with h | ⟨t, b, h⟩
    · exact Or.inl h
    · exact Or.inr ⟨t, b, by grind⟩
  · rename_i t _ _ a hw hlk _ p hp
    have e := List.find?_some hp
    have m := List.mem_of_find?_eq_some hp
    simp only [decide_eq_true_eq] at e
    intro c x hc
    rcases h c x hc with h | ⟨t, b, h⟩
    · left
      by_cases hx : x = a
      · have := List.inj_on_of_nodup_map hn m h (by simp [e, hx])
        rw [this]; exact List.mem_cons_self
      · exact List.mem_cons_of_mem _ (List.mem_filter.2 ⟨h, by simp [hx]⟩)
    · have := h4 t c b h; simp [hlk] at this
  · rename_i t _ _ a hw hlk _ hp hmx _ v hv
    intro c x hc
    rcases h c x hc with h | ⟨t, b, h⟩
    · have hsp := List.dropLast_append_getLast? v hv
      rw [← hsp, List.mem_append, List.mem_singleton] at h
      rcases h with h | h
      · exact Or.inl h
      · right
        refine ⟨t, a, ?_⟩
        simp [← h]
    · have := h4 t c b h; simp [hlk] at this
  · rename_i t _ _ a hw hlk _ hp hmx
    intro c x hc
    simp only [List.mem_cons, Prod.mk.injEq]
    by_cases hcl : c < s.clients.length
    · rw [List.getElem?_append_left hcl] at hc
      rcases h c x hc with h | ⟨t, b, h⟩
      · exact Or.inl (Or.inr h)
      · have := h4 t c b h; simp [hlk] at this
    · have : c = s.clients.length := by
        apply Classical.byContradiction
        intro hne
        rw [List.getElem?_eq_none (by simp; omega)] at hc
        simp at hc
      subst this
      simp at hc
      exact Or.inl (Or.inl ⟨hc.symm, rfl⟩)
  · rename_i t _ v a hev _ b hdone
    have := h4 t v a hev
    obtain ⟨v', a', b', hv', hc⟩ := h3 t this
    rw [hev] at hv'
    simp only [Caller.evicting.injEq] at hv'
    obtain ⟨rfl, rfl⟩ := hv'
    simp [hdone] at hc
  · rename_i c _ a hc
    intro c' x hc'
    apply h
    grind
  · rename_i c _ _ a hc hlk
    intro c' x hc'
    have hne : c' ≠ c := by grind
    rw [List.getElem?_set_ne (Ne.symm hne)] at hc'
    rcases h c' x hc' with h' | ⟨t, b, h'⟩
    · left
      rw [List.mem_filter]
      refine ⟨h', ?_⟩
      apply decide_eq_true
      intro e
      simp only at e
      subst e
      rcases h c x (Or.inr hc) with h2 | ⟨t, b, h2⟩
      · have := List.inj_on_of_nodup_map hn h' h2 rfl
        simp only [Prod.mk.injEq, true_and] at this
        exact hne this
      · have := h4 t c b h2; simp [hlk] at this
    · have := h4 t c' b h'; simp [hlk] at this
  · rename_i c _ a hc
    intro c' x hc'
    apply h
    grind
  · exact h
  · exact absurd rfl ha

end Noise.PoolLock
