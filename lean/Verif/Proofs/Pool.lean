import Verif.Spec.Lru
import Mathlib.Data.List.Perm.Basic
import Mathlib.Data.List.Nodup
/-! # The pool refines the LRU list -/
namespace Noise.Pool
open Spec
set_option linter.unusedSectionVars false
variable {α : Type} [DecidableEq α]

/-- One pooled client with its list element. -/
structure Tri (α : Type) where
  el : Nat
  addr : α
  client : Nat

def Tri.ord (t : Tri α) : Nat × α := (t.el, t.addr)
def Tri.ent (t : Tri α) : α × Entry := (t.addr, ⟨t.el, t.client⟩)
def Tri.lru (t : Tri α) : α × Nat := (t.addr, t.client)

/-- `c` represents the LRU list `l`. -/
structure Rep (c : ClientMap α) (l : Lru α) (T : List (Tri α)) : Prop where
  order : c.order = T.map Tri.ord
  entries : c.entries.Perm (T.map Tri.ent)
  list : l.list = T.map Tri.lru
  els : (T.map Tri.el).Nodup
  addrs : (T.map Tri.addr).Nodup
  fresh : ∀ t ∈ T, t.el < c.nextEl
  created : c.nextClient = l.created

theorem lookup_iff {m : List (α × Entry)} (h : (m.map Prod.fst).Nodup) {a : α} {e : Entry} : lookup m a = some e ↔ (a, e) ∈ m := by
  induction m with
  | nil => simp [lookup]
  | cons p m ih =>
    obtain ⟨b, f⟩ := p
    simp only [List.map_cons, List.nodup_cons] at h
    by_cases e1 : b = a
    · subst e1
      simp only [lookup, List.find?_cons, decide_true, Option.map_some, Option.some.injEq, List.mem_cons, Prod.mk.injEq, true_and]
      constructor
      · intro h'; exact Or.inl h'.symm
      · rintro (h' | h')
        · exact h'.symm
        · exact absurd (List.mem_map.2 ⟨_, h', rfl⟩) h.1
    · have : lookup ((b, f) :: m) a = lookup m a := by simp [lookup, e1]
      rw [this, ih h.2]
      simp [Ne.symm e1]

theorem Rep.keys {c : ClientMap α} {l : Lru α} {T : List (Tri α)} (r : Rep c l T) : (c.entries.map Prod.fst).Nodup := by
  have h1 : (c.entries.map Prod.fst).Perm ((T.map Tri.ent).map Prod.fst) := r.entries.map _
  rw [List.map_map] at h1
  exact h1.nodup_iff.2 r.addrs

theorem Rep.lookup_some {c : ClientMap α} {l : Lru α} {T : List (Tri α)} (r : Rep c l T) {a : α} {e : Entry} (h : lookup c.entries a = some e) :
    ⟨e.el, a, e.client⟩ ∈ T := by
  have h1 := r.entries.mem_iff.1 ((lookup_iff r.keys).1 h)
  obtain ⟨t, h2, h3⟩ := List.mem_map.1 h1
  obtain ⟨el, ad, cl⟩ := t
  simp only [Tri.ent, Prod.mk.injEq] at h3
  obtain ⟨rfl, rfl⟩ := h3
  exact h2

theorem Rep.lookup_mem {c : ClientMap α} {l : Lru α} {T : List (Tri α)} (r : Rep c l T) {t : Tri α} (h : t ∈ T) : lookup c.entries t.addr = some ⟨t.el, t.client⟩ :=
  (lookup_iff r.keys).2 (r.entries.mem_iff.2 (List.mem_map.2 ⟨t, h, rfl⟩))

theorem Rep.lookup_none {c : ClientMap α} {l : Lru α} {T : List (Tri α)} (r : Rep c l T) {a : α} (h : lookup c.entries a = none) : ∀ t ∈ T, t.addr ≠ a := by
  rintro t ht rfl
  rw [r.lookup_mem ht] at h; cases h

/-- Removing by element and by address is the same. -/
theorem filter_el_addr {T : List (Tri α)} (h1 : (T.map Tri.el).Nodup) (h2 : (T.map Tri.addr).Nodup) {t : Tri α} (ht : t ∈ T) :
    T.filter (fun x => x.el ≠ t.el) = T.filter (fun x => x.addr ≠ t.addr) := by
  apply List.filter_congr
  intro x hx
  have : x.el = t.el ↔ x.addr = t.addr := by
    constructor
    · intro e; rw [List.inj_on_of_nodup_map h1 hx ht e]
    · intro e; rw [List.inj_on_of_nodup_map h2 hx ht e]
  simp [this]

theorem Rep.drop {c : ClientMap α} {l : Lru α} {T : List (Tri α)} (r : Rep c l T) {t : Tri α} (ht : t ∈ T) :
    Rep { c with order := removeEl c.order t.el, entries := erase c.entries t.addr } ⟨l.list.filter (fun q => q.1 ≠ t.addr), l.created⟩
      (T.filter (fun x => x.addr ≠ t.addr)) := by
  constructor
  · show removeEl c.order t.el = _
    rw [← filter_el_addr r.els r.addrs ht, r.order, removeEl, List.filter_map]
    rfl
  · show (erase c.entries t.addr).Perm _
    have := r.entries.filter (fun p => decide (p.1 ≠ t.addr))
    rw [List.filter_map] at this
    exact this
  · show l.list.filter _ = _
    rw [r.list, List.filter_map]; rfl
  · exact r.els.sublist (List.filter_sublist.map _)
  · exact r.addrs.sublist (List.filter_sublist.map _)
  · intro x hx; exact r.fresh x (List.mem_filter.1 hx).1
  · exact r.created

theorem filter_none {T : List (Tri α)} {a : α} (h : ∀ t ∈ T, t.addr ≠ a) : T.filter (fun x => x.addr ≠ a) = T := by
  rw [List.filter_eq_self]; intro t ht; simpa using h t ht

theorem Rep.push {c : ClientMap α} {l : Lru α} {T : List (Tri α)} (r : Rep c l T) {a : α} (h : ∀ t ∈ T, t.addr ≠ a) :
    Rep { order := (c.nextEl, a) :: c.order, entries := insert c.entries a ⟨c.nextEl, c.nextClient⟩, nextEl := c.nextEl + 1, nextClient := c.nextClient + 1 }
      ⟨(a, l.created) :: l.list, l.created + 1⟩ (⟨c.nextEl, a, l.created⟩ :: T) := by
  have her : erase c.entries a = c.entries := by
    unfold erase
    rw [List.filter_eq_self]
    rintro ⟨b, e⟩ hb
    obtain ⟨t, ht, he⟩ := List.mem_map.1 (r.entries.mem_iff.1 hb)
    have : t.addr = b := congrArg Prod.fst he
    have := h t ht
    simp_all
  constructor
  · simp [r.order, Tri.ord]
  · simp only [insert, her, List.map_cons, Tri.ent, r.created]
    exact r.entries.cons _
  · simp [r.list, Tri.lru]
  · simp only [List.map_cons, List.nodup_cons]
    refine ⟨?_, r.els⟩
    intro hm
    obtain ⟨t, ht, he⟩ := List.mem_map.1 hm
    have := r.fresh t ht
    omega
  · simp only [List.map_cons, List.nodup_cons]
    refine ⟨?_, r.addrs⟩
    intro hm
    obtain ⟨t, ht, he⟩ := List.mem_map.1 hm
    exact h t ht he
  · intro t ht
    rcases List.mem_cons.1 ht with rfl | ht
    · exact Nat.lt_succ_self _
    · exact Nat.lt_succ_of_lt (r.fresh t ht)
  · simp [r.created]

theorem filter_last {T : List (Tri α)} {t : Tri α} (h : ((T ++ [t]).map Tri.addr).Nodup) : (T ++ [t]).filter (fun x => x.addr ≠ t.addr) = T := by
  rw [List.map_append, List.nodup_append] at h
  rw [List.filter_append]
  have h1 : T.filter (fun x => x.addr ≠ t.addr) = T := filter_none (fun x hx e => h.2.2 x.addr (List.mem_map.2 ⟨x, hx, rfl⟩) t.addr (by simp) e)
  rw [h1]; simp

theorem length_eq {c : ClientMap α} {l : Lru α} {T : List (Tri α)} (r : Rep c l T) : c.entries.length = l.list.length := by
  rw [r.entries.length_eq, r.list]; simp

theorem filter_perm {T : List (Tri α)} (h : (T.map Tri.addr).Nodup) {t : Tri α} (ht : t ∈ T) : (t :: T.filter (fun x => x.addr ≠ t.addr)).Perm T := by
  obtain ⟨A, B, rfl⟩ := List.append_of_mem ht
  have h2 := List.perm_middle (a := t) (l₁ := A) (l₂ := B)
  have h3 : ((t :: (A ++ B)).map Tri.addr).Nodup := (h2.map Tri.addr).nodup_iff.1 h
  have h4 : (t :: (A ++ B)).filter (fun x => x.addr ≠ t.addr) = A ++ B := by
    rw [List.filter_cons_of_neg (by simp)]
    apply filter_none
    intro x hx e
    simp only [List.map_cons, List.nodup_cons] at h3
    exact h3.1 (List.mem_map.2 ⟨x, hx, e⟩)
  have h5 := h2.filter (fun x => decide (x.addr ≠ t.addr))
  rw [h4] at h5
  exact (h5.cons t).trans h2.symm

theorem Rep.apply {c : ClientMap α} {l : Lru α} {T : List (Tri α)} (r : Rep c l T) {max : Nat} (hmax : 0 < max) (op : Op α) :
    ∃ c' T', c.apply max op = some (c', (l.apply max op).2) ∧ Rep c' (l.apply max op).1 T' := by
  have find_eq : ∀ a, l.list.find? (fun p => decide (p.1 = a)) = (T.find? (fun t => decide (t.addr = a))).map Tri.lru := by
    intro a; rw [r.list, List.find?_map]; rfl
  cases op with
  | get a =>
    cases hl : lookup c.entries a with
    | some e =>
      have ht := r.lookup_some hl
      have hf : T.find? (fun t => decide (t.addr = a)) = some ⟨e.el, a, e.client⟩ := by
        cases hx : T.find? (fun t => decide (t.addr = a)) with
        | none => exact absurd (List.find?_eq_none.1 hx _ ht) (by simp)
        | some x =>
          have h1 := List.mem_of_find?_eq_some hx
          have h2 : x.addr = a := by simpa using List.find?_some hx
          rw [List.inj_on_of_nodup_map r.addrs h1 ht h2]
      have hfo : c.order.find? (fun p => decide (p.1 = e.el)) = some (e.el, a) := by
        rw [r.order, List.find?_map]
        cases hx : T.find? ((fun p : Nat × α => decide (p.1 = e.el)) ∘ Tri.ord) with
        | none => exact absurd (List.find?_eq_none.1 hx _ ht) (by simp [Tri.ord])
        | some x =>
          have h1 := List.mem_of_find?_eq_some hx
          have h2 : x.el = e.el := by
            have h3 := List.find?_some hx
            exact of_decide_eq_true h3
          rw [List.inj_on_of_nodup_map r.els h1 ht h2]; rfl
      have d := r.drop ht
      simp only [Lru.apply, find_eq a, hf, Option.map_some]
      refine ⟨{ c with order := moveToFront c.order e.el }, ⟨e.el, a, e.client⟩ :: T.filter (fun x => x.addr ≠ a), ?_, ?_⟩
      · simp only [ClientMap.apply, ClientMap.get, hl, Option.map_some]; rfl
      · have hperm := filter_perm r.addrs ht
        constructor
        · simp only [moveToFront, hfo, List.map_cons, List.cons.injEq]
          exact ⟨rfl, d.order⟩
        · exact r.entries.trans (hperm.map _).symm
        · rw [List.map_cons, ← d.list]
        · exact (hperm.map _).nodup_iff.2 r.els
        · exact (hperm.map _).nodup_iff.2 r.addrs
        · intro t h; exact r.fresh t (hperm.mem_iff.1 h)
        · exact r.created
    | none =>
      have hn := r.lookup_none hl
      have hf : T.find? (fun t => decide (t.addr = a)) = none := by
        rw [List.find?_eq_none]; intro t ht; simpa using hn t ht
      simp only [Lru.apply, find_eq a, hf, Option.map_none]
      by_cases hm : l.list.length = max
      · rw [if_pos hm]
        rcases List.eq_nil_or_concat T with rfl | ⟨T', t, hT⟩
        · rw [r.list] at hm; simp at hm; omega
        · rw [List.concat_eq_append] at hT
          have ht : t ∈ T := by rw [hT]; simp
          have d := r.drop ht
          have hfl : T.filter (fun x => x.addr ≠ t.addr) = T' := by
            rw [hT]; exact filter_last (hT ▸ r.addrs)
          rw [hfl] at d
          have hd : l.list.filter (fun q => q.1 ≠ t.addr) = l.list.dropLast := by
            have := d.list
            simp only at this
            rw [this, r.list, hT]; simp
          rw [hd] at d
          have p := d.push (a := a) (fun x hx => hn x (by rw [hT]; exact List.mem_append_left _ hx))
          refine ⟨_, _, ?_, p⟩
          have hlast : c.order.getLast? = some (t.el, t.addr) := by rw [r.order, hT]; simp [Tri.ord]
          have hll : l.list.getLast? = some (t.addr, t.client) := by rw [r.list, hT]; simp [Tri.lru]
          simp only [ClientMap.apply, ClientMap.get, hl, ClientMap.evict, length_eq r, hm, if_true, hlast, r.lookup_mem ht, Option.map_some, hll, r.created]
      · rw [if_neg hm]
        refine ⟨_, _, ?_, r.push hn⟩
        simp only [ClientMap.apply, ClientMap.get, hl, ClientMap.evict, length_eq r, hm, if_false, Option.map_some, r.created]
  | remove a =>
    cases hl : lookup c.entries a with
    | some e =>
      have ht := r.lookup_some hl
      refine ⟨_, _, ?_, r.drop ht⟩
      simp only [ClientMap.apply, ClientMap.remove, hl]; rfl
    | none =>
      have hn := r.lookup_none hl
      refine ⟨c, T, ?_, ?_⟩
      · simp only [ClientMap.apply, ClientMap.remove, hl]; rfl
      · have : l.list.filter (fun q => q.1 ≠ a) = l.list := by
          rw [List.filter_eq_self, r.list]
          intro p hp
          obtain ⟨t, ht, rfl⟩ := List.mem_map.1 hp
          exact decide_eq_true (hn t ht)
        simp only [Lru.apply, this]
        exact r
  | release =>
    refine ⟨_, [], rfl, ?_⟩
    constructor <;> simp [ClientMap.release, Lru.apply, r.created]

theorem Rep.new : Rep (ClientMap.new : ClientMap α) Lru.empty [] := by
  constructor <;> simp [ClientMap.new, Lru.empty]

theorem Rep.history {max : Nat} (hmax : 0 < max) (ops : List (Op α)) : ∀ {c : ClientMap α} {l : Lru α} {T : List (Tri α)}, Rep c l T →
    ∃ c' T', c.history max ops = some (c', (l.history max ops).2) ∧ Rep c' (l.history max ops).1 T' := by
  induction ops with
  | nil => intro c l T r; exact ⟨c, T, rfl, r⟩
  | cons op ops ih =>
    intro c l T r
    obtain ⟨c1, T1, h1, r1⟩ := r.apply hmax op
    obtain ⟨c2, T2, h2, r2⟩ := ih r1
    exact ⟨c2, T2, by simp only [ClientMap.history, h1, h2, Option.map_some, Lru.history], r2⟩

theorem Rep.slice {c : ClientMap α} {l : Lru α} {T : List (Tri α)} (r : Rep c l T) : c.slice = some (l.list.map Prod.snd) := by
  unfold ClientMap.slice
  rw [r.order, r.list, List.map_map]
  have : ∀ S : List (Tri α), (∀ t ∈ S, t ∈ T) →
      (S.map Tri.ord).mapM (fun p => (lookup c.entries p.2).map (·.client)) = some (S.map (Prod.snd ∘ Tri.lru)) := by
    intro S
    induction S with
    | nil => intro _; rfl
    | cons t S ih =>
      intro h
      have := ih (fun x hx => h x (List.mem_cons_of_mem _ hx))
      simp only [List.map_cons, List.mapM_cons, this, Tri.ord, r.lookup_mem (h t List.mem_cons_self), Option.map_some]
      rfl
  exact this T (fun _ h => h)

theorem lru_length {max : Nat} (hmax : 0 < max) (l : Lru α) (op : Op α) (h : l.list.length ≤ max) : ((l.apply max op).1).list.length ≤ max := by
  cases op with
  | get a =>
    simp only [Lru.apply]
    split
    · rename_i p hp
      have h1 : (l.list.filter (fun q => q.1 ≠ a)).length < l.list.length := by
        apply List.length_filter_lt_length_iff_exists.2
        refine ⟨p, List.mem_of_find?_eq_some hp, ?_⟩
        have := List.find?_some hp
        simp only [decide_eq_true_eq] at this
        simp [this]
      simp only [List.length_cons]; omega
    · split
      · simp only [List.length_cons, List.length_dropLast]; omega
      · simp only [List.length_cons]; omega
  | remove a => exact Nat.le_trans (List.length_filter_le _ _) h
  | release => exact Nat.zero_le _

theorem lru_history_length {max : Nat} (hmax : 0 < max) (ops : List (Op α)) : ∀ (l : Lru α), l.list.length ≤ max → ((l.history max ops).1).list.length ≤ max := by
  induction ops with
  | nil => intro l h; exact h
  | cons op ops ih => intro l h; exact ih _ (lru_length hmax l op h)


/-! ## The LRU list against the sequence of requests -/

theorem Lru.nodup_apply {max : Nat} (l : Lru α) (op : Op α) (h : (l.list.map Prod.fst).Nodup) : (((l.apply max op).1).list.map Prod.fst).Nodup := by
  have hfil : ∀ a, ((l.list.filter (fun q => q.1 ≠ a)).map Prod.fst).Nodup := fun a => h.sublist (List.filter_sublist.map _)
  cases op with
  | get a =>
    simp only [Lru.apply]
    split
    · rename_i p hp
      have h1 := List.find?_some hp
      simp only [decide_eq_true_eq] at h1
      simp only [List.map_cons, List.nodup_cons]
      refine ⟨?_, hfil a⟩
      rw [h1]
      intro hm
      obtain ⟨q, hq, e⟩ := List.mem_map.1 hm
      have := (List.mem_filter.1 hq).2
      simp [e] at this
    · rename_i hn
      have hna : a ∉ l.list.map Prod.fst := by
        intro hm
        obtain ⟨q, hq, e⟩ := List.mem_map.1 hm
        exact absurd (List.find?_eq_none.1 hn q hq) (by simp [e])
      split
      · simp only [List.map_cons, List.nodup_cons]
        exact ⟨fun hm => hna (List.map_subset _ (List.dropLast_subset _) hm), h.sublist ((List.dropLast_sublist _).map _)⟩
      · simp only [List.map_cons, List.nodup_cons]
        exact ⟨hna, h⟩
  | remove a => exact hfil a
  | release => exact List.nodup_nil

theorem Lru.nodup_history {max : Nat} (ops : List (Op α)) : ∀ (l : Lru α), (l.list.map Prod.fst).Nodup → (((l.history max ops).1).list.map Prod.fst).Nodup := by
  induction ops with
  | nil => intro l h; exact h
  | cons op ops ih => intro l h; exact ih _ (Lru.nodup_apply l op h)

theorem take_filter_mem {a : α} : ∀ (m : Nat) {D : List α}, D.Nodup → a ∈ D.take (m + 1) → (D.filter (· ≠ a)).take m = (D.take (m + 1)).filter (· ≠ a) := by
  intro m D
  induction D generalizing m with
  | nil => simp
  | cons b D ih =>
    intro hn hm
    simp only [List.nodup_cons] at hn
    by_cases e : b = a
    · subst e
      have h1 : ∀ S : List α, (∀ x ∈ S, x ∈ D) → S.filter (fun x => decide (x ≠ b)) = S := by
        intro S hS
        rw [List.filter_eq_self]
        intro x hx
        exact decide_eq_true (fun e => hn.1 (e ▸ hS x hx))
      rw [List.filter_cons_of_neg (by simp), h1 D (fun _ h => h), List.take_succ_cons, List.filter_cons_of_neg (by simp), h1 _ (fun x h => List.mem_of_mem_take h)]
    · rw [List.filter_cons_of_pos (by simp [e]), List.take_succ_cons, List.filter_cons_of_pos (by simp [e])]
      cases m with
      | zero => simp [Ne.symm e] at hm
      | succ m =>
        rw [List.take_succ_cons, ih m hn.2 (by
          rw [List.take_succ_cons] at hm
          rcases List.mem_cons.1 hm with h | h
          · exact absurd h.symm e
          · exact h)]

theorem take_filter_not_mem {a : α} : ∀ (m : Nat) {D : List α}, a ∉ D.take (m + 1) → (D.filter (· ≠ a)).take m = D.take m := by
  intro m D
  induction D generalizing m with
  | nil => simp
  | cons b D ih =>
    intro hm
    rw [List.take_succ_cons, List.mem_cons, not_or] at hm
    rw [List.filter_cons_of_pos (by simp [Ne.symm hm.1])]
    cases m with
    | zero => rfl
    | succ m => rw [List.take_succ_cons, ih m hm.2, List.take_succ_cons]

theorem recent_nodup (h : List α) : (recent h).Nodup := by
  induction h with
  | nil => exact List.nodup_nil
  | cons a h ih =>
    simp only [recent, List.nodup_cons]
    exact ⟨by simp, ih.sublist List.filter_sublist⟩

theorem find_keys (L : List (α × Nat)) (a : α) : L.find? (fun p => decide (p.1 = a)) = none ↔ a ∉ L.map Prod.fst := by
  rw [List.find?_eq_none]
  constructor
  · intro h hm
    obtain ⟨q, hq, e⟩ := List.mem_map.1 hm
    exact absurd (h q hq) (by simp [e])
  · intro h q hq
    simp only [decide_eq_true_eq]
    exact fun e => h (List.mem_map.2 ⟨q, hq, e⟩)

theorem filter_keys (L : List (α × Nat)) (a : α) : (L.filter (fun q => decide (q.1 ≠ a))).map Prod.fst = (L.map Prod.fst).filter (· ≠ a) := by
  rw [List.filter_map]; rfl

theorem lru_get_recent {m : Nat} (l : Lru α) (h : List α) (e : l.list.map Prod.fst = (recent h).take (m + 1)) (a : α) :
    ((l.apply (m + 1) (.get a)).1).list.map Prod.fst = (recent (a :: h)).take (m + 1) := by
  simp only [Lru.apply, recent, List.take_succ_cons]
  split
  · rename_i p hp
    have h1 := List.find?_some hp
    simp only [decide_eq_true_eq] at h1
    have hm : a ∈ (recent h).take (m + 1) := by
      rw [← e]
      exact List.mem_map.2 ⟨p, List.mem_of_find?_eq_some hp, h1⟩
    rw [List.map_cons, filter_keys, e, h1, take_filter_mem m (recent_nodup h) hm]
  · rename_i hn
    rw [find_keys, e] at hn
    rw [take_filter_not_mem m hn]
    have hl : l.list.length = ((recent h).take (m + 1)).length := by rw [← e]; simp
    split
    · rename_i hmax
      rw [List.map_cons, List.map_dropLast, e]
      rw [hmax, List.length_take] at hl
      rw [List.dropLast_eq_take, List.length_take, ← hl, List.take_take]
      congr 2; omega
    · rename_i hmax
      rw [List.map_cons, e]
      rw [List.length_take] at hl
      have h2 : (recent h).length ≤ m := by omega
      rw [List.take_of_length_le (i := m + 1) (by omega), List.take_of_length_le (i := m) h2]

theorem lru_gets_recent {m : Nat} (as : List α) : ∀ (l : Lru α) (h : List α), l.list.map Prod.fst = (recent h).take (m + 1) →
    ((l.history (m + 1) (as.map Op.get)).1).list.map Prod.fst = (recent (as.reverse ++ h)).take (m + 1) := by
  induction as with
  | nil => intro l h e; exact e
  | cons a as ih =>
    intro l h e
    have := ih _ _ (lru_get_recent l h e a)
    simpa [Lru.history] using this

end Noise.Pool
