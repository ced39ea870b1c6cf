import Verif.Model.Table
import Verif.Proofs.Binary
import Mathlib.Data.List.Nodup
import Mathlib.Data.List.Perm.Basic
namespace Noise
open Spec

namespace Table

theorem bucketIndex_lt (t : Table) (k : PublicKey) : t.bucketIndex k < 256 := by
  have h := (prefixLen_spec (xorBytes k.1 t.self.id.1)).1
  rw [xorBytes_length, k.2] at h
  unfold bucketIndex
  simp only
  split <;> omega

@[simp] theorem setBucket_self (t : Table) (i : Nat) (b : List ID) : (t.setBucket i b).self = t.self := rfl
theorem bucketIndex_congr {t t' : Table} (h : t'.self = t.self) (k : PublicKey) : t'.bucketIndex k = t.bucketIndex k := by simp [bucketIndex, h]

/-- The invariant of reachable tables. -/
structure Inv (t : Table) : Prop where
  idx : ∀ j, ∀ e ∈ t.entries j, t.bucketIndex e.id = j
  nodup : ∀ j, ((t.entries j).map ID.id).Nodup
  cap : ∀ j, (t.entries j).length ≤ 16
  size : t.size = (t.all.length : Int)
  zero : ∀ j, ∀ e ∈ t.entries j, e.id ≠ zeroPublicKey

/-! ### length of `all` when one bucket changes -/

theorem sum_map_set (f g : Nat → Nat) (i : Nat) : ∀ (l : List Nat), l.Nodup → i ∈ l → (∀ j, j ≠ i → g j = f j) → (l.map g).sum + f i = (l.map f).sum + g i
  | [], _, h, _ => by simp at h
  | x :: l, hn, h, hg => by
    obtain ⟨h1, h2⟩ := List.nodup_cons.1 hn
    rcases List.mem_cons.1 h with e | h
    · subst e
      have : l.map g = l.map f := List.map_congr_left fun j hj => hg j (fun e => h1 (e ▸ hj))
      simp [this]; omega
    · have := sum_map_set f g i l h2 h hg
      have := hg x (fun e => h1 (e ▸ h))
      simp; omega

theorem all_length (t : Table) : t.all.length = ((List.range 256).map fun j => (t.entries j).length).sum := by
  simp [all, List.length_flatMap]

theorem all_length_set (t : Table) {i : Nat} (hi : i < 256) (b : List ID) : ((t.setBucket i b).all.length : Int) = t.all.length + b.length - (t.entries i).length := by
  have := sum_map_set (fun j => (t.entries j).length) (fun j => ((t.setBucket i b).entries j).length) i (List.range 256) List.nodup_range (by simpa using hi)
    (fun j hj => by simp [setBucket, hj])
  rw [all_length, all_length]
  simp only [setBucket, if_true] at this ⊢
  omega

theorem all_congr {t t' : Table} (h : t'.entries = t.entries) : t'.all = t.all := by simp [all, h]

theorem mem_all (t : Table) (e : ID) : e ∈ t.all ↔ ∃ j < 256, e ∈ t.entries j := by simp [all, List.mem_flatMap]

/-! ### find? and eraseP -/

theorem split_of_find {p : ID → Bool} : ∀ {l : List ID} {e : ID}, l.find? p = some e → ∃ pre post, l = pre ++ e :: post ∧ l.eraseP p = pre ++ post ∧ p e = true ∧ ∀ x ∈ pre, p x = false
  | [], _, h => by simp at h
  | x :: l, e, h => by
    by_cases hx : p x
    · simp [hx] at h; subst h
      exact ⟨[], l, by simp, by simp [hx], hx, by simp⟩
    · simp [hx] at h
      obtain ⟨pre, post, h1, h2, h3, h4⟩ := split_of_find h
      refine ⟨x :: pre, post, by simp [h1], by simp [hx, h2], h3, ?_⟩
      intro y hy
      rcases List.mem_cons.1 hy with rfl | hy
      · simpa using hx
      · exact h4 y hy

/-! ### the operations preserve the invariant -/

theorem Inv.set {t : Table} (h : Inv t) {i : Nat} (hi : i < 256) {b : List ID} {n : Int} (h1 : ∀ e ∈ b, t.bucketIndex e.id = i) (h2 : (b.map ID.id).Nodup)
    (h3 : b.length ≤ 16) (h4 : n = t.size + b.length - (t.entries i).length) (h5 : ∀ e ∈ b, e.id ≠ zeroPublicKey) :
    Inv { t.setBucket i b with size := n } := by
  refine ⟨?_, ?_, ?_, ?_, ?_⟩
  · intro j e he
    show t.bucketIndex e.id = j
    simp only [setBucket] at he
    split at he
    · rename_i e'; rw [e']; exact h1 e he
    · exact h.idx j e he
  · intro j
    simp only [setBucket]
    split
    · exact h2
    · exact h.nodup j
  · intro j
    simp only [setBucket]
    split
    · exact h3
    · exact h.cap j
  · show n = ((t.setBucket i b).all.length : Int)
    rw [all_length_set t hi, ← h.size]; omega
  · intro j e he
    simp only [setBucket] at he
    split at he
    · exact h5 e he
    · exact h.zero j e he

theorem Inv.update {t : Table} (h : Inv t) (e : ID) : Inv (t.update e).1 := by
  unfold Table.update
  split
  · exact h
  · rename_i hz
    simp only
    split
    · rename_i x hx
      obtain ⟨pre, post, e1, e2, e3, _⟩ := split_of_find hx
      have hp : (x :: (t.entries (t.bucketIndex e.id)).eraseP fun y => decide (y.id = e.id)).Perm (t.entries (t.bucketIndex e.id)) := by
        rw [e2, e1]; exact List.perm_middle.symm
      have := h.set (bucketIndex_lt t e.id) (b := x :: (t.entries (t.bucketIndex e.id)).eraseP fun y => decide (y.id = e.id)) (n := t.size)
        (fun y hy => h.idx _ y (hp.mem_iff.1 hy)) ((hp.map ID.id).nodup_iff.2 (h.nodup _)) (by rw [hp.length_eq]; exact h.cap _) (by rw [hp.length_eq]; omega)
        (fun y hy => h.zero _ y (hp.mem_iff.1 hy))
      exact this
    · rename_i hx
      have hx' : ∀ y ∈ t.entries (t.bucketIndex e.id), y.id ≠ e.id := by
        intro y hy; have := List.find?_eq_none.1 hx y hy; simpa using this
      split
      · rename_i hl
        refine h.set (bucketIndex_lt t e.id) ?_ ?_ ?_ ?_ ?_
        · intro y hy
          rcases List.mem_cons.1 hy with rfl | hy
          · rfl
          · exact h.idx _ y hy
        · simp only [List.map_cons, List.nodup_cons]
          refine ⟨?_, h.nodup _⟩
          intro hm
          obtain ⟨y, hy, hye⟩ := List.mem_map.1 hm
          exact hx' y hy hye
        · simp only [List.length_cons]; exact hl
        · simp only [List.length_cons]; omega
        · intro y hy
          rcases List.mem_cons.1 hy with rfl | hy
          · exact hz
          · exact h.zero _ y hy
      · exact h

theorem Inv.erase {t : Table} (h : Inv t) {i : Nat} (hi : i < 256) {p : ID → Bool} {x : ID} (hx : (t.entries i).find? p = some x) :
    Inv { t.setBucket i ((t.entries i).eraseP p) with size := t.size - 1 } := by
  obtain ⟨pre, post, e1, e2, e3, _⟩ := split_of_find hx
  have hs : ((t.entries i).eraseP p).Sublist (t.entries i) := List.eraseP_sublist
  refine h.set hi (fun y hy => h.idx _ y (hs.subset hy)) ((h.nodup i).sublist (hs.map ID.id)) (Nat.le_trans hs.length_le (h.cap i)) ?_ (fun y hy => h.zero _ y (hs.subset hy))
  rw [e2, e1]; simp; omega

theorem Inv.delete {t : Table} (h : Inv t) (k : PublicKey) : Inv (t.delete k).1 := by
  unfold Table.delete
  simp only
  split
  · rename_i x hx
    exact h.erase (bucketIndex_lt t k) hx
  · exact h

theorem Inv.deleteByAddress {t : Table} (h : Inv t) (a : Text) : Inv (t.deleteByAddress a).1 := by
  have : ∀ n i, i + n ≤ 256 → Inv (t.deleteByAddressLoop a i n).1 := by
    intro n
    induction n with
    | zero => intro i _; exact h
    | succ n ih =>
      intro i hi
      unfold deleteByAddressLoop
      split
      · rename_i x hx
        exact h.erase (by omega) hx
      · exact ih (i + 1) (by omega)
  exact this 256 0 (by omega)

theorem Inv.empty (s : ID) : Inv ⟨fun _ => [], s, 0⟩ := by
  refine ⟨?_, ?_, ?_, ?_, ?_⟩
  case refine_4 =>
    have : ∀ l : List Nat, (l.flatMap fun _ => ([] : List ID)) = [] := by intro l; induction l <;> simp_all
    rw [all, this]; rfl
  all_goals simp

theorem newTable_some (s : ID) : ∃ t0, newTable s = some t0 ∧ Inv t0 ∧ t0.self = s := by
  have hi := (Inv.empty s).update s
  unfold newTable
  generalize hu : (Table.mk (fun _ => []) s 0).update s = u at hi
  obtain ⟨t, r⟩ := u
  have hr : r ≠ .error .bucketFull ∧ t.self = s := by
    have h1 := congrArg Prod.snd hu
    have h2 := congrArg (fun x => x.1.self) hu
    simp only [update] at h1 h2
    refine ⟨?_, ?_⟩
    · rw [← h1]; split <;> simp [bucketSize]
    · rw [← h2]; split <;> simp [bucketSize]
  cases r with
  | ok b => exact ⟨t, rfl, hi, hr.2⟩
  | error e => cases e; exact absurd rfl hr.1

theorem update_self (t : Table) (e : ID) : (t.update e).1.self = t.self := by
  unfold update; split
  · rfl
  · simp only; split
    · rfl
    · split <;> rfl

theorem delete_self (t : Table) (k : PublicKey) : (t.delete k).1.self = t.self := by
  unfold delete; simp only; split <;> rfl

theorem deleteByAddress_self (t : Table) (a : Text) : (t.deleteByAddress a).1.self = t.self := by
  have : ∀ n i, (t.deleteByAddressLoop a i n).1.self = t.self := by
    intro n
    induction n with
    | zero => intro i; rfl
    | succ n ih => intro i; unfold deleteByAddressLoop; split; rfl; exact ih (i + 1)
  exact this _ _

theorem apply_self (t : Table) (op : TableOp) : (t.apply op).self = t.self := by
  cases op
  · exact update_self t _
  · exact delete_self t _
  · exact deleteByAddress_self t _

theorem Inv.apply {t : Table} (h : Inv t) (op : TableOp) : Inv (t.apply op) := by
  cases op
  · exact h.update _
  · exact h.delete _
  · exact h.deleteByAddress _

theorem Reachable.inv {s : ID} {t : Table} (h : Reachable s t) : Inv t ∧ t.self = s := by
  obtain ⟨t0, ops, h0, rfl⟩ := h
  obtain ⟨t1, h1, hi, hs⟩ := newTable_some s
  rw [h0] at h1
  obtain rfl := Option.some.inj h1
  clear h0 h1
  induction ops generalizing t0 with
  | nil => exact ⟨hi, hs⟩
  | cons op ops ih => exact ih (t0.apply op) (hi.apply op) ((apply_self t0 op).trans hs)

/-! ### keys are unique -/

theorem Inv.key_unique {t : Table} (h : Inv t) {i j : Nat} {x y : ID} (hx : x ∈ t.entries i) (hy : y ∈ t.entries j) (he : x.id = y.id) : x = y ∧ i = j := by
  have hij : i = j := by rw [← h.idx i x hx, ← h.idx j y hy, he]
  subst hij
  exact ⟨List.inj_on_of_nodup_map (h.nodup i) hx hy he, rfl⟩

theorem Inv.mem_all_iff {t : Table} (h : Inv t) (e : ID) : e ∈ t.all ↔ e ∈ t.entries (t.bucketIndex e.id) := by
  rw [mem_all]
  constructor
  · rintro ⟨j, _, hj⟩; rw [h.idx j e hj]; exact hj
  · intro hj; exact ⟨_, bucketIndex_lt t _, hj⟩

theorem nodup_flatMap_of {f : Nat → List ID} (h1 : ∀ j, ((f j).map ID.id).Nodup) (h2 : ∀ i j x y, x ∈ f i → y ∈ f j → x.id = y.id → i = j) :
    ∀ (l : List Nat), l.Nodup → ((l.flatMap f).map ID.id).Nodup
  | [], _ => by simp
  | i :: l, hn => by
    obtain ⟨k1, k2⟩ := List.nodup_cons.1 hn
    rw [List.flatMap_cons, List.map_append, List.nodup_append']
    refine ⟨h1 i, nodup_flatMap_of h1 h2 l k2, ?_⟩
    intro k hk hk'
    obtain ⟨x, hx, rfl⟩ := List.mem_map.1 hk
    obtain ⟨y, hy, hxy⟩ := List.mem_map.1 hk'
    obtain ⟨j, hj, hyj⟩ := List.mem_flatMap.1 hy
    have := h2 i j x y hx hyj hxy.symm
    exact k1 (this ▸ hj)

theorem Inv.all_nodup {t : Table} (h : Inv t) : (t.all.map ID.id).Nodup :=
  nodup_flatMap_of h.nodup (fun _ _ _ _ hx hy he => (h.key_unique hx hy he).2) _ List.nodup_range

/-! ### effects on `all` -/

theorem all_split (t : Table) {i : Nat} (hi : i < 256) : ∃ A B, t.all = A ++ t.entries i ++ B ∧ ∀ b, (t.setBucket i b).all = A ++ b ++ B := by
  have hr : List.range 256 = List.range i ++ i :: (List.range (255 - i)).map (fun j => i + 1 + j) := by
    have : (256 : Nat) = (i + 1) + (255 - i) := by omega
    rw [this, List.range_add, List.range_succ, List.append_assoc]
    simp
  refine ⟨(List.range i).flatMap t.entries, ((List.range (255 - i)).map (fun j => i + 1 + j)).flatMap t.entries, ?_, ?_⟩
  · rw [all, hr, List.flatMap_append, List.flatMap_cons]; simp only [List.append_assoc]
  · intro b
    rw [all, hr, List.flatMap_append, List.flatMap_cons]
    simp only [setBucket, if_true]
    have c1 : (List.range i).flatMap (fun j => if j = i then b else t.entries j) = (List.range i).flatMap t.entries := by
      apply List.flatMap_congr
      intro j hj
      have : j < i := by simpa using hj
      simp [show j ≠ i by omega]
    have c2 : ((List.range (255 - i)).map (fun j => i + 1 + j)).flatMap (fun j => if j = i then b else t.entries j) = ((List.range (255 - i)).map (fun j => i + 1 + j)).flatMap t.entries := by
      apply List.flatMap_congr
      intro j hj
      obtain ⟨j', _, rfl⟩ := List.mem_map.1 hj
      simp [show i + 1 + j' ≠ i by omega]
    rw [c1, c2]; simp only [List.append_assoc]

/-- The outcome of `DeleteByAddress`. -/
theorem deleteByAddress_cases (t : Table) (a : Text) : (t.deleteByAddress a = (t, ID.zero, false) ∧ ∀ j < 256, ∀ e ∈ t.entries j, e.address ≠ a) ∨
    ∃ j x pre post, j < 256 ∧ t.entries j = pre ++ x :: post ∧ x.address = a ∧ t.deleteByAddress a = ({ t.setBucket j (pre ++ post) with size := t.size - 1 }, x, true) := by
  have key : ∀ n i, i + n = 256 → (t.deleteByAddressLoop a i n = (t, ID.zero, false) ∧ ∀ j, i ≤ j → j < 256 → ∀ e ∈ t.entries j, e.address ≠ a) ∨
      ∃ j x pre post, i ≤ j ∧ j < 256 ∧ t.entries j = pre ++ x :: post ∧ x.address = a ∧
        t.deleteByAddressLoop a i n = ({ t.setBucket j (pre ++ post) with size := t.size - 1 }, x, true) := by
    intro n
    induction n with
    | zero => intro i hi; exact Or.inl ⟨rfl, fun j h1 h2 => by omega⟩
    | succ n ih =>
      intro i hi
      unfold Table.deleteByAddressLoop
      cases hf : (t.entries i).find? (fun e => decide (e.address = a)) with
      | some x =>
        obtain ⟨pre, post, e1, e2, e3, _⟩ := Table.split_of_find hf
        exact Or.inr ⟨i, x, pre, post, Nat.le_refl _, by omega, e1, by simpa using e3, by simp only [e2]⟩
      | none =>
        simp only
        rcases ih (i + 1) (by omega) with ⟨h1, h2⟩ | ⟨j, x, pre, post, h1, h2, h3, h4, h5⟩
        · refine Or.inl ⟨h1, ?_⟩
          intro j hj1 hj2 e he
          by_cases hij : i = j
          · subst hij; have := List.find?_eq_none.1 hf e he; simpa using this
          · exact h2 j (by omega) hj2 e he
        · exact Or.inr ⟨j, x, pre, post, by omega, h2, h3, h4, h5⟩
  rcases key 256 0 rfl with ⟨h1, h2⟩ | ⟨j, x, pre, post, h1, h2, h3, h4, h5⟩
  · exact Or.inl ⟨h1, fun j hj => h2 j (Nat.zero_le _) hj⟩
  · exact Or.inr ⟨j, x, pre, post, h2, h3, h4, h5⟩

/-- The outcome of `Delete`. -/
theorem delete_cases (t : Table) (k : PublicKey) : (t.delete k = (t, ID.zero, false) ∧ ∀ e ∈ t.entries (t.bucketIndex k), e.id ≠ k) ∨
    ∃ x pre post, t.entries (t.bucketIndex k) = pre ++ x :: post ∧ x.id = k ∧ t.delete k = ({ t.setBucket (t.bucketIndex k) (pre ++ post) with size := t.size - 1 }, x, true) := by
  cases hf : (t.entries (t.bucketIndex k)).find? (fun y => decide (y.id = k)) with
  | none =>
    refine Or.inl ⟨by simp only [Table.delete, hf], ?_⟩
    intro e he; have := List.find?_eq_none.1 hf e he; simpa using this
  | some x =>
    obtain ⟨pre, post, e1, e2, e3, _⟩ := Table.split_of_find hf
    exact Or.inr ⟨x, pre, post, e1, by simpa using e3, by simp only [Table.delete, hf, e2]⟩

/-- The outcome of `Update`. -/
theorem update_cases (t : Table) (e : ID) :
    (t.update e = (t, .ok false) ∧ e.id = zeroPublicKey) ∨
    (∃ x pre post, t.entries (t.bucketIndex e.id) = pre ++ x :: post ∧ x.id = e.id ∧ t.update e = (t.setBucket (t.bucketIndex e.id) (x :: (pre ++ post)), .ok false)) ∨
    ((∀ x ∈ t.entries (t.bucketIndex e.id), x.id ≠ e.id) ∧ e.id ≠ zeroPublicKey ∧ (t.entries (t.bucketIndex e.id)).length < 16 ∧
      t.update e = ({ t.setBucket (t.bucketIndex e.id) (e :: t.entries (t.bucketIndex e.id)) with size := t.size + 1 }, .ok true)) ∨
    ((∀ x ∈ t.entries (t.bucketIndex e.id), x.id ≠ e.id) ∧ e.id ≠ zeroPublicKey ∧ 16 ≤ (t.entries (t.bucketIndex e.id)).length ∧ t.update e = (t, .error .bucketFull)) := by
  by_cases hz : e.id = zeroPublicKey
  · exact Or.inl ⟨by simp [update, hz], hz⟩
  · refine Or.inr ?_
    unfold update
    simp only [hz, if_false]
    cases hf : (t.entries (t.bucketIndex e.id)).find? (fun y => decide (y.id = e.id)) with
    | some x =>
      obtain ⟨pre, post, e1, e2, e3, _⟩ := Table.split_of_find hf
      exact Or.inl ⟨x, pre, post, e1, by simpa using e3, by simp only [e2]⟩
    | none =>
      have hn : ∀ x ∈ t.entries (t.bucketIndex e.id), x.id ≠ e.id := by
        intro x hx; have := List.find?_eq_none.1 hf x hx; simpa using this
      by_cases hl : (t.entries (t.bucketIndex e.id)).length < bucketSize
      · exact Or.inr (Or.inl ⟨hn, by simpa using hz, hl, by simp only [hl, if_true]⟩)
      · exact Or.inr (Or.inr ⟨hn, by simpa using hz, by simpa [bucketSize] using hl, by simp only [hl, if_false]⟩)

theorem perm_add {t : Table} {i : Nat} (hi : i < 256) (x : ID) : (t.setBucket i (x :: t.entries i)).all.Perm (x :: t.all) := by
  obtain ⟨A, B, h1, h2⟩ := all_split t hi
  rw [h1, h2]
  simp only [List.append_assoc, List.cons_append]
  exact List.perm_middle

theorem perm_remove {t : Table} {i : Nat} (hi : i < 256) {x : ID} {pre post : List ID} (h : t.entries i = pre ++ x :: post) : t.all.Perm (x :: (t.setBucket i (pre ++ post)).all) := by
  obtain ⟨A, B, h1, h2⟩ := all_split t hi
  rw [h1, h2, h]
  simp only [List.append_assoc, List.cons_append]
  rw [← List.append_assoc, ← List.append_assoc (as := A) (bs := pre)]
  exact List.perm_middle

theorem perm_move {t : Table} {i : Nat} (hi : i < 256) {x : ID} {pre post : List ID} (h : t.entries i = pre ++ x :: post) : (t.setBucket i (x :: (pre ++ post))).all.Perm t.all := by
  obtain ⟨A, B, h1, h2⟩ := all_split t hi
  rw [h1, h2, h]
  simp only [List.append_assoc]
  refine List.Perm.append_left A ?_
  rw [← List.append_assoc]
  exact List.Perm.append_right B (by simpa using List.perm_middle.symm)

/-- Deleting by the address of a peer whose address is not shared is deleting by its key. -/
theorem Inv.deleteByAddress_unique {t : Table} (h : Inv t) {x : ID} (hx : x ∈ t.all) (hu : ∀ y ∈ t.all, y.address = x.address → y = x) : t.deleteByAddress x.address = t.delete x.id := by
  have hx' := (h.mem_all_iff x).1 hx
  rcases deleteByAddress_cases t x.address with ⟨_, h2⟩ | ⟨j, y, pre, post, h1, h2, h3, h4⟩
  · exact absurd rfl (h2 _ (bucketIndex_lt t x.id) x hx')
  · have hy : y ∈ t.entries j := by rw [h2]; simp
    have hyx := hu y ((t.mem_all y).2 ⟨j, h1, hy⟩) h3
    subst hyx
    have hj := h.idx j y hy
    rcases delete_cases t y.id with ⟨_, h6⟩ | ⟨z, pre', post', h5, h6, h7⟩
    · exact absurd rfl (h6 y hx')
    · have hz : z ∈ t.entries (t.bucketIndex y.id) := by rw [h5]; simp
      have := (h.key_unique hz hx' h6).1
      subst this
      have hn := (h.nodup j).of_map
      have hpp : pre = pre' ∧ post = post' := by
        rw [hj, h2] at h5
        rw [h2] at hn
        have hn2 : (pre' ++ z :: post').Nodup := h5 ▸ hn
        have h1 : z ∉ post' := by
          have := (List.nodup_append'.1 hn2).2.1
          exact (List.nodup_cons.1 this).1
        have h2 : z ∉ pre' := by
          intro hm
          have := List.nodup_append'.1 hn2
          exact this.2.2 hm List.mem_cons_self
        have := (List.append_cons_inj_of_notMem h2 h1).1 h5.symm
        exact ⟨this.1.symm, this.2.2.symm⟩
      rw [h4, h7, hj, hpp.1, hpp.2]

end Table
end Noise
