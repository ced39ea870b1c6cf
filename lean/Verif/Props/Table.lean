import Verif.Proofs.Closest
import Verif.Props.Binary
import Mathlib.Data.List.Perm.Subperm
/-! # Properties C48-C52: the routing table (kademlia/table.go) -/
namespace Noise
open Spec

/-- The number of the bucket in which a key belongs: the length of its common prefix with the table's own key, the two longest lengths sharing a bucket. -/
def Spec.bucketNo (self k : PublicKey) : Nat := min 255 (commonPrefix k.1 self.1)

/-! ## C48 -/

/-- **C48.** After any history of `Update`, `Delete` and `DeleteByAddress`: no public key is stored twice, the zero key is not stored, `NumEntries` is the length of
`Entries`, every bucket holds at most 16 ids, and `Bucket(k)` consists of exactly the stored ids whose common prefix with the table's own key is as long as that of `k`.
`NewTable` never panics. -/
theorem C48_invariants (self : ID) : (newTable self).isSome = true ∧ ∀ t, Table.Reachable self t →
    t.self = self ∧ (t.all.map ID.id).Nodup ∧ (∀ e ∈ t.all, e.id ≠ zeroPublicKey) ∧ t.numEntries = t.all.length ∧
    (∀ k, (t.bucket k).length ≤ bucketSize) ∧
    (∀ k e, e ∈ t.bucket k ↔ e ∈ t.all ∧ bucketNo self.id e.id = bucketNo self.id k) ∧
    (∀ k, t.recorded k = true ↔ ∃ e ∈ t.all, e.id = k) := by
  refine ⟨by obtain ⟨t0, h, _⟩ := Table.newTable_some self; simp [h], ?_⟩
  intro t ht
  obtain ⟨h, hs⟩ := ht.inv
  have hb : ∀ k, t.bucketIndex k = bucketNo self.id k := fun k => by rw [Table.bucketIndex_eq, hs]; rfl
  have hm : ∀ k e, e ∈ t.bucket k ↔ e ∈ t.all ∧ bucketNo self.id e.id = bucketNo self.id k := by
    intro k e
    rw [h.mem_all_iff, Table.bucket, ← hb, ← hb]
    constructor
    · intro he
      have := h.idx _ e he
      exact ⟨this ▸ he, this⟩
    · rintro ⟨h1, h2⟩; rw [← h2]; exact h1
  refine ⟨hs, h.all_nodup, ?_, h.size, fun k => h.cap _, hm, ?_⟩
  · intro e he
    obtain ⟨j, _, hj⟩ := (t.mem_all e).1 he
    exact h.zero j e hj
  · intro k
    simp only [Table.recorded, List.any_eq_true, decide_eq_true_eq]
    constructor
    · rintro ⟨e, he, rfl⟩; exact ⟨e, ((hm e.id e).1 he).1, rfl⟩
    · rintro ⟨e, he, rfl⟩; exact ⟨e, (hm e.id e).2 ⟨he, rfl⟩, rfl⟩

/-- A table with three peers and one deletion. -/
def exTable : Table := ((newTable (newID (keyOf [0x80]) [] 1)).getD ⟨fun _ => [], ID.zero, 0⟩ |>.apply (.update (newID (keyOf [1]) [1, 2, 3, 4] 5)) |>.apply (.update (newID (keyOf [0x81]) [] 6)) |>.apply (.update (newID (keyOf [2]) [] 7))
  |>.apply (.delete (keyOf [0x81])))
example : Table.Reachable (newID (keyOf [0x80]) [] 1) exTable := ⟨_, [.update (newID (keyOf [1]) [1, 2, 3, 4] 5), .update (newID (keyOf [0x81]) [] 6), .update (newID (keyOf [2]) [] 7), .delete (keyOf [0x81])], rfl, rfl⟩
example : (exTable.all.map fun e => e.port) = [7, 5, 1] ∧ exTable.numEntries = 3 := by decide +kernel

/-! ## C49 -/

/-- **C49.** The three cases of `Update`. In each of them every other bucket is untouched. -/
theorem C49_update (self : ID) (t : Table) (ht : Table.Reachable self t) (e : ID) :
    (∀ k, bucketNo self.id k ≠ bucketNo self.id e.id → (t.update e).1.bucket k = t.bucket k) ∧
    (e.id = zeroPublicKey → t.update e = (t, .ok false)) ∧
    (t.recorded e.id = true → ∃ old pre post, old.id = e.id ∧ t.bucket e.id = pre ++ old :: post ∧
      (t.update e).1.bucket e.id = old :: pre ++ post ∧ (t.update e).1.numEntries = t.numEntries ∧ (t.update e).2 = .ok false) ∧
    (e.id ≠ zeroPublicKey → t.recorded e.id = false → (t.bucket e.id).length < bucketSize →
      (t.update e).1.bucket e.id = e :: t.bucket e.id ∧ (t.update e).1.numEntries = t.numEntries + 1 ∧ (t.update e).2 = .ok true) ∧
    (e.id ≠ zeroPublicKey → t.recorded e.id = false → ¬ (t.bucket e.id).length < bucketSize → t.update e = (t, .error .bucketFull)) := by
  obtain ⟨h, hs⟩ := ht.inv
  have hb : ∀ k, t.bucketIndex k = bucketNo self.id k := fun k => by rw [Table.bucketIndex_eq, hs]; rfl
  have hb' : ∀ k, (t.update e).1.bucketIndex k = t.bucketIndex k := fun k => Table.bucketIndex_congr (Table.update_self t e) k
  refine ⟨?_, ?_, ?_, ?_, ?_⟩
  · intro k hk
    rw [Table.bucket, hb', Table.bucket]
    rw [← hb, ← hb] at hk
    unfold Table.update
    split
    · rfl
    · simp only
      split
      · simp [Table.setBucket, hk]
      · split
        · simp [Table.setBucket, hk]
        · rfl
  · intro hz; simp [Table.update, hz]
  · intro hr
    have hz : e.id ≠ zeroPublicKey := by
      simp only [Table.recorded, List.any_eq_true, decide_eq_true_eq] at hr
      obtain ⟨x, hx, hxe⟩ := hr
      exact hxe ▸ h.zero _ x hx
    simp only [Table.bucket, hb']
    unfold Table.update
    simp only [hz, if_false]
    simp only [Table.recorded] at hr
    cases hf : (t.entries (t.bucketIndex e.id)).find? (fun y => decide (y.id = e.id)) with
    | none =>
      rw [List.find?_eq_none] at hf
      obtain ⟨x, hx, hp⟩ := List.any_eq_true.1 hr
      exact absurd hp (hf x hx)
    | some x =>
      obtain ⟨pre, post, e1, e2, e3, _⟩ := Table.split_of_find hf
      exact ⟨x, pre, post, by simpa using e3, e1, by simp [Table.setBucket, e2], rfl, rfl⟩
  all_goals
    intro hz hr hl
    have hf : (t.entries (t.bucketIndex e.id)).find? (fun y => decide (y.id = e.id)) = none := by
      rw [List.find?_eq_none]
      intro x hx hp
      have : t.recorded e.id = true := List.any_eq_true.2 ⟨x, hx, hp⟩
      rw [hr] at this; cases this
    simp only [Table.bucket] at hl
  · simp only [Table.bucket, hb']
    unfold Table.update
    simp only [hz, if_false, hf, hl, if_true]
    exact ⟨by simp [Table.setBucket], rfl, trivial⟩
  · unfold Table.update
    simp only [hz, if_false, hf, hl]

/-- **C49.** A known peer keeps the address under which it was first recorded: `Update` with another address does not change what is stored. -/
theorem C49_keeps_address (self : ID) (t : Table) (ht : Table.Reachable self t) (e : ID) (hr : t.recorded e.id = true) : (t.update e).1.all.Perm t.all := by
  obtain ⟨h, hs⟩ := ht.inv
  have h' : Table.Inv (t.update e).1 := h.update e
  obtain ⟨old, pre, post, e0, e1, e2, -, -⟩ := (C49_update self t ht e).2.2.1 hr
  have ho := (C49_update self t ht e).1
  rw [List.perm_ext_iff_of_nodup (h'.all_nodup.of_map) h.all_nodup.of_map]
  intro x
  rw [h.mem_all_iff, h'.mem_all_iff]
  have hb : ∀ k, t.bucketIndex k = bucketNo self.id k := fun k => by rw [Table.bucketIndex_eq, hs]; rfl
  show x ∈ (t.update e).1.bucket x.id ↔ x ∈ t.bucket x.id
  by_cases hk : bucketNo self.id x.id = bucketNo self.id e.id
  · have hb1 : t.bucket x.id = t.bucket e.id := by rw [Table.bucket, Table.bucket, hb, hb, hk]
    have hb2 : (t.update e).1.bucket x.id = (t.update e).1.bucket e.id := by
      rw [Table.bucket, Table.bucket, Table.bucketIndex_congr (Table.update_self t e), Table.bucketIndex_congr (Table.update_self t e), hb, hb, hk]
    rw [hb1, hb2, e1, e2]
    exact (List.perm_middle (a := old) (l₁ := pre) (l₂ := post)).symm.mem_iff
  · rw [ho x.id hk]

example : exTable.recorded (keyOf [1]) = true ∧ exTable.recorded (keyOf [3]) = false ∧ (exTable.bucket (keyOf [3])).length < bucketSize := by decide +kernel
/-- A full bucket exists. -/
example : let t := (List.range 16).foldl (fun t i => t.apply (.update (newID (keyOf [UInt8.ofNat (i + 1)]) [] 0))) exTable
    ¬ (t.bucket (keyOf [20])).length < bucketSize ∧ t.recorded (keyOf [20]) = false := by decide +kernel

/-! ## C50 -/

/-- Removing the one element `x` from a list. -/
def Spec.Without (l : List ID) (x : ID) (l' : List ID) : Prop := ∃ pre post, l = pre ++ x :: post ∧ l' = pre ++ post

/-- **C50.** `Delete(k)` removes exactly the peer with key `k`, if any, and returns it; otherwise it changes nothing and returns the zero id. -/
theorem C50_delete (self : ID) (t : Table) (ht : Table.Reachable self t) (k : PublicKey) :
    (t.recorded k = true → ∃ e, e.id = k ∧ (t.delete k).2 = (e, true) ∧ Without (t.bucket k) e ((t.delete k).1.bucket k) ∧
      (∀ k', bucketNo self.id k' ≠ bucketNo self.id k → (t.delete k).1.bucket k' = t.bucket k') ∧
      (t.delete k).1.recorded k = false ∧ (t.delete k).1.numEntries = t.numEntries - 1) ∧
    (t.recorded k = false → t.delete k = (t, ID.zero, false)) := by
  obtain ⟨h, hs⟩ := ht.inv
  have hb : ∀ k, t.bucketIndex k = bucketNo self.id k := fun k => by rw [Table.bucketIndex_eq, hs]; rfl
  have hb' : ∀ k', (t.delete k).1.bucketIndex k' = t.bucketIndex k' := fun k' => Table.bucketIndex_congr (Table.delete_self t k) k'
  cases hf : (t.entries (t.bucketIndex k)).find? (fun y => decide (y.id = k)) with
  | none =>
    have hr : t.recorded k = false := by
      rw [Table.recorded, List.any_eq_false]
      exact List.find?_eq_none.1 hf
    rw [hr]
    refine ⟨by simp, fun _ => ?_⟩
    simp only [Table.delete, hf]
  | some x =>
    have hr : t.recorded k = true := List.any_eq_true.2 ⟨x, List.mem_of_find?_eq_some hf, by have := List.find?_some hf; exact this⟩
    rw [hr]
    refine ⟨fun _ => ?_, by simp⟩
    obtain ⟨pre, post, e1, e2, e3, _⟩ := Table.split_of_find hf
    have e3 : x.id = k := by simpa using e3
    have hd : t.delete k = ({ t.setBucket (t.bucketIndex k) (pre ++ post) with size := t.size - 1 }, x, true) := by
      simp only [Table.delete, hf, e2]
    have hbk : (t.delete k).1.bucket k = pre ++ post := by
      rw [Table.bucket, hb', hd]; simp [Table.setBucket]
    refine ⟨x, e3, by rw [hd], ⟨pre, post, e1, hbk⟩, ?_, ?_, by rw [hd]; rfl⟩
    · intro k' hk'
      rw [← hb, ← hb] at hk'
      rw [Table.bucket, hb', hd, Table.bucket]
      simp [Table.setBucket, hk']
    · have : (t.delete k).1.recorded k = ((t.delete k).1.bucket k).any fun e => e.id = k := rfl
      rw [this, hbk, List.any_eq_false]
      intro y hy
      have hn := h.nodup (t.bucketIndex k)
      rw [e1] at hn
      have hn' := ((List.perm_middle (a := x) (l₁ := pre) (l₂ := post)).map ID.id).nodup_iff.1 hn
      simp only [List.map_cons, List.nodup_cons] at hn'
      intro hyk
      exact hn'.1 (List.mem_map.2 ⟨y, hy, by simp at hyk; rw [hyk, e3]⟩)

/-- **C50.** `DeleteByAddress(a)` removes exactly one peer with that address, if there is one, and returns it; otherwise it changes nothing. -/
theorem C50_delete_by_address (self : ID) (t : Table) (ht : Table.Reachable self t) (a : Text) :
    ((∃ e ∈ t.all, e.address = a) → ∃ e, e.address = a ∧ (t.deleteByAddress a).2 = (e, true) ∧ Without t.all e (t.deleteByAddress a).1.all ∧
      (∀ k', bucketNo self.id k' ≠ bucketNo self.id e.id → (t.deleteByAddress a).1.bucket k' = t.bucket k') ∧
      (t.deleteByAddress a).1.recorded e.id = false ∧ (t.deleteByAddress a).1.numEntries = t.numEntries - 1) ∧
    ((∀ e ∈ t.all, e.address ≠ a) → t.deleteByAddress a = (t, ID.zero, false)) := by
  obtain ⟨h, hs⟩ := ht.inv
  have hb : ∀ k, t.bucketIndex k = bucketNo self.id k := fun k => by rw [Table.bucketIndex_eq, hs]; rfl
  have hb' : ∀ k', (t.deleteByAddress a).1.bucketIndex k' = t.bucketIndex k' := fun k' => Table.bucketIndex_congr (Table.deleteByAddress_self t a) k'
  have key : ∀ n i, i + n = 256 → (t.deleteByAddressLoop a i n = (t, ID.zero, false) ∧ ∀ j, i ≤ j → j < 256 → ∀ e ∈ t.entries j, e.address ≠ a) ∨
      ∃ j x pre post, i ≤ j ∧ j < 256 ∧ t.entries j = pre ++ x :: post ∧ x.address = a ∧
        t.deleteByAddressLoop a i n = ({ t.setBucket j (pre ++ post) with size := t.size - 1 }, x, true) := by
    intro n
    induction n with
    | zero => intro i hi; exact Or.inl ⟨rfl, fun j h1 h2 => by omega⟩
    | succ n ih =>
      intro i hi
      unfold Table.deleteByAddressLoop
      cases hf : (t.entries i).find? (fun e => decide (e.address = a)) with
      | some x =>
        obtain ⟨pre, post, e1, e2, e3, _⟩ := Table.split_of_find hf
        exact Or.inr ⟨i, x, pre, post, Nat.le_refl _, by omega, e1, by simpa using e3, by simp only [e2]⟩
      | none =>
        simp only
        rcases ih (i + 1) (by omega) with ⟨h1, h2⟩ | ⟨j, x, pre, post, h1, h2, h3, h4, h5⟩
        · refine Or.inl ⟨h1, ?_⟩
          intro j hj1 hj2 e he
          by_cases hij : i = j
          · subst hij; have := List.find?_eq_none.1 hf e he; simpa using this
          · exact h2 j (by omega) hj2 e he
        · exact Or.inr ⟨j, x, pre, post, by omega, h2, h3, h4, h5⟩
  rcases key 256 0 rfl with ⟨h1, h2⟩ | ⟨j, x, pre, post, h1, h2, h3, h4, h5⟩
  · refine ⟨?_, fun _ => h1⟩
    rintro ⟨e, he, hea⟩
    obtain ⟨j, hj, hj'⟩ := (t.mem_all e).1 he
    exact absurd hea (h2 j (Nat.zero_le _) hj e hj')
  · have hx : x ∈ t.entries j := by rw [h3]; simp
    have hxa : x ∈ t.all := (t.mem_all x).2 ⟨j, h2, hx⟩
    refine ⟨fun _ => ⟨x, h4, by rw [Table.deleteByAddress, h5], ?_, ?_, ?_, by rw [Table.deleteByAddress, h5]; rfl⟩, fun hc => absurd h4 (hc x hxa)⟩
    · have hr : List.range 256 = List.range j ++ j :: (List.range (255 - j)).map (fun i => j + 1 + i) := by
        have : (256 : Nat) = (j + 1) + (255 - j) := by omega
        rw [this, List.range_add, List.range_succ, List.append_assoc]
        simp
      have e1 : t.all = (List.range j).flatMap t.entries ++ (pre ++ x :: post) ++ ((List.range (255 - j)).map (fun i => j + 1 + i)).flatMap t.entries := by
        rw [Table.all, hr, List.flatMap_append, List.flatMap_cons, h3]; simp only [List.append_assoc, List.cons_append]
      have e2 : (t.deleteByAddress a).1.all = (List.range j).flatMap t.entries ++ (pre ++ post) ++ ((List.range (255 - j)).map (fun i => j + 1 + i)).flatMap t.entries := by
        rw [Table.deleteByAddress, h5, Table.all, hr, List.flatMap_append, List.flatMap_cons]
        simp only [Table.setBucket, if_true]
        have c1 : (List.range j).flatMap (fun i => if i = j then pre ++ post else t.entries i) = (List.range j).flatMap t.entries := by
          apply List.flatMap_congr
          intro i hi
          have : i < j := by simpa using hi
          simp [show i ≠ j by omega]
        have c2 : ((List.range (255 - j)).map (fun i => j + 1 + i)).flatMap (fun i => if i = j then pre ++ post else t.entries i) = ((List.range (255 - j)).map (fun i => j + 1 + i)).flatMap t.entries := by
          apply List.flatMap_congr
          intro i hi
          obtain ⟨i', _, rfl⟩ := List.mem_map.1 hi
          simp [show j + 1 + i' ≠ j by omega]
        rw [c1, c2]; simp only [List.append_assoc]
      exact ⟨(List.range j).flatMap t.entries ++ pre, post ++ ((List.range (255 - j)).map (fun i => j + 1 + i)).flatMap t.entries, by rw [e1]; simp, by rw [e2]; simp⟩
    · intro k' hk'
      rw [← hb, ← hb, h.idx j x hx] at hk'
      rw [Table.bucket, hb', Table.deleteByAddress, h5, Table.bucket]
      simp [Table.setBucket, hk']
    · have hj : t.bucketIndex x.id = j := h.idx j x hx
      have : (t.deleteByAddress a).1.recorded x.id = (pre ++ post).any fun e => e.id = x.id := by
        rw [Table.recorded, hb', hj, Table.deleteByAddress, h5]; simp [Table.setBucket]
      rw [this, List.any_eq_false]
      intro y hy
      have hn := h.nodup j
      rw [h3] at hn
      have hn' := ((List.perm_middle (a := x) (l₁ := pre) (l₂ := post)).map ID.id).nodup_iff.1 hn
      simp only [List.map_cons, List.nodup_cons] at hn'
      intro hyk
      exact hn'.1 (List.mem_map.2 ⟨y, hy, by simpa using hyk⟩)

example : exTable.recorded (keyOf [2]) = true ∧ ∃ e ∈ exTable.all, e.address = "1.2.3.4:5".toList :=
  ⟨by decide +kernel, newID (keyOf [1]) [1, 2, 3, 4] 5, by decide +kernel, by decide +kernel⟩

/-! ## C51 -/

/-- **C51.** `FindClosest(target, k)` with `k ≥ 0` returns distinct recorded peers other than the target, nearest first, and exactly as many as possible: the smaller one
of `k` and the number of recorded peers other than the target. -/
theorem C51_find_closest (S : Sorter) (self : ID) (t : Table) (ht : Table.Reachable self t) (target : PublicKey) (k : Nat) : ∃ l, t.findClosest S target k = .ok l ∧
    (l.map ID.id).Nodup ∧ (∀ e ∈ l, e ∈ t.all ∧ e.id ≠ target) ∧ (l.Pairwise fun x y => dist x.id.1 target.1 ≤ dist y.id.1 target.1) ∧
    l.length = min k (t.all.filter fun e => e.id ≠ target).length := by
  obtain ⟨h, hs⟩ := ht.inv
  obtain ⟨r, h1, h2⟩ := Table.findClosest_eq S t target k
  have hidx := Table.bucketIndex_lt t target
  refine ⟨_, h1, ?_, ?_, ?_, ?_⟩
  · have := h.coll_nodup target hidx r
    exact (((sort_perm S target _).map ID.id).nodup_iff.2 this).sublist ((List.take_sublist _ _).map ID.id)
  · intro e he
    have he := (sort_perm S target _).mem_iff.1 (List.mem_of_mem_take he)
    obtain ⟨j, hj, _, _, hm⟩ := (Table.mem_coll t target hidx e r).1 he
    have := Table.mem_others.1 hm
    exact ⟨(t.mem_all e).2 ⟨j, hj, this.1⟩, this.2⟩
  · exact (sort_sorted S target _).sublist (List.take_sublist _ _)
  · rw [List.length_take, (sort_perm S target _).length_eq]
    have hsub : ∀ e, e ∈ t.coll target (t.bucketIndex target) r → e ∈ t.all.filter fun e => e.id ≠ target := by
      intro e he
      obtain ⟨j, hj, _, _, hm⟩ := (Table.mem_coll t target hidx e r).1 he
      have := Table.mem_others.1 hm
      simp only [List.mem_filter]
      exact ⟨(t.mem_all e).2 ⟨j, hj, this.1⟩, by simpa using this.2⟩
    have hnd : (t.coll target (t.bucketIndex target) r).Nodup := (h.coll_nodup target hidx r).of_map
    have hnd2 : (t.all.filter fun e => decide (e.id ≠ target)).Nodup := h.all_nodup.of_map.filter _
    have hle := (hnd.subperm hsub).length_le
    rcases h2 with h2 | h2
    · omega
    · have hsub2 : ∀ e, (e ∈ t.all.filter fun e => decide (e.id ≠ target)) → e ∈ t.coll target (t.bucketIndex target) r := by
        intro e he
        rw [List.mem_filter] at he
        obtain ⟨j, hj, hm⟩ := (t.mem_all e).1 he.1
        exact (Table.mem_coll t target hidx e r).2 ⟨j, hj, (h2 j hj).1, (h2 j hj).2, Table.mem_others.2 ⟨hm, by simpa using he.2⟩⟩
      have := (hnd2.subperm hsub2).length_le
      omega

/-- `k` below zero panics, unlike the documentation suggests. -/
theorem C51_negative_panics (S : Sorter) (t : Table) (target : PublicKey) (k : Int) (hk : k < 0) : t.findClosest S target k = .panic := by
  unfold Table.findClosest
  simp only
  rw [if_pos (by omega), if_pos hk]

example : exTable.findClosest insertionSorter (keyOf [3]) 2 = .ok [newID (keyOf [2]) [] 7, newID (keyOf [1]) [1, 2, 3, 4] 5] := by decide +kernel

/-! ## C52 -/

/-- The peers `1 … 16` of a table of the node `80…`, and a target `c0…` between. -/
def exFull : Table := (List.range 16).foldl (fun t i => t.apply (.update (newID (keyOf [UInt8.ofNat (i + 1)]) [] 0))) ((newTable (newID (keyOf [0x80]) [] 1)).getD ⟨fun _ => [], ID.zero, 0⟩)

/-- **C52 is false of the code**: with `k = BucketSize`, as used to answer a FIND_NODE request, `FindClosest` can leave out a recorded peer that is nearer to the target
than every peer it returns — here the node itself, at distance `40…` while all returned peers are at distance `c0…` or more. This holds for every sorting algorithm. -/
theorem C52_misses_closer_refuted (S : Sorter) : ∃ self t target l y, Table.Reachable self t ∧ t.findClosest S target bucketSize = .ok l ∧ l.length = 16 ∧
    y ∈ t.all ∧ y.id ≠ target ∧ y ∉ l ∧ ∀ x ∈ l, dist y.id.1 target.1 < dist x.id.1 target.1 := by
  refine ⟨newID (keyOf [0x80]) [] 1, exFull, keyOf [0xc0], sortByDistance S (keyOf [0xc0]) (exFull.entries 0), newID (keyOf [0x80]) [] 1, ?_, ?_, ?_, ?_, ?_, ?_, ?_⟩
  · exact ⟨_, (List.range 16).map fun i => .update (newID (keyOf [UInt8.ofNat (i + 1)]) [] 0), rfl, by rw [List.foldl_map]; rfl⟩
  · have e : exFull.findLoop (keyOf [0xc0]) bucketSize (exFull.bucketIndex (keyOf [0xc0])) 256 1 (exFull.others (keyOf [0xc0]) (exFull.bucketIndex (keyOf [0xc0]))) = exFull.entries 0 := by
      decide +kernel
    have e2 : (exFull.entries 0).length = 16 := by decide +kernel
    unfold Table.findClosest
    simp only [e]
    rw [if_neg (by rw [(sort_perm S _ _).length_eq, e2]; decide)]
  · rw [(sort_perm S _ _).length_eq]; decide +kernel
  · decide +kernel
  · decide +kernel
  · rw [(sort_perm S _ _).mem_iff]; decide +kernel
  · intro x hx
    rw [(sort_perm S _ _).mem_iff] at hx
    revert x
    decide +kernel

/-- **C52, what holds.** A peer that `FindClosest` leaves out is at least as far from the target as every peer it returns, provided that the peer's common prefix with the
node is not longer than the target's. (Missing: peers that share a longer prefix with the node than the target does.) -/
theorem C52_closest_partial (S : Sorter) (self : ID) (t : Table) (ht : Table.Reachable self t) (target : PublicKey) (k : Nat) (l : List ID)
    (hl : t.findClosest S target k = .ok l) (y : ID) (hy : y ∈ t.all) (hyt : y.id ≠ target) (hyl : y ∉ l) (hp : bucketNo self.id y.id ≤ bucketNo self.id target) :
    ∀ x ∈ l, dist x.id.1 target.1 ≤ dist y.id.1 target.1 := by
  obtain ⟨h, hs⟩ := ht.inv
  have hb : ∀ k, t.bucketIndex k = bucketNo self.id k := fun k => by rw [Table.bucketIndex_eq, hs]; rfl
  obtain ⟨r, h1, h2⟩ := Table.findClosest_eq S t target k
  have hidx := Table.bucketIndex_lt t target
  rw [h1] at hl
  obtain rfl := Res.ok.inj hl
  intro x hx
  have hxc := (sort_perm S target _).mem_iff.1 (List.mem_of_mem_take hx)
  obtain ⟨jx, hjx, hx1, hx2, hxm⟩ := (Table.mem_coll t target hidx x r).1 hxc
  have hxi := h.idx jx x (Table.mem_others.1 hxm).1
  obtain ⟨jy, hjy, hym⟩ := (t.mem_all y).1 hy
  have hyi := h.idx jy y hym
  rw [← hb, ← hb, hyi] at hp
  by_cases hv : t.bucketIndex target ≤ jy + r
  · -- collected, but cut off
    have hyc : y ∈ t.coll target (t.bucketIndex target) r := (Table.mem_coll t target hidx y r).2 ⟨jy, hjy, hv, by omega, Table.mem_others.2 ⟨hym, hyt⟩⟩
    have hys := (sort_perm S target _).mem_iff.2 hyc
    have hsplit := List.take_append_drop k (sortByDistance S target (t.coll target (t.bucketIndex target) r))
    have hyd : y ∈ (sortByDistance S target (t.coll target (t.bucketIndex target) r)).drop k := by
      rw [← hsplit] at hys
      rcases List.mem_append.1 hys with h' | h'
      · exact absurd h' hyl
      · exact h'
    have hsorted := sort_sorted S target (t.coll target (t.bucketIndex target) r)
    rw [← hsplit, List.pairwise_append] at hsorted
    exact hsorted.2.2 x hx y hyd
  · -- not visited: its bucket is beyond all visited ones
    have hlt : jy < t.bucketIndex target := by omega
    have hlt2 : jy < jx := by omega
    rw [Table.bucketIndex_eq] at hlt hyi hxi
    have l1 : y.id.1.length = target.1.length := by rw [y.id.2, target.2]
    have l2 : x.id.1.length = target.1.length := by rw [x.id.2, target.2]
    have l3 : target.1.length = t.self.id.1.length := by rw [t.self.id.2, target.2]
    apply Nat.le_of_lt
    apply dist_lt_of_prefix l2 l1
    have c1 := commonPrefix_trans (a := x.id.1) (b := t.self.id.1) (c := target.1) (l2.trans l3)
    rw [commonPrefix_comm l3.symm] at c1
    have c2 := commonPrefix_trans (a := y.id.1) (b := target.1) (c := t.self.id.1) l1
    omega

/-- **C52 for `Peers`.** For the node's own key `FindClosest` is exact: `Peers` leaves out only peers that are at least as far as those it returns. -/
theorem C52_peers_partial (S : Sorter) (self : ID) (t : Table) (ht : Table.Reachable self t) (l : List ID) (hl : t.peers S = .ok l) (y : ID) (hy : y ∈ t.all)
    (hyt : y.id ≠ self.id) (hyl : y ∉ l) : ∀ x ∈ l, dist x.id.1 self.id.1 ≤ dist y.id.1 self.id.1 := by
  have hs := ht.inv.2
  rw [Table.peers, hs] at hl
  refine C52_closest_partial S self t ht self.id bucketSize l hl y hy hyt hyl ?_
  have : commonPrefix self.id.1 self.id.1 = 256 := by
    apply Nat.le_antisymm
    · have := commonPrefix_le self.id.1 self.id.1; rw [self.id.2] at this; exact this
    · exact le_commonPrefix.2 ⟨by rw [self.id.2], fun _ _ => rfl⟩
  unfold bucketNo
  rw [this]; omega

/-- A peer is left out: 17 peers, 16 returned. -/
example : let t := exFull.apply (.update (newID (keyOf [0xf0]) [] 9)) |>.apply (.update (newID (keyOf [0x90]) [] 9))
    t.peers insertionSorter = .ok ((t.entries 3 ++ t.entries 1 ++ sortByDistance insertionSorter (keyOf [0x80]) (t.entries 0)).take 16) ∧ t.all.length = 19 := by decide +kernel

end Noise
