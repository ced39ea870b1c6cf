import Verif.Proofs.Table
import Verif.Spec.Kad
namespace Noise
open Spec

/-! ### common prefixes -/

theorem le_takeWhile_length {α : Type} (p : α → Bool) : ∀ (l : List α) (n : Nat), n ≤ (l.takeWhile p).length ↔ ∀ i < n, ∃ x, l[i]? = some x ∧ p x = true
  | [], n => by
    simp
    constructor
    · rintro rfl; simp
    · intro h
      cases n with
      | zero => rfl
      | succ n => exact absurd (h 0) (by omega)
  | a :: l, n => by
    cases n with
    | zero => simp
    | succ n =>
      by_cases ha : p a
      · have ih := le_takeWhile_length p l n
        rw [List.takeWhile_cons, if_pos ha, List.length_cons, Nat.succ_le_succ_iff, ih]
        constructor
        · intro h i hi
          cases i with
          | zero => exact ⟨a, rfl, ha⟩
          | succ i => exact h i (by omega)
        · intro h i hi; exact h (i + 1) (by omega)
      · rw [List.takeWhile_cons, if_neg ha]
        constructor
        · intro h; simp at h
        · intro h
          obtain ⟨x, hx, hp⟩ := h 0 (by omega)
          simp at hx; subst hx; exact absurd hp ha

theorem le_commonPrefix {a b : Bytes} {n : Nat} : n ≤ commonPrefix a b ↔ n ≤ 8 * a.length ∧ ∀ i < n, bitAt a i = bitAt b i := by
  rw [commonPrefix, le_takeWhile_length]
  constructor
  · intro h
    refine ⟨?_, ?_⟩
    · apply Classical.byContradiction
      intro hc
      obtain ⟨x, hx, _⟩ := h (8 * a.length) (by omega)
      rw [List.getElem?_eq_none (by simp)] at hx; cases hx
    · intro i hi
      obtain ⟨x, hx, hp⟩ := h i hi
      rw [List.getElem?_range (by
        apply Classical.byContradiction; intro hc
        rw [List.getElem?_eq_none (by simpa using hc)] at hx; cases hx)] at hx
      cases hx; simpa using hp
  · rintro ⟨h1, h2⟩ i hi
    exact ⟨i, List.getElem?_range (by omega), by simpa using h2 i hi⟩

theorem commonPrefix_le (a b : Bytes) : commonPrefix a b ≤ 8 * a.length := (le_commonPrefix.1 (Nat.le_refl _)).1

theorem commonPrefix_leadingZeros {a b : Bytes} (h : a.length = b.length) : LeadingZeros (xorBytes a b) (commonPrefix a b) := by
  refine ⟨by rw [xorBytes_length]; exact commonPrefix_le a b, ?_, ?_⟩
  · intro i hi
    have := (le_commonPrefix.1 (Nat.le_refl _)).2 i hi
    rw [bitAt_xor h, this]; simp
  · intro hl
    rw [xorBytes_length] at hl
    rw [bitAt_xor h]
    apply Classical.byContradiction
    intro hc
    have he : bitAt a (commonPrefix a b) = bitAt b (commonPrefix a b) := by
      revert hc; cases bitAt a _ <;> cases bitAt b _ <;> simp
    have : commonPrefix a b + 1 ≤ commonPrefix a b := le_commonPrefix.2 ⟨hl, by
      intro i hi
      by_cases hi' : i = commonPrefix a b
      · rw [hi']; exact he
      · exact (le_commonPrefix.1 (Nat.le_refl _)).2 i (by omega)⟩
    omega

theorem prefixLen_xor {a b : Bytes} (h : a.length = b.length) : prefixLen (xorBytes a b) = commonPrefix a b :=
  (prefixLen_spec _).unique (commonPrefix_leadingZeros h)

theorem commonPrefix_comm {a b : Bytes} (h : a.length = b.length) : commonPrefix a b = commonPrefix b a := by
  have key : ∀ {a b : Bytes}, a.length = b.length → commonPrefix a b ≤ commonPrefix b a := by
    intro a b h
    obtain ⟨h1, h2⟩ := le_commonPrefix.1 (Nat.le_refl (commonPrefix a b))
    exact le_commonPrefix.2 ⟨by rw [← h]; exact h1, fun i hi => (h2 i hi).symm⟩
  exact Nat.le_antisymm (key h) (key h.symm)

/-- Common prefixes form an ultrametric. -/
theorem commonPrefix_trans {a b c : Bytes} (h : a.length = b.length) : min (commonPrefix a b) (commonPrefix b c) ≤ commonPrefix a c := by
  obtain ⟨h1, h2⟩ := le_commonPrefix.1 (Nat.le_refl (commonPrefix a b))
  obtain ⟨h3, h4⟩ := le_commonPrefix.1 (Nat.le_refl (commonPrefix b c))
  exact le_commonPrefix.2 ⟨by omega, fun i hi => (h2 i (by omega)).trans (h4 i (by omega))⟩

theorem bitAt_eq_bytes {a b : Bytes} (h : a.length = b.length) (hb : ∀ i < 8 * a.length, bitAt a i = bitAt b i) : a = b := by
  apply beVal_inj h
  apply Nat.eq_of_testBit_eq
  intro i
  by_cases hi : i < 8 * a.length
  · have h1 := beVal_testBit a (8 * a.length - 1 - i) (by omega)
    have h2 := beVal_testBit b (8 * a.length - 1 - i) (by omega)
    rw [show 8 * a.length - 1 - (8 * a.length - 1 - i) = i by omega] at h1
    rw [← h, show 8 * a.length - 1 - (8 * a.length - 1 - i) = i by omega] at h2
    rw [h1, h2]; exact hb _ (by omega)
  · rw [Nat.testBit_lt_two_pow (Nat.lt_of_lt_of_le (beVal_lt' a) (Nat.pow_le_pow_right (by omega) (by omega))),
      Nat.testBit_lt_two_pow (Nat.lt_of_lt_of_le (beVal_lt' b) (Nat.pow_le_pow_right (by omega) (by omega)))]

theorem dist_lt_pow {a b : Bytes} (h : a.length = b.length) : dist a b < 2 ^ (8 * a.length - commonPrefix a b) := by
  have hz := commonPrefix_leadingZeros h
  rw [dist, ← beVal_xor h]
  apply Nat.lt_pow_two_of_testBit
  intro i hi
  by_cases hi' : i < 8 * a.length
  · have h1 := beVal_testBit (xorBytes a b) (8 * a.length - 1 - i) (by rw [xorBytes_length]; omega)
    rw [xorBytes_length, show 8 * a.length - 1 - (8 * a.length - 1 - i) = i by omega] at h1
    rw [h1]; exact hz.2.1 _ (by omega)
  · refine Nat.testBit_lt_two_pow (Nat.lt_of_lt_of_le (beVal_lt' _) (Nat.pow_le_pow_right (by omega) ?_))
    rw [xorBytes_length]; omega

theorem pow_le_dist {a b : Bytes} (h : a.length = b.length) (hl : commonPrefix a b < 8 * a.length) : 2 ^ (8 * a.length - 1 - commonPrefix a b) ≤ dist a b := by
  have hz := commonPrefix_leadingZeros h
  rw [dist, ← beVal_xor h]
  apply Nat.ge_two_pow_of_testBit
  have := beVal_testBit (xorBytes a b) (commonPrefix a b) (by rw [xorBytes_length]; exact hl)
  rw [xorBytes_length] at this
  rw [this]; exact hz.2.2 (by rw [xorBytes_length]; exact hl)

/-- A longer common prefix with the target means a smaller distance. -/
theorem dist_lt_of_prefix {x y t : Bytes} (hx : x.length = t.length) (hy : y.length = t.length) (h : commonPrefix y t < commonPrefix x t) : dist x t < dist y t := by
  have hl := commonPrefix_le x t
  have h1 := dist_lt_pow hx
  have h2 := pow_le_dist hy (by omega)
  have : 2 ^ (8 * x.length - commonPrefix x t) ≤ 2 ^ (8 * y.length - 1 - commonPrefix y t) := Nat.pow_le_pow_right (by omega) (by omega)
  omega

namespace Table

theorem bucketIndex_eq (t : Table) (k : PublicKey) : t.bucketIndex k = min 255 (commonPrefix k.1 t.self.id.1) := by
  have hl : k.1.length = t.self.id.1.length := by rw [k.2, t.self.id.2]
  have hle := commonPrefix_le k.1 t.self.id.1
  rw [k.2] at hle
  unfold bucketIndex
  simp only [prefixLen_xor hl]
  split <;> omega

/-! ### the loop of FindClosest -/

/-- What has been collected when the buckets within distance `r` of `idx` have been visited. -/
def coll (t : Table) (target : PublicKey) (idx : Nat) : Nat → List ID
  | 0 => t.others target idx
  | r + 1 =>
    let c := t.coll target idx r
    let c := if r + 1 ≤ idx then c ++ t.others target (idx - (r + 1)) else c
    if idx + (r + 1) < 256 then c ++ t.others target (idx + (r + 1)) else c

theorem findLoop_spec (t : Table) (target : PublicKey) (k : Int) (idx : Nat) (hidx : idx < 256) : ∀ (fuel r : Nat), 256 ≤ fuel + r →
    ∃ r', r ≤ r' ∧ t.findLoop target k idx fuel (r + 1) (t.coll target idx r) = t.coll target idx r' ∧
      (k ≤ ((t.coll target idx r').length : Int) ∨ (idx ≤ r' ∧ 256 ≤ idx + r' + 1)) := by
  intro fuel
  induction fuel with
  | zero => intro r h; exact ⟨r, Nat.le_refl _, rfl, Or.inr (by omega)⟩
  | succ fuel ih =>
    intro r h
    unfold findLoop
    split
    · obtain ⟨r', h1, h2, h3⟩ := ih (r + 1) (by omega)
      exact ⟨r', by omega, h2, h3⟩
    · rename_i hc
      refine ⟨r, Nat.le_refl _, rfl, ?_⟩
      omega

theorem mem_coll (t : Table) (target : PublicKey) {idx : Nat} (hidx : idx < 256) (x : ID) : ∀ r, x ∈ t.coll target idx r ↔ ∃ j < 256, idx ≤ j + r ∧ j ≤ idx + r ∧ x ∈ t.others target j
  | 0 => by
    simp only [coll, Nat.add_zero]
    constructor
    · intro h; exact ⟨idx, hidx, Nat.le_refl _, Nat.le_refl _, h⟩
    · rintro ⟨j, _, h1, h2, h⟩
      have : j = idx := by omega
      rwa [this] at h
  | r + 1 => by
    have ih := mem_coll t target hidx x r
    have e : x ∈ t.coll target idx (r + 1) ↔ x ∈ t.coll target idx r ∨ (r + 1 ≤ idx ∧ x ∈ t.others target (idx - (r + 1))) ∨ (idx + (r + 1) < 256 ∧ x ∈ t.others target (idx + (r + 1))) := by
      simp only [coll]
      clear ih
      split <;> split <;> grind
    rw [e, ih]
    constructor
    · rintro (⟨j, h0, h1, h2, h⟩ | ⟨h1, h⟩ | ⟨h1, h⟩)
      · exact ⟨j, h0, by omega, by omega, h⟩
      · exact ⟨_, by omega, by omega, by omega, h⟩
      · exact ⟨_, h1, by omega, by omega, h⟩
    · rintro ⟨j, h0, h1, h2, h⟩
      by_cases ha : idx ≤ j + r ∧ j ≤ idx + r
      · exact Or.inl ⟨j, h0, ha.1, ha.2, h⟩
      · by_cases hb : j < idx
        · have : j = idx - (r + 1) := by omega
          exact Or.inr (Or.inl ⟨by omega, this ▸ h⟩)
        · have : j = idx + (r + 1) := by omega
          exact Or.inr (Or.inr ⟨by omega, this ▸ h⟩)

theorem mem_others {t : Table} {target : PublicKey} {i : Nat} {x : ID} : x ∈ t.others target i ↔ x ∈ t.entries i ∧ x.id ≠ target := by
  simp [others]

theorem Inv.coll_nodup {t : Table} (h : Inv t) (target : PublicKey) {idx : Nat} (hidx : idx < 256) : ∀ r, ((t.coll target idx r).map ID.id).Nodup
  | 0 => by
    simp only [coll]
    exact (h.nodup idx).sublist (List.Sublist.map _ List.filter_sublist)
  | r + 1 => by
    have ih := h.coll_nodup target hidx r
    have ho : ∀ j, ((t.others target j).map ID.id).Nodup := fun j => (h.nodup j).sublist (List.Sublist.map _ List.filter_sublist)
    have hd : ∀ (l : List ID) j, (l.map ID.id).Nodup → (∀ x ∈ l, ∀ i, x ∈ t.entries i → i ≠ j) → (∀ x ∈ l, ∃ i, x ∈ t.entries i) → ((l ++ t.others target j).map ID.id).Nodup := by
      intro l j hl h1 h2
      rw [List.map_append, List.nodup_append']
      refine ⟨hl, ho j, ?_⟩
      intro k hk hk'
      obtain ⟨x, hx, rfl⟩ := List.mem_map.1 hk
      obtain ⟨y, hy, hxy⟩ := List.mem_map.1 hk'
      obtain ⟨i, hi⟩ := h2 x hx
      exact h1 x hx i hi (h.key_unique hi (mem_others.1 hy).1 hxy.symm).2
    have hc : ∀ x ∈ t.coll target idx r, ∃ i, x ∈ t.entries i ∧ idx ≤ i + r ∧ i ≤ idx + r := by
      intro x hx
      obtain ⟨j, _, h1, h2, h3⟩ := (mem_coll t target hidx x r).1 hx
      exact ⟨j, (mem_others.1 h3).1, h1, h2⟩
    have hu : ∀ x i j, x ∈ t.entries i → x ∈ t.entries j → i = j := fun x i j h1 h2 => (h.key_unique h1 h2 rfl).2
    have hA : ∀ j, (idx > j + r ∨ j > idx + r) → ∀ x ∈ t.coll target idx r, ∀ i, x ∈ t.entries i → i ≠ j := by
      intro j hj x hx i hi hij
      obtain ⟨i', h1, h2, h3⟩ := hc x hx
      have := hu x i i' hi h1
      omega
    simp only [coll]
    by_cases ha : r + 1 ≤ idx
    · rw [if_pos ha]
      have n1 := hd _ (idx - (r + 1)) ih (hA _ (by omega)) (fun x hx => (hc x hx).imp fun _ h => h.1)
      split
      · refine hd _ _ n1 ?_ ?_
        · intro x hx i hi hij
          rcases List.mem_append.1 hx with hx | hx
          · exact hA (idx + (r + 1)) (by omega) x hx i hi hij
          · have := hu x i _ hi (mem_others.1 hx).1
            omega
        · intro x hx
          rcases List.mem_append.1 hx with hx | hx
          · exact (hc x hx).imp fun _ h => h.1
          · exact ⟨_, (mem_others.1 hx).1⟩
      · exact n1
    · rw [if_neg ha]
      split
      · exact hd _ _ ih (hA _ (by omega)) (fun x hx => (hc x hx).imp fun _ h => h.1)
      · exact ih

/-- The outcome of `FindClosest`: the collected peers within some radius, sorted, cut to `k`. -/
theorem findClosest_eq (S : Sorter) (t : Table) (target : PublicKey) (k : Nat) : ∃ r, t.findClosest S target k = .ok ((sortByDistance S target (t.coll target (t.bucketIndex target) r)).take k) ∧
    (k ≤ (t.coll target (t.bucketIndex target) r).length ∨ ∀ j < 256, t.bucketIndex target ≤ j + r ∧ j ≤ t.bucketIndex target + r) := by
  obtain ⟨r, _, h2, h3⟩ := findLoop_spec t target k (t.bucketIndex target) (bucketIndex_lt t target) 256 0 (by omega)
  refine ⟨r, ?_, ?_⟩
  · unfold findClosest
    simp only [coll] at h2
    simp only [h2]
    split
    · rw [if_neg (by omega)]; simp
    · rename_i h
      rw [List.take_of_length_le (by omega)]
  · rcases h3 with h3 | h3
    · exact Or.inl (by omega)
    · exact Or.inr (fun j hj => by omega)

end Table
end Noise
