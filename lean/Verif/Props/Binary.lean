import Verif.Proofs.Binary
import Mathlib.Data.Nat.Bitwise
/-! # Properties C45-C47: XOR distance, prefixes and sorting (kademlia/binary.go) -/
namespace Noise
open Spec

/-! ## C45 -/

theorem xor_le_add : ∀ (n a b : Nat), a ≤ n → a ^^^ b ≤ a + b := by
  intro n
  induction n using Nat.strongRecOn with
  | _ n ih =>
    intro a b h
    by_cases ha : a = 0
    · subst ha; simp
    · have h1 := ih (a / 2) (by omega) (a / 2) (b / 2) (Nat.le_refl _)
      have h2 : (a ^^^ b) / 2 = a / 2 ^^^ b / 2 := Nat.xor_div_two
      have h3 : (a ^^^ b) % 2 = (a + b) % 2 := Nat.xor_mod_two_eq
      omega

/-- **C45.** `XOR` of two keys (slices of equal length) is the XOR of the numbers they denote, as a slice of the same length; the distance it induces is symmetric, zero
exactly for equal keys, satisfies the triangle inequality, and for every key and every possible distance there is exactly one key at that distance. -/
theorem C45_xor_metric (a b c : Bytes) (hb : a.length = b.length) (hc : a.length = c.length) :
    (xorBytes a b).length = a.length ∧ beVal (xorBytes a b) = beVal a ^^^ beVal b ∧
    (∀ i, bitAt (xorBytes a b) i = (bitAt a i != bitAt b i)) ∧
    xorBytes a b = xorBytes b a ∧
    (beVal (xorBytes a b) = 0 ↔ a = b) ∧
    beVal (xorBytes a c) ≤ beVal (xorBytes a b) + beVal (xorBytes b c) ∧
    ∀ d : Nat, d < 256 ^ a.length → ∃ x : Bytes, (x.length = a.length ∧ beVal (xorBytes a x) = d) ∧ ∀ y : Bytes, y.length = a.length ∧ beVal (xorBytes a y) = d → y = x := by
  have hbc : b.length = c.length := hb.symm.trans hc
  refine ⟨xorBytes_length a b, beVal_xor hb, ?_, ?_, ?_, ?_, ?_⟩
  · intro i; exact bitAt_xor hb i
  · apply beVal_inj
    · rw [xorBytes_length, xorBytes_length, hb]
    · rw [beVal_xor hb, beVal_xor hb.symm, Nat.xor_comm]
  · rw [beVal_xor hb]; exact dist_eq_zero hb
  · rw [beVal_xor hb, beVal_xor hc, beVal_xor hbc]
    have : beVal a ^^^ beVal c = (beVal a ^^^ beVal b) ^^^ (beVal b ^^^ beVal c) := by
      rw [Nat.xor_assoc, ← Nat.xor_assoc (beVal b), Nat.xor_self, Nat.zero_xor]
    rw [this]; exact xor_le_add _ _ _ (Nat.le_refl _)
  · intro d hd
    obtain ⟨x, hx, hv⟩ := bytes_of_nat a.length (beVal a ^^^ d) (by
      rw [pow256] at hd ⊢; exact Nat.xor_lt_two_pow (beVal_lt' a) hd)
    have ex : ∀ y : Bytes, y.length = a.length → (beVal (xorBytes a y) = d ↔ beVal y = beVal a ^^^ d) := by
      intro y hy
      rw [beVal_xor hy.symm]
      constructor
      · rintro rfl; rw [← Nat.xor_assoc, Nat.xor_self, Nat.zero_xor]
      · intro e; rw [e, ← Nat.xor_assoc, Nat.xor_self, Nat.zero_xor]
    refine ⟨x, ⟨hx, (ex x hx).2 hv⟩, ?_⟩
    rintro y ⟨hy, hd'⟩
    exact beVal_inj (hy.trans hx.symm) (((ex y hy).1 hd').trans hv.symm)

/-- **C45 (slices of different lengths).** `XOR` then returns its first argument. -/
theorem C45_xor_lengths (a b : Bytes) (h : a.length ≠ b.length) : xorBytes a b = a := by simp [xorBytes, h]

example : xorBytes [0x0f, 0x81] [0xff, 0x01] = [0xf0, 0x80] := by decide

/-! ## C46 -/

/-- **C46.** `PrefixLen(a)` is the number of leading zero bits of `a` (the whole length for an all-zero slice), and `PrefixDiff(a, b, n)` the number of positions among
the first `n` at which `a` and `b` differ; a negative `n` counts as zero, and positions past the end do not differ. -/
theorem C46_prefixes (a b : Bytes) (n : Int) (h : a.length = b.length) :
    (prefixLen a ≤ 8 * a.length ∧ (∀ i < prefixLen a, bitAt a i = false) ∧ (prefixLen a < 8 * a.length → bitAt a (prefixLen a) = true)) ∧
    prefixDiff a b n = ((List.range n.toNat).filter fun i => bitAt a i != bitAt b i).length :=
  ⟨prefixLen_spec a, prefixDiff_spec h n⟩

/-- **C46.** The length of the common prefix of two keys is `PrefixLen` of their XOR. -/
theorem C46_common_prefix (a b : Bytes) (h : a.length = b.length) :
    (∀ i < prefixLen (xorBytes a b), bitAt a i = bitAt b i) ∧ (prefixLen (xorBytes a b) < 8 * a.length → bitAt a (prefixLen (xorBytes a b)) ≠ bitAt b (prefixLen (xorBytes a b))) := by
  obtain ⟨_, h2, h3⟩ := prefixLen_spec (xorBytes a b)
  constructor
  · intro i hi
    have := h2 i hi
    rw [bitAt_xor h] at this
    revert this; cases bitAt a i <;> cases bitAt b i <;> simp
  · intro hl
    have := h3 (by rw [xorBytes_length]; exact hl)
    rw [bitAt_xor h] at this
    intro e; rw [e] at this; simp at this

example : prefixLen [0, 0x10] = 11 ∧ prefixLen [0, 0] = 16 ∧ prefixDiff [0xff, 0xf0] [0x0f, 0x0f] 11 = 7 := by decide

/-! ## C47 -/

/-- **C47.** `SortByDistance` returns a permutation of its input, ordered from the nearest to the farthest. -/
theorem C47_sorted (S : Sorter) (t : PublicKey) (l : List ID) :
    (sortByDistance S t l).Perm l ∧ (sortByDistance S t l).Pairwise fun x y => dist x.id.1 t.1 ≤ dist y.id.1 t.1 := ⟨sort_perm S t l, sort_sorted S t l⟩

/-- **C47.** On inputs with distinct keys the result depends only on the set of ids: not on their order, nor on the sorting algorithm. -/
theorem C47_deterministic (S S' : Sorter) (t : PublicKey) (l l' : List ID) (hp : l.Perm l') (hn : (l.map ID.id).Nodup) : sortByDistance S t l = sortByDistance S' t l' := by
  have hp1 := sort_perm S t l
  have hp2 := sort_perm S' t l'
  exact sorted_unique (hp1.trans (hp.trans hp2.symm)) ((hp1.map ID.id).nodup_iff.2 hn) (sort_sorted S t l) (sort_sorted S' t l')

/-- Insertion into an ordered list. -/
def insertBy (less : ID → ID → Bool) (x : ID) : List ID → List ID
  | [] => [x]
  | y :: l => if less y x then y :: insertBy less x l else x :: y :: l

theorem insertBy_perm (less : ID → ID → Bool) (x : ID) : ∀ l, (insertBy less x l).Perm (x :: l)
  | [] => List.Perm.refl _
  | y :: l => by
    unfold insertBy; split
    · exact ((insertBy_perm less x l).cons y).trans (List.Perm.swap x y l)
    · exact List.Perm.refl _

/-- There is a sorter: insertion sort. -/
def insertionSorter : Sorter where
  sort less l := l.foldr (insertBy less) []
  perm less l := by
    induction l with
    | nil => exact List.Perm.refl _
    | cons x l ih => exact (insertBy_perm less x _).trans (ih.cons x)
  sorted less l h1 h2 h3 := by
    induction l with
    | nil => exact List.Pairwise.nil
    | cons x l ih =>
      simp only [List.foldr_cons]
      generalize l.foldr (insertBy less) [] = m at ih
      induction m with
      | nil => simp [insertBy]
      | cons y m ih2 =>
        obtain ⟨k1, k2⟩ := List.pairwise_cons.1 ih
        have hirr : less y x = true → less x y = false := fun h => by
          cases hx : less x y with
          | false => rfl
          | true => have := h2 _ _ _ h hx; rw [h1] at this; cases this
        unfold insertBy; split
        · rename_i hyx
          refine List.pairwise_cons.2 ⟨?_, ih2 k2⟩
          intro z hz
          rcases List.mem_cons.1 ((insertBy_perm less x m).mem_iff.1 hz) with rfl | hz
          · exact hirr hyx
          · exact k1 z hz
        · rename_i hyx
          have hyx : less y x = false := by simpa using hyx
          refine List.pairwise_cons.2 ⟨?_, ih⟩
          intro z hz
          rcases List.mem_cons.1 hz with rfl | hz
          · exact hyx
          · exact h3 _ _ _ (k1 z hz) hyx

/-- Two peers are put in order. -/
example : sortByDistance insertionSorter (keyOf [1]) [newID (keyOf [8]) [] 1, newID (keyOf [3]) [] 2] = [newID (keyOf [3]) [] 2, newID (keyOf [8]) [] 1] := by decide +kernel
example : (([newID (keyOf [8]) [] 1, newID (keyOf [3]) [] 2] : List ID).map ID.id).Nodup := by decide

end Noise
