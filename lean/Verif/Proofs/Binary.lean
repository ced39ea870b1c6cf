import Verif.Model.Binary
import Verif.Proofs.Basic
import Mathlib.Data.List.Nodup
namespace Noise
open Spec

theorem xor_split (x y a b n : Nat) (ha : a < 2 ^ n) (hb : b < 2 ^ n) : (x * 2 ^ n + a) ^^^ (y * 2 ^ n + b) = (x ^^^ y) * 2 ^ n + (a ^^^ b) := by
  apply Nat.eq_of_testBit_eq
  intro i
  have hab : a ^^^ b < 2 ^ n := Nat.xor_lt_two_pow ha hb
  rw [Nat.testBit_xor, Nat.mul_comm x, Nat.mul_comm y, Nat.mul_comm (x ^^^ y), Nat.testBit_two_pow_mul_add x ha, Nat.testBit_two_pow_mul_add y hb,
    Nat.testBit_two_pow_mul_add _ hab]
  split <;> simp [Nat.testBit_xor]

theorem pow256 (n : Nat) : 256 ^ n = 2 ^ (8 * n) := by
  rw [show (256 : Nat) = 2 ^ 8 from rfl, ← Nat.pow_mul]

theorem beVal_lt' (b : Bytes) : beVal b < 2 ^ (8 * b.length) := by rw [← pow256]; exact beVal_lt b

theorem zipWith_xor_length {a b : Bytes} (h : a.length = b.length) : (List.zipWith (· ^^^ ·) a b).length = a.length := by simp [h]

theorem beVal_zipWith_xor : ∀ {a b : Bytes}, a.length = b.length → beVal (List.zipWith (· ^^^ ·) a b) = beVal a ^^^ beVal b
  | [], [], _ => by simp
  | x :: a, y :: b, h => by
    have hl : a.length = b.length := by simpa using h
    have := beVal_zipWith_xor hl
    rw [List.zipWith_cons_cons, beVal_cons, beVal_cons, beVal_cons, zipWith_xor_length hl, this, ← hl, pow256, UInt8.toNat_xor]
    exact (xor_split _ _ _ _ _ (beVal_lt' a) (by rw [hl]; exact beVal_lt' b)).symm

theorem xorBytes_eq {a b : Bytes} (h : a.length = b.length) : xorBytes a b = List.zipWith (· ^^^ ·) a b := by simp [xorBytes, h]

theorem xorBytes_length (a b : Bytes) : (xorBytes a b).length = a.length := by
  unfold xorBytes; split
  · rfl
  · rename_i h; simp at h; simp [h]

theorem beVal_xor {a b : Bytes} (h : a.length = b.length) : beVal (xorBytes a b) = beVal a ^^^ beVal b := by
  rw [xorBytes_eq h, beVal_zipWith_xor h]

/-! ## bits -/

theorem beVal_testBit : ∀ (a : Bytes) (i : Nat), i < 8 * a.length → (beVal a).testBit (8 * a.length - 1 - i) = bitAt a i
  | [], i, h => by simp at h
  | x :: a, i, h => by
    rw [beVal_cons, pow256, Nat.mul_comm, Nat.testBit_two_pow_mul_add _ (beVal_lt' a)]
    by_cases hi : i < 8
    · have e : i / 8 = 0 := by omega
      have e2 : ¬ (8 * (x :: a).length - 1 - i < 8 * a.length) := by simp only [List.length_cons]; omega
      rw [if_neg e2]
      simp only [bitAt, e, List.length_cons, List.getElem?_cons_zero]
      congr 1; omega
    · have e2 : (8 * (x :: a).length - 1 - i < 8 * a.length) := by simp only [List.length_cons] at h ⊢; omega
      rw [if_pos e2]
      have hk := beVal_testBit a (i - 8) (by simp only [List.length_cons] at h; omega)
      have e3 : 8 * (x :: a).length - 1 - i = 8 * a.length - 1 - (i - 8) := by simp only [List.length_cons]; omega
      rw [e3, hk]
      have e4 : i / 8 = (i - 8) / 8 + 1 := by omega
      have e5 : i % 8 = (i - 8) % 8 := by omega
      simp only [bitAt, e4, List.getElem?_cons_succ, e5]

theorem bitAt_past (a : Bytes) {i : Nat} (h : 8 * a.length ≤ i) : bitAt a i = false := by
  have : a[i / 8]? = none := by rw [List.getElem?_eq_none_iff]; omega
  simp [bitAt, this]

theorem bitAt_xor {a b : Bytes} (h : a.length = b.length) (i : Nat) : bitAt (xorBytes a b) i = (bitAt a i ^^ bitAt b i) := by
  by_cases hi : i < 8 * a.length
  · have h1 := beVal_testBit (xorBytes a b) i (by rw [xorBytes_length]; exact hi)
    have h2 := beVal_testBit a i hi
    have h3 := beVal_testBit b i (by rw [← h]; exact hi)
    rw [← h1, ← h2, ← h3, beVal_xor h, xorBytes_length, ← h, Nat.testBit_xor]
  · rw [bitAt_past _ (by rw [xorBytes_length]; omega), bitAt_past a (by omega), bitAt_past b (by omega)]; rfl

theorem bitAt_cons_lt (x : UInt8) (a : Bytes) {i : Nat} (h : i < 8) : bitAt (x :: a) i = x.toNat.testBit (7 - i) := by
  have e : i / 8 = 0 := by omega
  have e2 : i % 8 = i := by omega
  simp [bitAt, e, e2]

theorem bitAt_cons_add (x : UInt8) (a : Bytes) (i : Nat) : bitAt (x :: a) (8 + i) = bitAt a i := by
  have e4 : (8 + i) / 8 = i / 8 + 1 := by omega
  have e5 : (8 + i) % 8 = i % 8 := by omega
  simp only [bitAt, e4, List.getElem?_cons_succ, e5]

/-! ## PrefixLen -/

theorem lz8_spec : ∀ b : UInt8, b ≠ 0 → leadingZeros8 b < 8 ∧ (∀ i < leadingZeros8 b, b.toNat.testBit (7 - i) = false) ∧ b.toNat.testBit (7 - leadingZeros8 b) = true := by
  intro b hb
  have hb0 : b.toNat ≠ 0 := fun h => hb (by rw [← UInt8.toNat_inj]; simpa using h)
  have hlt : Nat.log2 b.toNat < 8 := (Nat.log2_lt hb0).2 b.toNat_lt
  have e : leadingZeros8 b = 7 - Nat.log2 b.toNat := by simp [leadingZeros8, hb]
  refine ⟨by omega, ?_, ?_⟩
  · intro i hi
    apply Nat.testBit_lt_two_pow
    exact (Nat.log2_lt hb0).1 (by omega)
  · rw [e, show 7 - (7 - Nat.log2 b.toNat) = Nat.log2 b.toNat by omega]
    exact Nat.testBit_log2 hb0

/-- `n` is the number of leading zero bits of `a`. -/
def LeadingZeros (a : Bytes) (n : Nat) : Prop := n ≤ 8 * a.length ∧ (∀ i < n, bitAt a i = false) ∧ (n < 8 * a.length → bitAt a n = true)

theorem prefixLenLoop_spec : ∀ (a : Bytes) (k : Nat), LeadingZeros a ((prefixLenLoop k a).getD (k * 8 + a.length * 8) - k * 8) ∧ k * 8 ≤ (prefixLenLoop k a).getD (k * 8 + a.length * 8)
  | [], k => by simp [prefixLenLoop, LeadingZeros]
  | b :: a, k => by
    unfold prefixLenLoop
    split
    · rename_i hb
      obtain ⟨h1, h2, h3⟩ := lz8_spec b hb
      simp only [Option.getD_some, Nat.add_sub_cancel_left]
      refine ⟨⟨by simp only [List.length_cons]; omega, ?_, ?_⟩, by omega⟩
      · intro i hi
        rw [bitAt_cons_lt b a (by omega)]; exact h2 i hi
      · intro _; rw [bitAt_cons_lt b a h1]; exact h3
    · rename_i hb
      have hb : b = 0 := by simpa using hb
      obtain ⟨⟨h1, h2, h3⟩, h4⟩ := prefixLenLoop_spec a (k + 1)
      have e : k * 8 + (b :: a).length * 8 = (k + 1) * 8 + a.length * 8 := by simp only [List.length_cons]; omega
      rw [e]
      generalize (prefixLenLoop (k + 1) a).getD ((k + 1) * 8 + a.length * 8) = m at *
      refine ⟨⟨by simp only [List.length_cons]; omega, ?_, ?_⟩, by omega⟩
      · intro i hi
        by_cases hi8 : i < 8
        · rw [bitAt_cons_lt b a hi8, hb]; simp
        · rw [show i = 8 + (i - 8) by omega, bitAt_cons_add]; exact h2 _ (by omega)
      · intro hm
        rw [show m - k * 8 = 8 + (m - (k + 1) * 8) by omega, bitAt_cons_add]
        exact h3 (by simp only [List.length_cons] at hm; omega)

theorem prefixLen_spec (a : Bytes) : LeadingZeros a (prefixLen a) := by
  have := (prefixLenLoop_spec a 0).1
  simpa [prefixLen] using this

theorem LeadingZeros.unique {a : Bytes} {m n : Nat} (hm : LeadingZeros a m) (hn : LeadingZeros a n) : m = n := by
  obtain ⟨a1, a2, a3⟩ := hm
  obtain ⟨b1, b2, b3⟩ := hn
  rcases Nat.lt_trichotomy m n with h | h | h
  · have := b2 m h; rw [a3 (by omega)] at this; cases this
  · exact h
  · have := a2 n h; rw [b3 (by omega)] at this; cases this

/-! ## PrefixDiff -/

/-- Number of set bits among the first `n` bits. -/
def onesBelow (a : Bytes) (n : Nat) : Nat := ((List.range n).filter fun i => bitAt a i).length

theorem filter_range_add (p : Nat → Bool) (m n : Nat) : ((List.range (m + n)).filter p).length = ((List.range m).filter p).length + ((List.range n).filter fun i => p (m + i)).length := by
  rw [List.range_add, List.filter_append, List.length_append, List.filter_map, List.length_map]; rfl

theorem onesBelow_cons (x : UInt8) (a : Bytes) (n : Nat) : onesBelow (x :: a) (8 + n) = ((List.range 8).filter fun i => x.toNat.testBit (7 - i)).length + onesBelow a n := by
  unfold onesBelow
  rw [filter_range_add]
  have e1 : (List.range 8).filter (fun i => bitAt (x :: a) i) = (List.range 8).filter fun i => x.toNat.testBit (7 - i) :=
    List.filter_congr fun i hi => bitAt_cons_lt x a (by simpa using hi)
  have e2 : (List.range n).filter (fun i => bitAt (x :: a) (8 + i)) = (List.range n).filter fun i => bitAt a i :=
    List.filter_congr fun i _ => bitAt_cons_add x a i
  rw [e1, e2]

theorem onesBelow_lt (x : UInt8) (a : Bytes) {k : Nat} (hk : k < 8) : onesBelow (x :: a) k = ((List.range k).filter fun i => x.toNat.testBit (7 - i)).length := by
  unfold onesBelow
  congr 1
  exact List.filter_congr fun i hi => bitAt_cons_lt x a (by have : i < k := by simpa using hi
                                                            omega)

theorem filter_cons_count (p : Nat → Bool) (x : Nat) (l : List Nat) : ((x :: l).filter p).length = (p x).toNat + (l.filter p).length := by
  rw [List.filter_cons]; cases p x <;> simp; omega

theorem onesCount8_rev (x : UInt8) : onesCount8 x = ((List.range 8).filter fun i => x.toNat.testBit (7 - i)).length := by
  simp only [onesCount8, List.range, List.range.loop, filter_cons_count, List.filter_nil, List.length_nil]
  simp only [Nat.sub_zero, Nat.reduceSub]
  omega

theorem onesCount8_shift (x : UInt8) (k : Nat) (h0 : 0 < k) (hk : k < 8) :
    onesCount8 (x >>> UInt8.ofNat (8 - k)) = ((List.range k).filter fun i => x.toNat.testBit (7 - i)).length := by
  have e : (x >>> UInt8.ofNat (8 - k)).toNat = x.toNat >>> (8 - k) := by
    rw [UInt8.toNat_shiftRight]
    congr 1
    simp [UInt8.toNat_ofNat']; omega
  have hx : x.toNat < 2 ^ 8 := x.toNat_lt
  have hf : ∀ j, 8 ≤ j → x.toNat.testBit j = false := fun j hj => Nat.testBit_lt_two_pow (Nat.lt_of_lt_of_le hx (Nat.pow_le_pow_right (by omega) hj))
  rw [onesCount8, e]
  have : k = 1 ∨ k = 2 ∨ k = 3 ∨ k = 4 ∨ k = 5 ∨ k = 6 ∨ k = 7 := by omega
  rcases this with h | h | h | h | h | h | h <;> subst h <;>
    simp only [List.range, List.range.loop, filter_cons_count, List.filter_nil, Nat.testBit_shiftRight, List.length_nil] <;>
    simp [hf] <;> omega

theorem prefixDiffLoop_spec (n : Int) : ∀ (a : Bytes) (i total : Nat), prefixDiffLoop n i a total = total + onesBelow a (n - 8 * i).toNat
  | [], i, total => by
    have : ∀ k, onesBelow [] k = 0 := by
      intro k; simp [onesBelow, bitAt]
    simp [prefixDiffLoop, this]
  | b :: a, i, total => by
    unfold prefixDiffLoop
    split
    · rename_i h
      rw [show (n - 8 * (i : Int)).toNat = 0 by omega]; simp [onesBelow]
    · rename_i h
      rw [prefixDiffLoop_spec n a (i + 1)]
      split
      · rename_i h2
        have e1 : (n - 8 * ((i + 1 : Nat) : Int)).toNat = 0 := by omega
        have e2 : (n % 8).toNat = (n - 8 * (i : Int)).toNat := by omega
        rw [e1, e2, onesCount8_shift _ _ (by omega) (by omega), onesBelow_lt b a (by omega)]
        simp [onesBelow]
      · rename_i h2
        have e1 : (n - 8 * (i : Int)).toNat = 8 + (n - 8 * ((i + 1 : Nat) : Int)).toNat := by omega
        rw [e1, onesBelow_cons, onesCount8_rev]; omega

theorem prefixDiff_spec {a b : Bytes} (h : a.length = b.length) (n : Int) : prefixDiff a b n = ((List.range n.toNat).filter fun i => bitAt a i != bitAt b i).length := by
  rw [prefixDiff, prefixDiffLoop_spec]
  simp only [Nat.zero_add, Int.natCast_zero, Int.mul_zero, Int.sub_zero, onesBelow]
  congr 1
  apply List.filter_congr
  intro i _
  rw [bitAt_xor h]

/-! ## the order -/

theorem bytesLt_iff : ∀ {a b : Bytes}, a.length = b.length → (bytesLt a b = true ↔ beVal a < beVal b)
  | [], [], _ => by simp [bytesLt]
  | x :: a, y :: b, h => by
    have hl : a.length = b.length := by simpa using h
    have ih := bytesLt_iff hl
    have ha := beVal_lt a
    have hb := beVal_lt b
    rw [bytesLt, beVal_cons, beVal_cons, hl]
    rw [hl] at ha
    split
    · rename_i hxy
      simp only [true_iff]
      have : x.toNat + 1 ≤ y.toNat := hxy
      have := Nat.mul_le_mul_right (256 ^ b.length) this
      rw [Nat.add_mul] at this; omega
    · split
      · rename_i hxy
        have : y.toNat + 1 ≤ x.toNat := hxy
        have := Nat.mul_le_mul_right (256 ^ b.length) this
        rw [Nat.add_mul] at this
        simp only [Bool.false_eq_true, false_iff]; omega
      · rename_i h1 h2
        have : x.toNat = y.toNat := by
          have h1' : ¬ x.toNat < y.toNat := h1
          have h2' : ¬ y.toNat < x.toNat := h2
          omega
        rw [ih, this]; omega

theorem closer_iff (t : PublicKey) (x y : ID) : closer t x y = true ↔ dist x.id.1 t.1 < dist y.id.1 t.1 := by
  have hx : x.id.1.length = t.1.length := by rw [x.id.2, t.2]
  have hy : y.id.1.length = t.1.length := by rw [y.id.2, t.2]
  unfold closer
  rw [bytesLt_iff (by rw [xorBytes_length, xorBytes_length, hx, hy]), beVal_xor hx, beVal_xor hy]; rfl

theorem closer_false_iff (t : PublicKey) (x y : ID) : closer t x y = false ↔ dist y.id.1 t.1 ≤ dist x.id.1 t.1 := by
  rw [← Bool.not_eq_true, closer_iff]; omega

theorem sort_sorted (S : Sorter) (t : PublicKey) (l : List ID) : (sortByDistance S t l).Pairwise fun x y => dist x.id.1 t.1 ≤ dist y.id.1 t.1 := by
  have := S.sorted (closer t) l (fun x => by simp [closer_false_iff]) (fun x y z => by simp only [closer_iff]; omega)
    (fun x y z => by simp only [closer_false_iff]; omega)
  exact this.imp fun h => (closer_false_iff _ _ _).1 h

theorem sort_perm (S : Sorter) (t : PublicKey) (l : List ID) : (sortByDistance S t l).Perm l := S.perm _ _

theorem dist_self (a : Bytes) : dist a a = 0 := by simp [dist]
theorem dist_comm (a b : Bytes) : dist a b = dist b a := by simp [dist, Nat.xor_comm]
theorem dist_eq_zero {a b : Bytes} (h : a.length = b.length) : dist a b = 0 ↔ a = b := by
  constructor
  · intro h0
    apply beVal_inj h
    have : beVal a ^^^ beVal b ^^^ beVal b = beVal b := by rw [show beVal a ^^^ beVal b = 0 from h0]; simp
    rwa [Nat.xor_assoc, Nat.xor_self, Nat.xor_zero] at this
  · rintro rfl; exact dist_self a
theorem dist_inj {a b t : Bytes} (h : a.length = b.length) (hd : dist a t = dist b t) : a = b := by
  apply beVal_inj h
  have := congrArg (· ^^^ beVal t) hd
  simpa [dist, Nat.xor_assoc] using this

theorem bytes_of_nat : ∀ (n v : Nat), v < 256 ^ n → ∃ x : Bytes, x.length = n ∧ beVal x = v
  | 0, v, h => ⟨[], rfl, by simp at h; simp [h]⟩
  | n + 1, v, h => by
    have hv : v / 256 ^ n < 256 := by
      rw [Nat.div_lt_iff_lt_mul (Nat.pow_pos (by decide))]
      rwa [Nat.mul_comm, ← Nat.pow_succ]
    obtain ⟨x, hx, hxv⟩ := bytes_of_nat n (v % 256 ^ n) (Nat.mod_lt _ (Nat.pow_pos (by decide)))
    refine ⟨UInt8.ofNat (v / 256 ^ n) :: x, by simp [hx], ?_⟩
    rw [beVal_cons, hx, hxv, UInt8.toNat_ofNat', Nat.mod_eq_of_lt (b := 2 ^ 8) hv, Nat.div_add_mod']

/-- Two lists sorted by distance with the same distinct keys are equal. -/
theorem sorted_unique {t : PublicKey} {l l' : List ID} (hp : l.Perm l') (hn : (l.map ID.id).Nodup)
    (h : l.Pairwise fun x y => dist x.id.1 t.1 ≤ dist y.id.1 t.1) (h' : l'.Pairwise fun x y => dist x.id.1 t.1 ≤ dist y.id.1 t.1) : l = l' := by
  refine List.Perm.eq_of_pairwise ?_ h h' hp
  intro x y hx hy h1 h2
  have hd : dist x.id.1 t.1 = dist y.id.1 t.1 := Nat.le_antisymm h1 h2
  have hk : x.id = y.id := Subtype.ext (dist_inj (by rw [x.id.2, y.id.2]) hd)
  exact List.inj_on_of_nodup_map hn hx (hp.mem_iff.2 hy) hk

end Noise
