import Mathlib.NumberTheory.LucasPrimality
import Mathlib.Tactic.NormNum.Prime
/-! # 2^255 - 19 is prime, by Pratt certificates -/
namespace Noise

/-- Square and multiply with a bound on the number of bits of the exponent: `acc * b ^ e % m`. -/
def powMod (m : Nat) : Nat → Nat → Nat → Nat → Nat
  | 0, _, _, acc => acc % m
  | n + 1, b, e, acc => powMod m n (b * b % m) (e / 2) (if e % 2 = 1 then acc * b % m else acc)

theorem powMod_eq (m n b e acc : Nat) (h : e < 2 ^ n) : powMod m n b e acc = acc * b ^ e % m := by
  induction n generalizing b e acc with
  | zero =>
    have : e = 0 := by simpa using h
    subst this; simp [powMod]
  | succ n ih =>
    rw [powMod, ih _ _ _ (by rw [Nat.pow_succ] at h; omega)]
    have hb : (b * b % m) ^ (e / 2) % m = (b * b) ^ (e / 2) % m := (Nat.pow_mod _ _ _).symm
    have e2 : (b * b) ^ (e / 2) = b ^ (2 * (e / 2)) := by rw [Nat.pow_mul, Nat.pow_two]
    split
    · next h1 =>
      rw [Nat.mul_mod, hb, e2, ← Nat.mul_mod, Nat.mul_mod, Nat.mod_mod, ← Nat.mul_mod, Nat.mul_assoc, ← Nat.pow_succ']
      congr 3
      omega
    · next h1 =>
      rw [Nat.mul_mod, hb, e2, ← Nat.mul_mod]
      congr 3
      omega

theorem pratt (p a : Nat) (fs : List Nat) (hp : 1 < p) (hprod : fs.prod = p - 1) (hprime : ∀ q ∈ fs, Nat.Prime q)
    (h1 : p < 2 ^ 256 ∧ powMod p 256 a (p - 1) 1 = 1) (h2 : ∀ q ∈ fs, powMod p 256 a ((p - 1) / q) 1 ≠ 1) : Nat.Prime p := by
  have key : ∀ e, e < p → ((a : ZMod p) ^ e = 1 ↔ powMod p 256 a e 1 = 1) := by
    intro e he
    rw [powMod_eq _ _ _ _ _ (by omega), Nat.one_mul, ← Nat.cast_pow, ← Nat.cast_one, ZMod.natCast_eq_natCast_iff', Nat.mod_eq_of_lt hp]
  refine lucas_primality p a ((key _ (by omega)).2 h1.2) ?_
  intro q hq hd h
  rw [← hprod, (Nat.prime_iff.1 hq).dvd_prod_iff] at hd
  obtain ⟨f, hf, hqf⟩ := hd
  have := (Nat.prime_dvd_prime_iff_eq hq (hprime f hf)).1 hqf
  subst this
  exact h2 q hf ((key _ (Nat.lt_of_le_of_lt (Nat.div_le_self _ _) (by omega))).1 h)

theorem prime_1923133 : Nat.Prime 1923133 := by
  refine pratt 1923133 2 [2, 2, 3, 43, 3727] (by norm_num) (by norm_num) ?_ (by decide +kernel) (by decide +kernel)
  intro q hq
  simp only [List.mem_cons, List.not_mem_nil, or_false] at hq
  rcases hq with rfl | rfl | rfl | rfl | rfl
  · exact (by norm_num : Nat.Prime 2)
  · exact (by norm_num : Nat.Prime 2)
  · exact (by norm_num : Nat.Prime 3)
  · exact (by norm_num : Nat.Prime 43)
  · exact (by norm_num : Nat.Prime 3727)

theorem prime_31757755_17 : Nat.Prime 31757755568855353 := by
  refine pratt 31757755568855353 10 [2, 2, 2, 3, 31, 107, 223, 4153, 430751] (by norm_num) (by norm_num) ?_ (by decide +kernel) (by decide +kernel)
  intro q hq
  simp only [List.mem_cons, List.not_mem_nil, or_false] at hq
  rcases hq with rfl | rfl | rfl | rfl | rfl | rfl | rfl | rfl | rfl
  · exact (by norm_num : Nat.Prime 2)
  · exact (by norm_num : Nat.Prime 2)
  · exact (by norm_num : Nat.Prime 2)
  · exact (by norm_num : Nat.Prime 3)
  · exact (by norm_num : Nat.Prime 31)
  · exact (by norm_num : Nat.Prime 107)
  · exact (by norm_num : Nat.Prime 223)
  · exact (by norm_num : Nat.Prime 4153)
  · exact (by norm_num : Nat.Prime 430751)

theorem prime_2773320623 : Nat.Prime 2773320623 := by
  refine pratt 2773320623 5 [2, 2437, 569003] (by norm_num) (by norm_num) ?_ (by decide +kernel) (by decide +kernel)
  intro q hq
  simp only [List.mem_cons, List.not_mem_nil, or_false] at hq
  rcases hq with rfl | rfl | rfl
  · exact (by norm_num : Nat.Prime 2)
  · exact (by norm_num : Nat.Prime 2437)
  · exact (by norm_num : Nat.Prime 569003)

theorem prime_72106336199 : Nat.Prime 72106336199 := by
  refine pratt 72106336199 7 [2, 13, 2773320623] (by norm_num) (by norm_num) ?_ (by decide +kernel) (by decide +kernel)
  intro q hq
  simp only [List.mem_cons, List.not_mem_nil, or_false] at hq
  rcases hq with rfl | rfl | rfl
  · exact (by norm_num : Nat.Prime 2)
  · exact (by norm_num : Nat.Prime 13)
  · exact prime_2773320623

theorem prime_8574133 : Nat.Prime 8574133 := by
  refine pratt 8574133 2 [2, 2, 3, 7, 103, 991] (by norm_num) (by norm_num) ?_ (by decide +kernel) (by decide +kernel)
  intro q hq
  simp only [List.mem_cons, List.not_mem_nil, or_false] at hq
  rcases hq with rfl | rfl | rfl | rfl | rfl | rfl
  · exact (by norm_num : Nat.Prime 2)
  · exact (by norm_num : Nat.Prime 2)
  · exact (by norm_num : Nat.Prime 3)
  · exact (by norm_num : Nat.Prime 7)
  · exact (by norm_num : Nat.Prime 103)
  · exact (by norm_num : Nat.Prime 991)

theorem prime_19195195_16 : Nat.Prime 1919519569386763 := by
  refine pratt 1919519569386763 2 [2, 3, 7, 19, 47, 47, 127, 8574133] (by norm_num) (by norm_num) ?_ (by decide +kernel) (by decide +kernel)
  intro q hq
  simp only [List.mem_cons, List.not_mem_nil, or_false] at hq
  rcases hq with rfl | rfl | rfl | rfl | rfl | rfl | rfl | rfl
  · exact (by norm_num : Nat.Prime 2)
  · exact (by norm_num : Nat.Prime 3)
  · exact (by norm_num : Nat.Prime 7)
  · exact (by norm_num : Nat.Prime 19)
  · exact (by norm_num : Nat.Prime 47)
  · exact (by norm_num : Nat.Prime 47)
  · exact (by norm_num : Nat.Prime 127)
  · exact prime_8574133

theorem prime_75445702_35 : Nat.Prime 75445702479781427272750846543864801 := by
  refine pratt 75445702479781427272750846543864801 7 [2, 2, 2, 2, 2, 3, 3, 5, 5, 75707, 72106336199, 1919519569386763] (by norm_num) (by norm_num) ?_ (by decide +kernel) (by decide +kernel)
  intro q hq
  simp only [List.mem_cons, List.not_mem_nil, or_false] at hq
  rcases hq with rfl | rfl | rfl | rfl | rfl | rfl | rfl | rfl | rfl | rfl | rfl | rfl
  · exact (by norm_num : Nat.Prime 2)
  · exact (by norm_num : Nat.Prime 2)
  · exact (by norm_num : Nat.Prime 2)
  · exact (by norm_num : Nat.Prime 2)
  · exact (by norm_num : Nat.Prime 2)
  · exact (by norm_num : Nat.Prime 3)
  · exact (by norm_num : Nat.Prime 3)
  · exact (by norm_num : Nat.Prime 5)
  · exact (by norm_num : Nat.Prime 5)
  · exact (by norm_num : Nat.Prime 75707)
  · exact prime_72106336199
  · exact prime_19195195_16

theorem prime_74058212_71 : Nat.Prime 74058212732561358302231226437062788676166966415465897661863160754340907 := by
  refine pratt 74058212732561358302231226437062788676166966415465897661863160754340907 2 [2, 3, 353, 57467, 132049, 1923133, 31757755568855353, 75445702479781427272750846543864801] (by norm_num) (by norm_num) ?_ (by decide +kernel) (by decide +kernel)
  intro q hq
  simp only [List.mem_cons, List.not_mem_nil, or_false] at hq
  rcases hq with rfl | rfl | rfl | rfl | rfl | rfl | rfl | rfl
  · exact (by norm_num : Nat.Prime 2)
  · exact (by norm_num : Nat.Prime 3)
  · exact (by norm_num : Nat.Prime 353)
  · exact (by norm_num : Nat.Prime 57467)
  · exact (by norm_num : Nat.Prime 132049)
  · exact prime_1923133
  · exact prime_31757755_17
  · exact prime_75445702_35

theorem prime_p25519' : Nat.Prime 57896044618658097711785492504343953926634992332820282019728792003956564819949 := by
  refine pratt 57896044618658097711785492504343953926634992332820282019728792003956564819949 2 [2, 2, 3, 65147, 74058212732561358302231226437062788676166966415465897661863160754340907] (by norm_num) (by norm_num) ?_ (by decide +kernel) (by decide +kernel)
  intro q hq
  simp only [List.mem_cons, List.not_mem_nil, or_false] at hq
  rcases hq with rfl | rfl | rfl | rfl | rfl
  · exact (by norm_num : Nat.Prime 2)
  · exact (by norm_num : Nat.Prime 2)
  · exact (by norm_num : Nat.Prime 3)
  · exact (by norm_num : Nat.Prime 65147)
  · exact prime_74058212_71

/-- 2^255 - 19 is prime. -/
theorem prime_p25519 : Nat.Prime (2 ^ 255 - 19) := prime_p25519'

end Noise
