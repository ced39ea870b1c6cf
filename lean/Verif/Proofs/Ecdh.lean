import Verif.Model.Ecdh
import Verif.Spec.Bytes
import Verif.Proofs.Basic
import Verif.Proofs.Prime25519
import Mathlib.Data.Int.ModEq
namespace Noise
open Spec

theorem reverseInto_eq (src : Bytes) : ∀ (n i : Nat) (dst : Bytes), n = i + src.length → src.length ≤ dst.length →
    reverseInto n i src dst = .ok (src.reverse ++ dst.drop src.length) := by
  induction src with
  | nil => intro n i dst _ _; simp [reverseInto]
  | cons b r ih =>
    intro n i dst hn hl
    simp only [List.length_cons] at hn hl
    have hidx : ((n : Int) - i - 1) = (r.length : Int) := by omega
    rw [reverseInto, hidx]
    unfold setByte
    rw [if_pos ⟨by omega, by omega⟩, Res.bind_ok, ih n (i + 1) _ (by omega) (by simp; omega)]
    congr 1
    rw [List.reverse_cons, List.append_assoc]
    congr 1
    rw [Int.toNat_natCast, List.length_cons]
    have h1 : r.length < (dst.set r.length b).length := by simp; omega
    rw [List.drop_eq_getElem_cons h1, List.drop_set_of_lt (by omega)]
    simp

theorem beVal_append_singleton (l : Bytes) (b : UInt8) : beVal (l ++ [b]) = 256 * beVal l + b.toNat := by
  simp [beVal]

theorem beVal_reverse (l : Bytes) : beVal l.reverse = leVal l := by
  induction l with
  | nil => rfl
  | cons b r ih => rw [List.reverse_cons, beVal_append_singleton, ih, leVal]; omega

theorem leVal_reverse (l : Bytes) : leVal l.reverse = beVal l := by
  rw [← beVal_reverse, List.reverse_reverse]

theorem leVal_append (a b : Bytes) : leVal (a ++ b) = leVal a + 256 ^ a.length * leVal b := by
  induction a with
  | nil => simp [leVal]
  | cons x r ih => simp only [List.cons_append, leVal, ih, List.length_cons, Nat.pow_succ]; ring

theorem leVal_zeros (n : Nat) : leVal (List.replicate n 0) = 0 := by
  induction n with
  | zero => rfl
  | succ n ih => simp [List.replicate_succ, leVal, ih]

theorem leVal_lt (l : Bytes) : leVal l < 256 ^ l.length := by
  induction l with
  | nil => simp [leVal]
  | cons x r ih =>
    simp only [leVal, List.length_cons, Nat.pow_succ]
    have := x.toNat_lt
    omega

theorem beVal_bigBytes (x : Nat) : beVal (bigBytes x) = x := by
  induction x using Nat.strongRecOn with
  | _ x ih =>
    unfold bigBytes
    split
    · next h => rw [h]; rfl
    · next h =>
      rw [beVal_append_singleton, ih (x / 256) (by omega)]
      simp
      omega

theorem bigBytes_length (n x : Nat) (h : x < 256 ^ n) : (bigBytes x).length ≤ n := by
  induction n generalizing x with
  | zero =>
    have : x = 0 := by simpa using h
    unfold bigBytes; simp [this]
  | succ n ih =>
    unfold bigBytes
    split
    · simp
    · rw [Nat.pow_succ] at h
      have := ih (x / 256) (by omega)
      simp; omega

theorem bigSetBytes_eq (b : Bytes) : bigSetBytes b = (beVal b : Int) := rfl

/-- The y-coordinate in a public key: its 255 low bits. -/
theorem masked (pk : PublicKey) : ∃ (b : UInt8) (r : Bytes), pk.1.reverse = b :: r ∧ beVal ((b &&& 0x7f) :: r) = leVal pk.1 % 2 ^ 255 := by
  have hl := pk.2
  cases h : pk.1.reverse with
  | nil => have := congrArg List.length h; simp [hl] at this
  | cons b r =>
    refine ⟨b, r, rfl, ?_⟩
    have hr : r.length = 31 := by have := congrArg List.length h; simp [hl] at this; omega
    have e1 : leVal pk.1 = 256 ^ 31 * b.toNat + beVal r := by
      rw [← beVal_reverse, h]
      have : (b :: r) = [b] ++ r := rfl
      rw [← leVal_reverse, List.reverse_cons, leVal_append, leVal_reverse]
      simp [leVal, hr]; omega
    have e2 : beVal ((b &&& 0x7f) :: r) = 256 ^ 31 * (b &&& 0x7f).toNat + beVal r := by
      rw [← leVal_reverse, List.reverse_cons, leVal_append, leVal_reverse]
      simp [leVal, hr]; omega
    have e3 : (b &&& 0x7f).toNat = b.toNat % 128 := by
      rw [UInt8.toNat_and]
      exact Nat.and_two_pow_sub_one_eq_mod (x := b.toNat) (n := 7)
    have hlt : beVal r < 256 ^ 31 := by rw [← leVal_reverse, ← hr]; have := leVal_lt r.reverse; simpa using this
    rw [e2, e1, e3]
    have h1 : (2 : Nat) ^ 255 = 256 ^ 31 * 128 := by norm_num
    rw [h1]
    have hb := b.toNat_lt
    generalize (256 : Nat) ^ 31 = M at hlt ⊢
    have hd : M * b.toNat + beVal r = M * (b.toNat % 128) + beVal r + M * 128 * (b.toNat / 128) := by
      conv_lhs => rw [← Nat.mod_add_div b.toNat 128]
      ring
    rw [hd, Nat.add_mul_mod_self_left]
    refine (Nat.mod_eq_of_lt ?_).symm
    calc M * (b.toNat % 128) + beVal r < M * (b.toNat % 128) + M := by omega
      _ = M * (b.toNat % 128 + 1) := by ring
      _ ≤ M * 128 := Nat.mul_le_mul_left _ (by omega)

theorem p_eq : curve25519P = ((2 ^ 255 - 19 : Nat) : Int) := by norm_num [curve25519P]

/-- The number that the sequence of in-place operations leaves in `u`. -/
theorem u_spec (y : Nat) :
    ∃ d : Int, ((y : Int) % curve25519P ≠ 1 → d * (1 - y) ≡ 1 [ZMOD curve25519P]) ∧ ((y : Int) % curve25519P = 1 → d ≡ 0 [ZMOD curve25519P]) ∧
      ∀ h : Store, h .y = y → h .denom = 1 → h .one = 1 → h .p = curve25519P →
        (let (g, h) := bigSub .denom .denom .y h
         let h := bigModInverse .denom g .p h
         let (a, h) := bigAdd .y .y .one h
         let (u, h) := bigMul .y a .denom h
         let (u, h) := bigMod u u .p h
         h u) = (((y : Int) + 1) * d) % curve25519P := by
  have hp : (0 : Int) < curve25519P := by norm_num [curve25519P]
  let v : Int := if (1 - (y : Int)) < 0 then (1 - (y : Int)) % curve25519P else 1 - y
  have hv : v ≡ 1 - y [ZMOD curve25519P] := by
    show (if _ then _ else _) % _ = _
    split
    · exact Int.emod_emod_of_dvd _ (dvd_refl _)
    · rfl
  have hdvd : (curve25519P ∣ v) ↔ (y : Int) % curve25519P = 1 := by
    have e1 : (1 : Int) % curve25519P = 1 := Int.emod_eq_of_lt (by omega) (by norm_num [curve25519P])
    rw [Int.dvd_iff_emod_eq_zero, hv, ← Int.dvd_iff_emod_eq_zero]
    rw [← Int.modEq_iff_dvd]
    constructor
    · intro h; rw [h, e1]
    · intro h; show _ % _ = _ % _; rw [h, e1]
  have hgcd : Int.gcd v curve25519P = 1 ↔ (y : Int) % curve25519P ≠ 1 := by
    rw [Ne, ← hdvd, p_eq]
    constructor
    · intro h hd
      rw [Int.gcd_eq_natAbs, Int.natAbs_natCast] at h
      have h2 : (2 ^ 255 - 19) ∣ v.natAbs := by
        have := Int.natAbs_dvd_natAbs.2 hd
        rwa [Int.natAbs_natCast] at this
      rw [Nat.gcd_eq_right h2] at h
      norm_num at h
    · intro hd
      rw [Int.gcd_eq_natAbs, Int.natAbs_natCast, Nat.gcd_comm]
      refine (Nat.Prime.coprime_iff_not_dvd prime_p25519).2 ?_
      intro h2
      exact hd (Int.natCast_dvd.2 h2)
  by_cases hy : (y : Int) % curve25519P = 1
  · refine ⟨1 - y, fun h => absurd hy h, fun _ => ?_, ?_⟩
    · have h1 : curve25519P ∣ v := hdvd.2 hy
      exact hv.symm.trans (Int.modEq_zero_iff_dvd.2 h1)
    · intro h h1 h2 h3 h4
      have hne : Int.gcd v curve25519P ≠ 1 := fun h => absurd hy (hgcd.1 h)
      have hne' : Int.gcd (if (1 - (y : Int)) < 0 then (1 - (y : Int)) % curve25519P else 1 - y) curve25519P ≠ 1 := hne
      simp only [bigSub, bigAdd, bigMul, bigMod, bigModInverse, Store.put, h1, h2, h4, if_true, reduceCtorEq, if_false]
      rw [if_pos hne']
      simp only [Store.put, h1, h3, h4, if_true, reduceCtorEq, if_false]
  · have hc := hgcd.2 hy
    have hc' : Int.gcd (if (1 - (y : Int)) < 0 then (1 - (y : Int)) % curve25519P else 1 - y) curve25519P = 1 := hc
    have hb := Int.gcd_eq_gcd_ab v curve25519P
    rw [hc] at hb
    have hinv : Int.gcdA v curve25519P * (1 - y) ≡ 1 [ZMOD curve25519P] := by
      have : Int.gcdA v curve25519P * v ≡ 1 [ZMOD curve25519P] := by
        rw [Int.modEq_iff_dvd]
        refine ⟨Int.gcdB v curve25519P, ?_⟩
        push_cast at hb
        linarith
      exact (Int.ModEq.mul_left _ hv.symm).trans this
    refine ⟨if Int.gcdA v curve25519P < 0 then Int.gcdA v curve25519P + curve25519P else Int.gcdA v curve25519P, fun _ => ?_,
      fun h => absurd h hy, ?_⟩
    · split
      · refine Int.ModEq.trans ?_ hinv
        refine Int.ModEq.mul_right _ ?_
        rw [Int.modEq_iff_dvd]
        exact ⟨-1, by ring⟩
      · exact hinv
    · intro h h1 h2 h3 h4
      simp only [bigSub, bigAdd, bigMul, bigMod, bigModInverse, Store.put, h1, h2, h4, if_true, reduceCtorEq, if_false]
      rw [if_neg (by rw [hc']; simp)]
      by_cases hneg : Int.gcdA v curve25519P < 0
      · rw [if_pos hneg, if_pos hneg]
        simp only [Store.put, h1, h3, h4, if_true, reduceCtorEq, if_false]
        rfl
      · rw [if_neg hneg, if_neg hneg]
        simp only [Store.put, h1, h3, h4, if_true, reduceCtorEq, if_false]
        rfl

end Noise
