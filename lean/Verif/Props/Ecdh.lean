import Verif.Proofs.Ecdh
import Mathlib.RingTheory.Int.Basic
/-! # C70: the Curve25519 form of an Ed25519 public key -/
namespace Noise
open Spec

/-- The conversion, with the arithmetic resolved. -/
theorem convert_eq (pk : PublicKey) : ∃ (d : Int) (b : Bytes),
    (((leVal pk.1 % 2 ^ 255 : Nat) : Int) % curve25519P ≠ 1 → d * (1 - ((leVal pk.1 % 2 ^ 255 : Nat) : Int)) ≡ 1 [ZMOD curve25519P]) ∧
    (((leVal pk.1 % 2 ^ 255 : Nat) : Int) % curve25519P = 1 → d ≡ 0 [ZMOD curve25519P]) ∧
    ed25519PublicKeyToCurve25519 pk = .ok b ∧ b.length = 32 ∧
    (leVal b : Int) = ((((leVal pk.1 % 2 ^ 255 : Nat) : Int) + 1) * d) % curve25519P := by
  obtain ⟨x, r, hrev, hmask⟩ := masked pk
  obtain ⟨d, h1, h2, h3⟩ := u_spec (leVal pk.1 % 2 ^ 255)
  have hpos : (0 : Int) < curve25519P := by norm_num [curve25519P]
  let u : Int := ((((leVal pk.1 % 2 ^ 255 : Nat) : Int) + 1) * d) % curve25519P
  have hu0 : 0 ≤ u := Int.emod_nonneg _ (by omega)
  have hup : u < curve25519P := Int.emod_lt_of_pos _ hpos
  have hlen : (bigBytes u.toNat).length ≤ 32 := by
    refine bigBytes_length 32 _ ?_
    have : (256 : Nat) ^ 32 = 115792089237316195423570985008687907853269984665640564039457584007913129639936 := by norm_num
    rw [this]
    simp only [curve25519P] at hup
    omega
  refine ⟨d, (bigBytes u.toNat).reverse ++ (List.replicate 32 0).drop (bigBytes u.toNat).length, h1, h2, ?_, ?_, ?_⟩
  · have hst := h3 (store0 (bigSetBytes ((x &&& 0x7f) :: r)))
      (by rw [store0, bigSetBytes_eq, hmask]) rfl rfl rfl
    dsimp only at hst
    unfold ed25519PublicKeyToCurve25519
    rw [reverseInto_eq pk.1 32 0 _ (by rw [pk.2]) (by rw [pk.2]; simp), Res.bind_ok]
    have e0 : pk.1.reverse ++ (List.replicate 32 (0 : UInt8)).drop pk.1.length = x :: r := by
      rw [hrev, pk.2]; simp
    rw [e0]
    simp only [Res.bind_ok]
    rw [hst]
    exact reverseInto_eq _ _ _ _ (by simp) (by rw [List.length_replicate]; exact hlen)
  · simp; omega
  · rw [leVal_append, leVal_reverse, beVal_bigBytes, List.drop_replicate, leVal_zeros]
    simp only [Nat.mul_zero, Nat.add_zero]
    exact Int.toNat_of_nonneg hu0

/-- C70: for every 32-byte key with y-coordinate `y` (the 255 low bits of the key), the conversion does not panic and returns 32 bytes, the
little-endian form of a number `u` below 2^255 - 19 with `u (1 - y) = 1 + y` modulo 2^255 - 19 if `y` is not 1 modulo that number, and of 0 if it is. -/
theorem C70_conversion (pk : PublicKey) :
    ∃ b, ed25519PublicKeyToCurve25519 pk = .ok b ∧ b.length = 32 ∧ leVal b < 2 ^ 255 - 19 ∧
      ((leVal pk.1 % 2 ^ 255) % (2 ^ 255 - 19) ≠ 1 →
        (leVal b : Int) * (1 - (leVal pk.1 % 2 ^ 255 : Nat)) ≡ 1 + (leVal pk.1 % 2 ^ 255 : Nat) [ZMOD 2 ^ 255 - 19]) ∧
      ((leVal pk.1 % 2 ^ 255) % (2 ^ 255 - 19) = 1 → leVal b = 0) := by
  obtain ⟨d, b, h1, h2, hb, hl, hv⟩ := convert_eq pk
  have hpos : (0 : Int) < curve25519P := by norm_num [curve25519P]
  have hp : (2 ^ 255 - 19 : Int) = curve25519P := by norm_num [curve25519P]
  have hmod : ∀ (y : Nat), y % (2 ^ 255 - 19) = 1 ↔ (y : Int) % curve25519P = 1 := by
    intro y
    rw [p_eq, ← Int.natCast_mod]
    norm_cast
  have hlt : leVal b < 2 ^ 255 - 19 := by
    have : (leVal b : Int) < curve25519P := by rw [hv]; exact Int.emod_lt_of_pos _ hpos
    rw [p_eq] at this
    exact_mod_cast this
  refine ⟨b, hb, hl, hlt, fun hy => ?_, fun hy => ?_⟩
  · have hd := h1 (fun h => hy ((hmod _).2 h))
    rw [hp, hv]
    refine (Int.ModEq.mul_right _ (Int.mod_modEq _ _)).trans ?_
    rw [mul_assoc]
    refine (Int.ModEq.mul_left _ hd).trans ?_
    rw [mul_one, add_comm]
  · have hd := h2 ((hmod _).1 hy)
    have : (leVal b : Int) = 0 := by
      rw [hv, Int.emod_eq_zero_of_dvd]
      exact Dvd.dvd.mul_left (Int.modEq_zero_iff_dvd.1 hd) _
    exact_mod_cast this

/-- The number in C70 is the only one: 2^255 - 19 is prime, so (1 + y) / (1 - y) is well defined. -/
theorem C70_unique (y u v : Nat) (hy : y % (2 ^ 255 - 19) ≠ 1) (hu : u < 2 ^ 255 - 19) (hv : v < 2 ^ 255 - 19)
    (h1 : (u : Int) * (1 - y) ≡ 1 + y [ZMOD 2 ^ 255 - 19]) (h2 : (v : Int) * (1 - y) ≡ 1 + y [ZMOD 2 ^ 255 - 19]) : u = v := by
  have hp : (2 ^ 255 - 19 : Int) = ((2 ^ 255 - 19 : Nat) : Int) := by norm_num
  rw [hp] at h1 h2
  have hd : ((2 ^ 255 - 19 : Nat) : Int) ∣ ((v : Int) - u) * (1 - y) := by
    have := (h1.trans h2.symm).dvd
    rwa [← sub_mul] at this
  rcases (Nat.prime_iff_prime_int.1 prime_p25519).dvd_or_dvd hd with h | h
  · have hz : (v : Int) - u = 0 := by
      refine Int.eq_zero_of_abs_lt_dvd h ?_
      rw [abs_lt]
      constructor <;> omega
    omega
  · exfalso
    apply hy
    have := (Int.modEq_iff_dvd.2 h)
    have h3 : (y : Int) % ((2 ^ 255 - 19 : Nat) : Int) = 1 % ((2 ^ 255 - 19 : Nat) : Int) := this
    rw [← Int.natCast_mod] at h3
    have h4 : (1 : Int) % ((2 ^ 255 - 19 : Nat) : Int) = 1 := by norm_num
    rw [h4] at h3
    exact_mod_cast h3

/-- The sign bit of the key does not matter: keys with the same 255 low bits are converted to the same bytes. -/
theorem C70_sign_bit (a b : PublicKey) (h : leVal a.1 % 2 ^ 255 = leVal b.1 % 2 ^ 255) :
    ed25519PublicKeyToCurve25519 a = ed25519PublicKeyToCurve25519 b := by
  obtain ⟨x, r, hrev, hmask⟩ := masked a
  obtain ⟨x', r', hrev', hmask'⟩ := masked b
  have hl : ((x &&& 0x7f) :: r).length = ((x' &&& 0x7f) :: r').length := by
    have h1 := congrArg List.length hrev
    have h2 := congrArg List.length hrev'
    simp [a.2, b.2] at h1 h2 ⊢
    omega
  have he := beVal_inj hl (by rw [hmask, hmask', h])
  have e0 : ∀ (k : PublicKey) (z : Bytes), k.1.reverse = z → k.1.reverse ++ (List.replicate 32 (0 : UInt8)).drop k.1.length = z := by
    intro k z h; rw [h, k.2]; simp
  unfold ed25519PublicKeyToCurve25519
  rw [reverseInto_eq a.1 32 0 _ (by rw [a.2]) (by rw [a.2]; simp), Res.bind_ok,
    reverseInto_eq b.1 32 0 _ (by rw [b.2]) (by rw [b.2]; simp), Res.bind_ok, e0 a _ hrev, e0 b _ hrev']
  simp only [Res.bind_ok]
  rw [he]

/-- The base point of Ed25519. -/
def basePoint : PublicKey := ⟨0x58 :: List.replicate 31 0x66, by simp⟩

/-- The hypotheses of C70 are met by the base point of Ed25519, whose Curve25519 form is the base point of X25519, u = 9. -/
example : ∃ b, ed25519PublicKeyToCurve25519 basePoint = .ok b ∧ leVal b = 9 := by
  obtain ⟨b, hb, _, hlt, h1, _⟩ := C70_conversion basePoint
  have hy : leVal basePoint.1 % 2 ^ 255 = 46316835694926478169428394003475163141307993866256225615783033603165251855960 := by decide +kernel
  have hne : (leVal basePoint.1 % 2 ^ 255) % (2 ^ 255 - 19) ≠ 1 := by rw [hy]; norm_num
  refine ⟨b, hb, C70_unique _ _ _ hne hlt (by norm_num) (h1 hne) ?_⟩
  rw [hy]
  norm_num [Int.ModEq]

end Noise
