import Verif.Proofs.Basic
import Verif.Model.Keys
/-! Lemmas about id.go and keys.go. -/
namespace Noise
open Spec

theorem slice_ok {b : Bytes} {lo hi : Nat} (h1 : lo ≤ hi) (h2 : hi ≤ b.length) :
    slice b lo hi = .ok ((b.drop lo).take (hi - lo)) := by simp [slice, h1, h2]

theorem copyInto_replicate (n : Nat) (b : Bytes) (h : b.length = n) :
    copyInto (List.replicate n 0) b = b := by
  subst h; simp [copyInto]

theorem copyInto_length (d s : Bytes) : (copyInto d s).length = d.length := by
  simp [copyInto]; omega

theorem keyOf_val (b : Bytes) (h : b.length = 32) : (keyOf b).1 = b := copyInto_replicate 32 b h

/-- Host section of the wire form. -/
def hostField (h : IP) : Bytes := copyInto (List.replicate 16 0) h

theorem hostField_length (h : IP) : (hostField h).length = 16 := by simp [hostField, copyInto_length]
theorem hostField_16 (h : IP) (hl : h.length = 16) : hostField h = h := copyInto_replicate 16 h hl

theorem marshal_eq (e : ID) : e.marshal = e.id.1 ++ hostField e.host ++ put16 e.port := by
  have h := e.id.2
  simp only [ID.marshal, ID.size, h, hostField]
  rw [copyInto]
  simp [h, List.take_of_length_le]

theorem marshal_length (e : ID) : e.marshal.length = 50 := by
  have h := e.id.2
  rw [marshal_eq]; simp [hostField_length, h, put16_length]

theorem unmarshalID_ok (buf : Bytes) (h : 50 ≤ buf.length) :
    ∃ p : UInt16, p.toNat = beVal ((buf.drop 48).take 2) ∧
      unmarshalID buf = .ok (newID (keyOf (buf.take 32)) ((buf.drop 32).take 16) p) := by
  unfold unmarshalID
  rw [if_neg (by omega), slice_ok (by omega) (by omega), Res.bind_ok, slice_ok (by omega) (by omega), Res.bind_ok]
  have e1 : (List.take (buf.length - 32) (List.drop 32 buf)) = buf.drop 32 := by
    apply List.take_of_length_le; simp
  rw [e1]
  have l1 : (buf.drop 32).length = buf.length - 32 := by simp
  rw [if_neg (by omega), slice_ok (by omega) (by omega), Res.bind_ok, slice_ok (by omega) (by omega), Res.bind_ok]
  have e2 : (List.take ((buf.drop 32).length - 16) (List.drop 16 (buf.drop 32))) = buf.drop 48 := by
    rw [List.drop_drop]; apply List.take_of_length_le; simp; omega
  rw [e2]
  have l2 : (buf.drop 48).length = buf.length - 48 := by simp
  rw [if_neg (by omega), slice_ok (by omega) (by omega), Res.bind_ok]
  obtain ⟨p, hp, hv⟩ := get16_eq (List.take (2 - 0) (List.drop 0 (List.drop 48 buf))) (by simp; omega)
  refine ⟨p, ?_, ?_⟩
  · rw [hv]; simp [List.take_take]
  · rw [hp, Res.bind_ok, Res.pure_eq]
    congr 2
    rw [copyInto_replicate _ _ (by simp; omega)]; simp

theorem unmarshalID_short (buf : Bytes) (h : buf.length < 50) : unmarshalID buf = .err .unexpectedEOF := by
  unfold unmarshalID
  by_cases h1 : buf.length < 32
  · rw [if_pos h1]
  rw [if_neg h1, slice_ok (by omega) (by omega), Res.bind_ok, slice_ok (by omega) (by omega), Res.bind_ok]
  have e1 : (List.take (buf.length - 32) (List.drop 32 buf)) = buf.drop 32 := by
    apply List.take_of_length_le; simp
  rw [e1]
  have l1 : (buf.drop 32).length = buf.length - 32 := by simp
  by_cases h2 : (buf.drop 32).length < 16
  · rw [if_pos h2]
  rw [if_neg h2, slice_ok (by omega) (by omega), Res.bind_ok, slice_ok (by omega) (by omega), Res.bind_ok]
  have e2 : (List.take ((buf.drop 32).length - 16) (List.drop 16 (buf.drop 32))) = buf.drop 48 := by
    rw [List.drop_drop]; apply List.take_of_length_le; simp; omega
  rw [e2, if_pos (by simp; omega)]

/-- What decoding an encoded ID (followed by anything) gives. -/
theorem unmarshal_marshal (e : ID) (rest : Bytes) :
    unmarshalID (e.marshal ++ rest) = .ok (newID e.id (hostField e.host) e.port) := by
  have hk := e.id.2
  have hl := marshal_length e
  obtain ⟨p, hp, h⟩ := unmarshalID_ok (e.marshal ++ rest) (by simp [hl])
  rw [h]
  have m := marshal_eq e
  have hh := hostField_length e.host
  have t1 : (e.marshal ++ rest).take 32 = e.id.1 := by
    rw [m]; simp [List.append_assoc, hk]
  have t2 : ((e.marshal ++ rest).drop 32).take 16 = hostField e.host := by
    rw [m]; simp [List.append_assoc, hk, hh]
  have t3 : ((e.marshal ++ rest).drop 48).take 2 = put16 e.port := by
    rw [m]; simp [List.append_assoc, List.drop_append, hk, List.take_append, hh, put16_length, List.drop_of_length_le]
    rfl
  rw [t3, beVal_put16] at hp
  rw [t1, t2, UInt16.toNat_inj.1 hp]
  congr 2
  exact Subtype.ext (keyOf_val _ hk)

/-! ### hexadecimal -/

theorem hexDigit_val (n : Nat) (h : n < 16) : fromHexChar (hexDigit n) = some n := by
  have : ∀ n : Fin 16, fromHexChar (hexDigit n.1) = some n.1 := by decide
  exact this ⟨n, h⟩

theorem hexDecode_hex (b : Bytes) : hexDecode (Spec.hex b) = .ok b := by
  induction b with
  | nil => rfl
  | cons x xs ih =>
    have hx := x.toNat_lt
    have : Spec.hex (x :: xs) = hexDigit (x.toNat / 16) :: hexDigit (x.toNat % 16) :: Spec.hex xs := rfl
    rw [this, hexDecode, hexDigit_val _ (by omega), hexDigit_val _ (by omega), ih]
    simp only [Res.ok.injEq, List.cons.injEq, and_true]
    have : 16 * (x.toNat / 16) + x.toNat % 16 = x.toNat := by omega
    rw [this]
    exact UInt8.ofNat_toNat

theorem hex_length (b : Bytes) : (Spec.hex b).length = 2 * b.length := by
  induction b with
  | nil => rfl
  | cons x xs ih =>
    have : Spec.hex (x :: xs) = hexDigit (x.toNat / 16) :: hexDigit (x.toNat % 16) :: Spec.hex xs := rfl
    rw [this]; simp [ih]; omega

theorem hexDecode_noPanic (s : Text) : (∃ b, hexDecode s = .ok b) ∨ hexDecode s = .err .hexDecode := by
  fun_induction hexDecode s <;> simp_all

theorem hexDecode_length {s : Text} {b : Bytes} (h : hexDecode s = .ok b) : s.length = 2 * b.length := by
  fun_induction hexDecode s generalizing b <;> simp_all
  subst h; simp_all; omega

theorem hexDecode_isSome {s : Text} {b : Bytes} (h : hexDecode s = .ok b) : ∀ c ∈ s, (fromHexChar c).isSome := by
  fun_induction hexDecode s generalizing b <;> simp_all

theorem hexDecode_of_digits {s : Text} (hl : s.length % 2 = 0) (h : ∀ c ∈ s, (fromHexChar c).isSome) :
    ∃ b, hexDecode s = .ok b := by
  fun_induction hexDecode s with
  | case1 => exact ⟨_, rfl⟩
  | case2 => simp at hl
  | case3 a b r x hx y hy t ht ih => exact ⟨_, rfl⟩
  | case4 a b r x hx y hy e he ih =>
    obtain ⟨t, ht⟩ := ih (by simp at hl; omega) (fun c hc => h c (by simp [hc]))
    rw [he] at ht; cases ht
  | case5 a b r x hx y hy he ih =>
    obtain ⟨t, ht⟩ := ih (by simp at hl; omega) (fun c hc => h c (by simp [hc]))
    rw [he] at ht; cases ht
  | case6 a b r hx =>
    have h1 := h a (by simp)
    have h2 := h b (by simp)
    rw [Option.isSome_iff_exists] at h1 h2
    obtain ⟨x, e1⟩ := h1
    obtain ⟨y, e2⟩ := h2
    exact absurd e2 (hx x y e1)

end Noise
