import Verif.Model.Handshake
import Verif.Spec.Handshake
import Verif.Proofs.Frame
import Verif.Proofs.Ident
namespace Noise
open Spec

theorem handshakeText_eq : handshakeText = Spec.label := by decide +kernel

theorem frame_inj_body {suite : Option AEAD} {body : Bytes} (hA : ∀ A, suite = some A → A.Lawful) {p : Bytes}
    (h : openBody suite body = .ok p) : ∃ rnd, SuiteOK suite rnd ∧ body = bodyOf suite rnd p := by
  cases suite with
  | none => exact ⟨[], by rintro A ⟨⟩, by injection h⟩
  | some A =>
    rcases decrypt_cases (hA A rfl) body with ⟨n, q, hn, hb, hd⟩ | ⟨hd, _⟩ | hd
    · simp only [openBody] at h
      rw [hd] at h; injection h with h; subst h
      exact ⟨n, by rintro A ⟨⟩; exact ⟨hA _ rfl, hn⟩, hb⟩
    · simp only [openBody] at h; rw [hd] at h; cases h
    · simp only [openBody] at h; rw [hd] at h; cases h

theorem readFrame_iff {max : UInt32} (hmax : LimitOK max) {suite : Option AEAD} (hA : ∀ A, suite = some A → A.Lawful) {s p r : Bytes}
    {e : Err} : readFrame max suite s e = .ok (p, r) ↔
      ∃ rnd, SuiteOK suite rnd ∧ (bodyOf suite rnd p).length ≤ max.toNat ∧ s = frame suite rnd p ++ r := by
  constructor
  · intro h
    rw [readFrame_char hmax] at h
    split at h
    · cases h
    · split at h
      · cases h
      · split at h
        · cases h
        · rename_i h4 hm hl
          obtain ⟨q, hq, h⟩ := Res.bind_eq_ok h
          injection h with h; injection h with h1 h2; subst h1
          obtain ⟨rnd, hs, hb⟩ := frame_inj_body hA hq
          have hlen : (bodyOf suite rnd q).length = beVal (s.take 4) := by
            rw [← hb]; simp; omega
          refine ⟨rnd, hs, by omega, ?_⟩
          rw [frame_eq, hlen]
          have hmx := max.toNat_lt
          rw [put32_of_take (b := s) (by omega) (by simp; omega), ← hb, ← h2, List.append_assoc, ← List.drop_drop,
            List.take_append_drop, List.take_append_drop]
  · rintro ⟨rnd, hs, hl, rfl⟩
    exact readFrame_frame hmax hs hl r e

theorem copyInto_replicate' (n : Nat) (b : Bytes) (h : n ≤ b.length) : copyInto (List.replicate n 0) b = b.take n := by
  unfold copyInto
  simp
  omega

theorem keyOf_eq {b : Bytes} {k : PublicKey} (h : b = k.1) : keyOf b = k := by
  apply Subtype.ext
  rw [keyOf_val _ (by rw [h, k.2]), h]

theorem unmarshalSignature_eq {b : Bytes} {g : Signature} (h : b = g.1) : unmarshalSignature b = .ok g := by
  have hl := g.2
  unfold unmarshalSignature
  subst h
  rw [dif_pos (by omega)]
  congr 1
  apply Subtype.ext
  simp [List.take_of_length_le, hl]

theorem unmarshalSignature_of_length {b : Bytes} (h : b.length = 64) : unmarshalSignature b = .ok ⟨b, h⟩ :=
  unmarshalSignature_eq rfl

theorem keyOf_of_length {b : Bytes} (h : b.length = 32) : keyOf b = ⟨b, h⟩ := keyOf_eq rfl

theorem hsCheck1_eq (C : Crypto) (sec : PrivateKey) (data : Bytes) (h : data.length = 96) :
    hsCheck1 C sec data =
      if C.verify ⟨data.take 32, by simp; omega⟩ label ⟨data.drop 32, by simp; omega⟩ = true
      then match C.ecdh sec ⟨data.take 32, by simp; omega⟩ with | none => .err .hsEcdh | some k => .ok k
      else .err .hsVerify1 := by
  unfold hsCheck1
  rw [if_neg (by simp [h]), slice_ok (by omega) (by omega), Res.bind_ok, slice_ok (by omega) (by omega), Res.bind_ok]
  have e1 : (data.drop 32).take (96 - 32) = data.drop 32 := by apply List.take_of_length_le; simp; omega
  simp only [List.drop_zero, Nat.sub_zero]
  rw [e1, unmarshalSignature_of_length (by simp; omega), Res.bind_ok, keyOf_of_length (by simp; omega), handshakeText_eq]
  cases C.verify ⟨data.take 32, _⟩ label ⟨data.drop 32, _⟩ <;> rfl

theorem hsCheck1_iff (C : Crypto) (sec : PrivateKey) (data : Bytes) (k : SharedKey) :
    hsCheck1 C sec data = .ok k ↔ ∃ peer, FirstMessage C.verify peer data ∧ C.ecdh sec peer = some k := by
  constructor
  · intro h
    by_cases hl : data.length = 96
    · rw [hsCheck1_eq _ _ _ hl] at h
      split at h
      · next hv =>
        split at h
        · cases h
        · next k' hk =>
          injection h with h; subst h
          exact ⟨_, ⟨_, (List.take_append_drop 32 data).symm, hv⟩, hk⟩
      · cases h
    · unfold hsCheck1 at h; rw [if_pos hl] at h; cases h
  · rintro ⟨peer, ⟨g, rfl, hv⟩, hk⟩
    have h1 := peer.2
    have h2 := g.2
    rw [hsCheck1_eq _ _ _ (by simp [h1, h2])]
    have e1 : (⟨(peer.1 ++ g.1).take 32, by simp; omega⟩ : PublicKey) = peer := by apply Subtype.ext; simp [← h1]
    have e2 : (⟨(peer.1 ++ g.1).drop 32, by simp; omega⟩ : Signature) = g := by apply Subtype.ext; simp [← h1]
    simp only [e1, e2, hv, if_true, hk]

theorem hsCheck1_noPanic (C : Crypto) (sec : PrivateKey) (data : Bytes) : hsCheck1 C sec data ≠ .panic := by
  by_cases hl : data.length = 96
  · rw [hsCheck1_eq _ _ _ hl]
    split
    · split <;> simp
    · simp
  · unfold hsCheck1; rw [if_pos hl]; simp

theorem put16_spec (v : UInt16) : put16 v = [UInt8.ofNat (v.toNat / 256), UInt8.ofNat (v.toNat % 256)] := by
  apply beVal_inj
  · rfl
  · rw [beVal_put16]
    have := v.toNat_lt
    simp [beVal]
    omega

theorem describes_marshal {x : ID} {b : Bytes} (h : Describes x b) : x.marshal = b ∧ newID x.id (hostField x.host) x.port = x := by
  obtain ⟨hh, hb, ha⟩ := h
  constructor
  · rw [marshal_eq, hostField_16 _ hh, put16_spec, hb]
  · rw [hostField_16 _ hh]
    unfold newID
    rw [← ha]

theorem describes_of_unmarshal {data : Bytes} {x : ID} (h : unmarshalID data = .ok x) :
    50 ≤ data.length ∧ Describes x (data.take 50) := by
  by_cases hl : data.length < 50
  · rw [unmarshalID_short data hl] at h; cases h
  · obtain ⟨p, hp, hu⟩ := unmarshalID_ok data (by omega)
    rw [hu] at h
    injection h with h
    subst h
    refine ⟨by omega, by simp [newID]; omega, ?_, rfl⟩
    simp only [newID]
    rw [← put16_spec, keyOf_val _ (by simp; omega), put16_of_take (by simp; omega) hp]
    rw [show 50 = 32 + (16 + 2) from rfl, List.take_add, List.take_add, List.drop_drop, List.append_assoc]

theorem hsCheck2_iff (C : Crypto) (k : SharedKey) (data : Bytes) (x : ID) :
    hsCheck2 C k data = .ok x ↔ SecondMessage C.verify k.1 x data := by
  constructor
  · intro h
    unfold hsCheck2 at h
    obtain ⟨y, hy, h⟩ := Res.bind_eq_ok h
    obtain ⟨hl, hd⟩ := describes_of_unmarshal hy
    have hs : y.size = 50 := by simp [ID.size, y.id.2]
    have hb : copyInto (List.replicate y.size 0) data = data.take 50 := by
      rw [hs, copyInto_replicate' _ _ hl]
    dsimp only at h
    rw [hb] at h
    have hbl : (data.take 50).length = 50 := by simp; omega
    rw [hbl] at h
    split at h
    · cases h
    · next h114 =>
      have h114 : data.length = 114 := by simpa using h114
      rw [slice_ok (by omega) (by omega), Res.bind_ok] at h
      have e1 : (data.drop 50).take (50 + 64 - 50) = data.drop 50 := by apply List.take_of_length_le; simp; omega
      rw [e1, unmarshalSignature_of_length (by simp; omega), Res.bind_ok] at h
      split at h
      · cases h
      · next hv =>
        injection h with h; subst h
        exact ⟨_, _, hd, (List.take_append_drop 50 data).symm, by simpa using hv⟩
  · rintro ⟨b, g, hd, rfl, hv⟩
    obtain ⟨hm, hn⟩ := describes_marshal hd
    have hbl : b.length = 50 := by rw [← hm, marshal_length]
    have hg := g.2
    have hu : unmarshalID (b ++ g.1) = .ok x := by rw [← hm, unmarshal_marshal, hn]
    have hs : x.size = 50 := by simp [ID.size, x.id.2]
    unfold hsCheck2
    rw [hu, Res.bind_ok]
    have hb : copyInto (List.replicate x.size 0) (b ++ g.1) = b := by
      rw [hs, copyInto_replicate' _ _ (by simp; omega)]; simp [← hbl]
    dsimp only
    rw [hb, hbl]
    rw [if_neg (by simp [hbl, hg]), slice_ok (by omega) (by simp; omega), Res.bind_ok]
    have e1 : ((b ++ g.1).drop 50).take (50 + 64 - 50) = g.1 := by
      rw [show (b ++ g.1).drop 50 = g.1 by simp [← hbl]]; apply List.take_of_length_le; omega
    rw [e1, unmarshalSignature_eq rfl, Res.bind_ok, hv]
    rfl

theorem hsCheck2_noPanic (C : Crypto) (k : SharedKey) (data : Bytes) : hsCheck2 C k data ≠ .panic := by
  unfold hsCheck2
  by_cases hl : data.length < 50
  · rw [unmarshalID_short data hl]; intro h; cases h
  · obtain ⟨p, hp, hu⟩ := unmarshalID_ok data (by omega)
    rw [hu, Res.bind_ok]
    have hs : ∀ y : ID, y.size = 50 := fun y => by simp [ID.size, y.id.2]
    have hb : copyInto (List.replicate 50 0) data = data.take 50 := copyInto_replicate' _ _ (by omega)
    have hbl : (data.take 50).length = 50 := by simp; omega
    dsimp only
    rw [hs, hb, hbl]
    split
    · simp
    · next h114 =>
      have h114 : data.length = 114 := by simpa using h114
      rw [slice_ok (by omega) (by omega), Res.bind_ok]
      have e1 : (data.drop 50).take (50 + 64 - 50) = data.drop 50 := by apply List.take_of_length_le; simp; omega
      rw [e1, unmarshalSignature_of_length (by simp; omega), Res.bind_ok]
      split <;> simp

end Noise
