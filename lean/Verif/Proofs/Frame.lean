import Verif.Model.Frame
import Verif.Proofs.Ident
/-! Lemmas about framing. -/
namespace Noise
open Spec

theorem marshal_nil (m : Message) : m.marshal [] = put64 m.nonce ++ m.data := by
  simp [Message.marshal]

theorem unmarshal_marshal_msg (m : Message) : unmarshalMessage (m.marshal []) = .ok m := by
  rw [marshal_nil]
  unfold unmarshalMessage
  rw [if_neg (by simp [put64_length]), slice_ok (by omega) (by simp [put64_length]), Res.bind_ok]
  have : ((put64 m.nonce ++ m.data).drop 0).take (8 - 0) = put64 m.nonce ++ [] := by simp [put64]
  rw [this, get64_put64, Res.bind_ok, slice_ok (by simp [put64_length]) (by omega), Res.bind_ok]
  congr 1
  simp [put64]

theorem unmarshalMessage_ok {p : Bytes} (h : 8 ≤ p.length) :
    ∃ m, unmarshalMessage p = .ok m ∧ m.nonce.toNat = beVal (p.take 8) ∧ m.data = p.drop 8 ∧ m.marshal [] = p := by
  unfold unmarshalMessage
  rw [if_neg (by omega), slice_ok (by omega) h, Res.bind_ok]
  obtain ⟨v, hv, hn⟩ := get64_eq ((p.drop 0).take (8 - 0)) (by simp; omega)
  rw [hv, Res.bind_ok, slice_ok h (Nat.le_refl _), Res.bind_ok]
  have hn' : v.toNat = beVal (p.take 8) := by rw [hn]; simp [List.take_take]
  have hd : (p.drop 8).take (p.length - 8) = p.drop 8 := List.take_of_length_le (by simp)
  refine ⟨_, rfl, hn', hd, ?_⟩
  rw [marshal_nil, put64_of_take h hn', hd]
  exact List.take_append_drop 8 p

theorem unmarshalMessage_short {p : Bytes} (h : p.length < 8) : unmarshalMessage p = .err .unexpectedEOF := by
  unfold unmarshalMessage; rw [if_pos h]

/-- Error of `io.ReadFull` on a stream that is too short. -/
def shortErr (s : Bytes) (e : Err) : Err := if s = [] then e else if e = .eof then .unexpectedEOF else e

theorem readFull_short {n : Nat} {s : Bytes} {e : Err} (h : s.length < n) : readFull n s e = .err (shortErr s e) := by
  unfold readFull shortErr
  rw [if_neg (by omega)]
  split
  · rfl
  · split <;> rfl

theorem readFull_enough {n : Nat} {s : Bytes} {e : Err} (h : n ≤ s.length) : readFull n s e = .ok (s.take n, s.drop n) := by
  unfold readFull; rw [if_pos h]

/-- What `read` does with a complete frame body. -/
def openBody (suite : Option AEAD) (body : Bytes) : Res Bytes :=
  match suite with
  | none => .ok body
  | some A => decryptAEAD A body

/-- The range of receive limits for which the reader's buffer is large enough. -/
def LimitOK (max : UInt32) : Prop := 1 ≤ max.toNat ∧ max.toNat ≤ 2 ^ 32 - 5

theorem readerBufLen_ok {max : UInt32} (h : LimitOK max) : readerBufLen max = 4 + max.toNat := by
  unfold readerBufLen
  rw [UInt32.toNat_add]
  have := h.2
  simp
  omega

theorem readFrame_char {max : UInt32} (hmax : LimitOK max) (suite : Option AEAD) (s : Bytes) (e : Err) :
    readFrame max suite s e =
      if s.length < 4 then .err (shortErr s e)
      else if max.toNat < beVal (s.take 4) then .err .messageTooLarge
      else if s.length < 4 + beVal (s.take 4) then .err (shortErr (s.drop 4) e)
      else openBody suite ((s.drop 4).take (beVal (s.take 4))) >>= fun p => .ok (p, s.drop (4 + beVal (s.take 4))) := by
  have hb := readerBufLen_ok hmax
  unfold readFrame
  have hb0 : boundsOK max 0 4 = true := by simp [boundsOK, hb]
  rw [hb0]
  simp only [Bool.not_true, Bool.false_eq_true, if_false]
  by_cases h4 : s.length < 4
  · rw [readFull_short h4, if_pos h4]; rfl
  · rw [readFull_enough (by omega), if_neg h4, Res.bind_ok]
    dsimp only
    obtain ⟨size, hs, hv⟩ := get32_eq (s.take 4) (by simp; omega)
    rw [List.take_take, Nat.min_self] at hv
    rw [hs, Res.bind_ok, ← hv]
    have hgt : (decide (max > 0) && decide (size > max)) = true ↔ max.toNat < size.toNat := by
      simp only [Bool.and_eq_true, decide_eq_true_eq, gt_iff_lt, UInt32.lt_iff_toNat_lt]
      have := hmax.1
      simp; omega
    by_cases hg : max.toNat < size.toNat
    · rw [if_pos (hgt.2 hg), if_pos hg]
    · rw [if_neg (fun x => hg (hgt.1 x)), if_neg hg]
      have hsz : (size + 4).toNat = size.toNat + 4 := by
        have := hmax.2
        rw [UInt32.toNat_add]; simp; omega
      have hbo : boundsOK max 4 (size + 4).toNat = true := by
        simp [boundsOK, hb, hsz]; omega
      rw [hbo, hsz]
      simp only [Bool.not_true, Bool.false_eq_true, if_false, Nat.add_sub_cancel]
      by_cases hl : s.length < 4 + size.toNat
      · rw [if_pos hl, readFull_short (by simp; omega)]; rfl
      · rw [if_neg hl, readFull_enough (by simp; omega), Res.bind_ok]
        dsimp only
        rw [List.drop_drop]
        cases suite with
        | none => rfl
        | some A => rfl

/-- The bytes that follow the length header. -/
def bodyOf (suite : Option AEAD) (rnd p : Bytes) : Bytes := match suite with | none => p | some A => encryptAEAD A rnd p

theorem frame_eq (suite : Option AEAD) (rnd p : Bytes) :
    frame suite rnd p = put32 (UInt32.ofNat (bodyOf suite rnd p).length) ++ bodyOf suite rnd p := by
  cases suite <;> rfl

theorem decrypt_encrypt {A : AEAD} (hA : A.Lawful) {n p : Bytes} (hn : n.length = A.nonceSize) :
    decryptAEAD A (encryptAEAD A n p) = .ok p := by
  unfold decryptAEAD encryptAEAD
  rw [if_neg (by simp [hn]), slice_ok (by omega) (by simp [hn]), Res.bind_ok, slice_ok (by simp [hn]) (by omega), Res.bind_ok]
  have e1 : ((n ++ A.sealB n p).drop 0).take (A.nonceSize - 0) = n := by simp [← hn]
  have e2 : ((n ++ A.sealB n p).drop A.nonceSize).take ((n ++ A.sealB n p).length - A.nonceSize) = A.sealB n p := by simp [← hn]
  rw [e1, e2, hA.open_seal n p hn]
  rfl

theorem decrypt_cases {A : AEAD} (hA : A.Lawful) (b : Bytes) :
    (∃ n p, n.length = A.nonceSize ∧ b = encryptAEAD A n p ∧ decryptAEAD A b = .ok p) ∨
    (decryptAEAD A b = .err .unexpectedEOF ∧ b.length < A.nonceSize) ∨ (decryptAEAD A b = .err .aead) := by
  unfold decryptAEAD
  by_cases h : b.length < A.nonceSize
  · rw [if_pos h]; exact Or.inr (Or.inl ⟨rfl, h⟩)
  · rw [if_neg h, slice_ok (by omega) (by omega), Res.bind_ok, slice_ok (by omega) (by omega), Res.bind_ok]
    have hn : ((b.drop 0).take (A.nonceSize - 0)).length = A.nonceSize := by simp; omega
    cases ho : A.openB ((b.drop 0).take (A.nonceSize - 0)) ((b.drop A.nonceSize).take (b.length - A.nonceSize)) with
    | none => exact Or.inr (Or.inr rfl)
    | some p =>
      left
      refine ⟨_, p, hn, ?_, rfl⟩
      have := hA.sound _ _ _ hn ho
      unfold encryptAEAD
      rw [← this]
      simp only [List.drop_zero, Nat.sub_zero]
      rw [List.take_of_length_le (l := b.drop A.nonceSize) (by simp), List.take_append_drop]

/-- The suite of a session: none before the key exchange, lawful afterwards, with nonces of the right size. -/
def SuiteOK (suite : Option AEAD) (rnd : Bytes) : Prop := ∀ A, suite = some A → A.Lawful ∧ rnd.length = A.nonceSize

theorem openBody_bodyOf {suite : Option AEAD} {rnd : Bytes} (h : SuiteOK suite rnd) (p : Bytes) :
    openBody suite (bodyOf suite rnd p) = .ok p := by
  cases suite with
  | none => rfl
  | some A => exact decrypt_encrypt (h A rfl).1 (h A rfl).2

theorem readFrame_frame {max : UInt32} (hmax : LimitOK max) {suite : Option AEAD} {rnd p : Bytes} (h : SuiteOK suite rnd)
    (hl : (bodyOf suite rnd p).length ≤ max.toNat) (rest : Bytes) (e : Err) :
    readFrame max suite (frame suite rnd p ++ rest) e = .ok (p, rest) := by
  rw [readFrame_char hmax]
  have hm := max.toNat_lt
  have hv : beVal ((frame suite rnd p ++ rest).take 4) = (bodyOf suite rnd p).length := by
    rw [frame_eq]
    have : ((put32 (UInt32.ofNat (bodyOf suite rnd p).length) ++ bodyOf suite rnd p) ++ rest).take 4
      = put32 (UInt32.ofNat (bodyOf suite rnd p).length) := by simp [put32]
    rw [this, beVal_put32]
    simp; omega
  have hlen : (frame suite rnd p ++ rest).length = 4 + (bodyOf suite rnd p).length + rest.length := by
    rw [frame_eq]; simp [put32_length]; omega
  rw [if_neg (by omega), hv, if_neg (by omega), if_neg (by omega)]
  have e1 : ((frame suite rnd p ++ rest).drop 4).take (bodyOf suite rnd p).length = bodyOf suite rnd p := by
    rw [frame_eq]; simp [put32]
  have e2 : (frame suite rnd p ++ rest).drop (4 + (bodyOf suite rnd p).length) = rest := by
    rw [frame_eq, ← List.drop_drop]; simp [put32]
  rw [e1, e2, openBody_bodyOf h]
  rfl

theorem readAll_ok {max : UInt32} {suite : Option AEAD} {s p r : Bytes} {e : Err} (h : readFrame max suite s e = .ok (p, r)) :
    readAll max suite s e = (p :: (readAll max suite r e).1, (readAll max suite r e).2) := by
  rw [readAll.eq_def]; split <;> simp_all

theorem readAll_err {max : UInt32} {suite : Option AEAD} {s : Bytes} {e e' : Err} (h : readFrame max suite s e = .err e') :
    readAll max suite s e = ([], some e') := by
  rw [readAll.eq_def]; split <;> simp_all

theorem readAll_panic {max : UInt32} {suite : Option AEAD} {s : Bytes} {e : Err} (h : readFrame max suite s e = .panic) :
    readAll max suite s e = ([], none) := by
  rw [readAll.eq_def]; split <;> simp_all

theorem recvAll_ok {max : UInt32} {suite : Option AEAD} {s p r : Bytes} {e : Err} {m : Message}
    (h : readFrame max suite s e = .ok (p, r)) (hm : unmarshalMessage p = .ok m) :
    recvAll max suite s e = (m :: (recvAll max suite r e).1, (recvAll max suite r e).2) := by
  rw [recvAll.eq_def]; split <;> simp_all

theorem recvAll_badmsg {max : UInt32} {suite : Option AEAD} {s p r : Bytes} {e e' : Err}
    (h : readFrame max suite s e = .ok (p, r)) (hm : unmarshalMessage p = .err e') :
    recvAll max suite s e = ([], some e') := by
  rw [recvAll.eq_def]; split <;> simp_all

theorem recvAll_err {max : UInt32} {suite : Option AEAD} {s : Bytes} {e e' : Err} (h : readFrame max suite s e = .err e') :
    recvAll max suite s e = ([], some e') := by
  rw [recvAll.eq_def]; split <;> simp_all

theorem recvAll_panic {max : UInt32} {suite : Option AEAD} {s : Bytes} {e : Err} (h : readFrame max suite s e = .panic) :
    recvAll max suite s e = ([], none) := by
  rw [recvAll.eq_def]; split <;> simp_all

/-- An incomplete frame ends the reading with an error (in the allowed range of limits). -/
theorem readFrame_incomplete {max : UInt32} (hmax : LimitOK max) {suite : Option AEAD} {rnd p : Bytes}
    (hl : (bodyOf suite rnd p).length ≤ max.toNat) {k : Nat} (hk : k < (frame suite rnd p).length) (e : Err) :
    ∃ e', readFrame max suite ((frame suite rnd p).take k) e = .err e' ∧ (k = 0 → e' = e) ∧ (k ≠ 0 → e = .eof → e' = .eof ∨ e' = .unexpectedEOF) ∧
      (e ≠ .eof → e' = e) := by
  have hm := max.toNat_lt
  have hlen : (frame suite rnd p).length = 4 + (bodyOf suite rnd p).length := by rw [frame_eq]; simp [put32_length]
  rw [readFrame_char hmax]
  have se : ∀ s : Bytes, (e ≠ .eof → shortErr s e = e) ∧ (e = .eof → shortErr s e = .eof ∨ shortErr s e = .unexpectedEOF) ∧ (s = [] → shortErr s e = e) := by
    intro s
    unfold shortErr
    refine ⟨?_, ?_, ?_⟩
    · intro h; split <;> simp_all
    · intro h; split <;> simp_all
    · intro h; simp [h]
  by_cases h4 : k < 4
  · rw [if_pos (by simp; omega)]
    refine ⟨_, rfl, ?_, fun _ h => (se _).2.1 h, (se _).1⟩
    intro hk0
    exact (se _).2.2 (by simp [hk0])
  · have hv : beVal (((frame suite rnd p).take k).take 4) = (bodyOf suite rnd p).length := by
      rw [List.take_take, Nat.min_eq_left (by omega), frame_eq]
      have : (put32 (UInt32.ofNat (bodyOf suite rnd p).length) ++ bodyOf suite rnd p).take 4
        = put32 (UInt32.ofNat (bodyOf suite rnd p).length) := by simp [put32]
      rw [this, beVal_put32]
      simp; omega
    rw [if_neg (by simp; omega), hv, if_neg (by omega), if_pos (by simp; omega)]
    exact ⟨_, rfl, fun h => by omega, fun _ h => (se _).2.1 h, (se _).1⟩

end Noise
