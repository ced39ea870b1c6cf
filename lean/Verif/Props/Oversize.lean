import Verif.Props.Frame
/-! # Property C116: messages above the limit of the receiver -/
namespace Noise
open Spec

theorem frameMsg_length {A : AEAD} (hA : A.IsGCM) {rnd : Bytes} (hr : rnd.length = 12) (m : Message) : (frameMsg (some A) rnd m).length = m.data.length + 40 := by
  have := hA.seal_length rnd (m.marshal []) (by rw [hr, hA.nonce_12])
  rw [frameMsg, frame_eq, List.length_append, put32_length, bodyOf, encryptAEAD, List.length_append, this, hr, hA.overhead_16, marshal_nil, List.length_append, put64_length]
  omega

theorem bodyOf_length {A : AEAD} (hA : A.IsGCM) {rnd : Bytes} (hr : rnd.length = 12) (m : Message) : (bodyOf (some A) rnd (m.marshal [])).length = m.data.length + 36 := by
  have h := frameMsg_length hA hr m
  rw [frameMsg, frame_eq, List.length_append, put32_length] at h
  omega

theorem recvAll_fits {max : UInt32} (hmax : LimitOK max) {A : AEAD} (hA : A.IsGCM) {rnd : Bytes} (hr : rnd.length = 12) {m : Message} (hm : m.data.length + 36 ≤ max.toNat) (rest : Bytes) (e : Err) :
    recvAll max (some A) (frameMsg (some A) rnd m ++ rest) e = (m :: (recvAll max (some A) rest e).1, (recvAll max (some A) rest e).2) :=
  recvAll_ok (readFrame_frame hmax (fun A' h => by cases h; exact ⟨hA.toLawful, by rw [hr, hA.nonce_12]⟩) (by rw [bodyOf_length hA hr]; exact hm) rest e) (unmarshal_marshal_msg m)

theorem recvAll_wire {max : UInt32} (hmax : LimitOK max) {A : AEAD} (hA : A.IsGCM) (ys : List (Bytes × Message)) (hy : ∀ y ∈ ys, y.1.length = 12 ∧ y.2.data.length + 36 ≤ max.toNat) (rest : Bytes) (e : Err) :
    recvAll max (some A) (wire (some A) ys ++ rest) e = (ys.map Prod.snd ++ (recvAll max (some A) rest e).1, (recvAll max (some A) rest e).2) := by
  induction ys with
  | nil => simp [wire]
  | cons y ys ih =>
    have h := hy y List.mem_cons_self
    rw [wire, List.flatMap_cons, List.append_assoc, recvAll_fits hmax hA h.1 h.2]
    have := ih fun z hz => hy z (List.mem_cons_of_mem _ hz)
    rw [wire] at this
    rw [this]
    rfl

theorem readFrame_oversized {max : UInt32} (hmax : LimitOK max) {A : AEAD} (hA : A.IsGCM) {rnd : Bytes} (hr : rnd.length = 12) {m : Message} (hm : max.toNat < m.data.length + 36) (hw : m.data.length + 36 < 2 ^ 32) (rest : Bytes) (e : Err) :
    readFrame max (some A) (frameMsg (some A) rnd m ++ rest) e = .err .messageTooLarge := by
  rw [readFrame_char hmax, if_neg, if_pos]
  · rw [frameMsg, frame_eq]
    have : ((put32 (UInt32.ofNat (bodyOf (some A) rnd (m.marshal [])).length) ++ bodyOf (some A) rnd (m.marshal [])) ++ rest).take 4
      = put32 (UInt32.ofNat (bodyOf (some A) rnd (m.marshal [])).length) := by simp [put32]
    rw [this, beVal_put32, bodyOf_length hA hr]
    simp; omega
  · rw [List.length_append, frameMsg_length hA hr]; omega

/-- **C116, refuted.** `Send` takes messages of any size (C27, C86); the limit is applied by the receiver only. Let a peer send messages within the limit, then one above it, then anything: with the same limit at both ends the receiver gets the
messages before it, and neither the large one nor - unless the length of the frame does not fit its 32 bits, when it reads on at a wrong place - any later one: it ends the connection. -/
theorem C116_later_messages_lost_refuted (max : UInt32) (hmax : 1 ≤ max.toNat ∧ max.toNat ≤ 2 ^ 32 - 5) (A : AEAD) (hA : A.IsGCM) (ys : List (Bytes × Message)) (hy : ∀ y ∈ ys, y.1.length = 12 ∧ y.2.data.length + 36 ≤ max.toNat)
    (rnd : Bytes) (hr : rnd.length = 12) (m : Message) (hm : max.toNat < m.data.length + 36) (rest : Bytes) (e : Err) :
    (m.data.length + 36 < 2 ^ 32 → recvAll max (some A) (wire (some A) ys ++ frameMsg (some A) rnd m ++ rest) e = (ys.map Prod.snd, some .messageTooLarge)) ∧
    ∀ ms, (recvAll max (some A) (wire (some A) ys ++ frameMsg (some A) rnd m ++ rest) e).1 ≠ ys.map Prod.snd ++ m :: ms := by
  rw [List.append_assoc, recvAll_wire hmax hA ys hy]
  refine ⟨fun hw => ?_, fun ms h => ?_⟩
  · rw [recvAll_err (readFrame_oversized hmax hA hr hm hw rest e)]
    simp
  · have h := List.append_cancel_left h
    rw [recvAll.eq_def] at h
    split at h
    · next p r hp =>
      split at h
      · next m' hm' =>
        injection h with h _
        subst h
        exact absurd ((C10_session_limit max hmax A hA rnd hr m' rest e).1 ⟨p, r, hp, hm'⟩) (by omega)
      · cases h
      · cases h
    · cases h
    · cases h

/-- **C116, what holds** (missing: that later messages get through, see above): whatever is sent, as long as the lengths fit 32 bits, the receiver gets exactly the messages before the first one above its limit; and then the error that says so, or,
if there is none, the end of the stream. -/
theorem C116_up_to_the_first_partial (max : UInt32) (hmax : 1 ≤ max.toNat ∧ max.toNat ≤ 2 ^ 32 - 5) (A : AEAD) (hA : A.IsGCM) (xs : List (Bytes × Message)) (hx : ∀ x ∈ xs, x.1.length = 12 ∧ x.2.data.length + 36 < 2 ^ 32) :
    recvAll max (some A) (wire (some A) xs) .eof =
      ((xs.takeWhile fun x => decide (x.2.data.length + 36 ≤ max.toNat)).map Prod.snd, some (if ∀ x ∈ xs, x.2.data.length + 36 ≤ max.toNat then .eof else .messageTooLarge)) := by
  induction xs with
  | nil => rw [wire, List.flatMap_nil, recvAll_err (e' := .eof)]; rfl; rw [readFrame_char hmax]; rfl
  | cons x xs ih =>
    have h := hx x List.mem_cons_self
    have ih := ih fun z hz => hx z (List.mem_cons_of_mem _ hz)
    rw [wire] at ih
    rw [wire, List.flatMap_cons, List.takeWhile_cons]
    by_cases hl : x.2.data.length + 36 ≤ max.toNat
    · rw [recvAll_fits hmax hA h.1 hl, ih]
      have hiff : (∀ y ∈ x :: xs, y.2.data.length + 36 ≤ max.toNat) ↔ ∀ y ∈ xs, y.2.data.length + 36 ≤ max.toNat := by rw [List.forall_mem_cons]; exact ⟨fun h => h.2, fun h => ⟨hl, h⟩⟩
      simp only [hiff]
      simp [hl]
    · rw [recvAll_err (readFrame_oversized hmax hA h.1 (by omega) h.2 _ _)]
      simp [hl]

/-- Three messages, the second of which is too large: only the first gets through. -/
example : recvAll 40 (some toyAEAD) (wire (some toyAEAD) [(List.replicate 12 1, ⟨0, [1]⟩), (List.replicate 12 2, ⟨0, [1, 2, 3, 4, 5]⟩), (List.replicate 12 3, ⟨0, [2]⟩)]) .eof = ([⟨0, [1]⟩], some .messageTooLarge) := by
  have := C116_up_to_the_first_partial 40 (by decide) toyAEAD toyAEAD_gcm [(List.replicate 12 1, ⟨0, [1]⟩), (List.replicate 12 2, ⟨0, [1, 2, 3, 4, 5]⟩), (List.replicate 12 3, ⟨0, [2]⟩)]
    (by intro x hx; simp at hx; rcases hx with rfl | rfl | rfl <;> decide)
  rw [this]
  simp

end Noise
