import Verif.Model.KadMsg
import Verif.Proofs.Ident
import Verif.Props.Ident
/-! # Property C53: FIND_NODE messages on the wire (kademlia/msg.go) -/
namespace Noise
open Spec

theorem appendResults_eq : ∀ (l : List ID) (b : Bytes), appendResults l b = b ++ l.flatMap ID.marshal
  | [], b => by simp [appendResults]
  | e :: l, b => by simp [appendResults, appendResults_eq l]

theorem size_eq (e : ID) : e.size = 50 := by simp [ID.size, e.id.2]

/-- One round of the loop. -/
theorem readResults_step (n : Nat) (buf : Bytes) (acc : List ID) :
    (buf.length < 50 → readResults (n + 1) buf acc = .err .unexpectedEOF) ∧
    (50 ≤ buf.length → ∃ e, unmarshalID buf = .ok e ∧ e.marshal = buf.take 50 ∧ readResults (n + 1) buf acc = readResults n (buf.drop 50) (acc ++ [e])) := by
  constructor
  · intro h
    rw [readResults, unmarshalID_short buf h]
  · intro h
    obtain ⟨e, h1, h2, _, _⟩ := (C03_unmarshalID_exact buf).2 h
    refine ⟨e, h1, h2, ?_⟩
    rw [readResults, h1]
    simp only [size_eq]
    rw [slice_ok h (Nat.le_refl _)]
    simp only
    rw [List.take_of_length_le (by simp)]

theorem readResults_spec : ∀ (n : Nat) (buf : Bytes) (acc : List ID),
    (buf.length < 50 * n → readResults n buf acc = .err .unexpectedEOF) ∧
    (50 * n ≤ buf.length → ∃ l, readResults n buf acc = .ok (acc ++ l) ∧ l.length = n ∧ l.flatMap ID.marshal = buf.take (50 * n))
  | 0, buf, acc => ⟨by simp, fun _ => ⟨[], by simp [readResults], rfl, by simp⟩⟩
  | n + 1, buf, acc => by
    obtain ⟨h1, h2⟩ := readResults_step n buf acc
    constructor
    · intro h
      by_cases hs : buf.length < 50
      · exact h1 hs
      · obtain ⟨e, _, _, h4⟩ := h2 (by omega)
        rw [h4]
        exact (readResults_spec n (buf.drop 50) (acc ++ [e])).1 (by simp; omega)
    · intro h
      obtain ⟨e, _, h3, h4⟩ := h2 (by omega)
      obtain ⟨l, h5, h6, h7⟩ := (readResults_spec n (buf.drop 50) (acc ++ [e])).2 (by simp; omega)
      refine ⟨e :: l, by rw [h4, h5]; simp, by simp [h6], ?_⟩
      rw [List.flatMap_cons, h3, h7, show 50 * (n + 1) = 50 + 50 * n by omega, List.take_add]

theorem readResults_marshal : ∀ (l : List ID) (n : Nat) (acc : List ID), n ≤ l.length → (∀ e ∈ l, e = newID e.id e.host e.port ∧ e.host.length = 16) →
    readResults n (l.flatMap ID.marshal) acc = .ok (acc ++ l.take n)
  | l, 0, acc, _, _ => by simp [readResults]
  | [], n + 1, acc, h, _ => by simp at h
  | e :: l, n + 1, acc, h, hv => by
    obtain ⟨h1, h2⟩ := hv e List.mem_cons_self
    have hu : unmarshalID (e.marshal ++ l.flatMap ID.marshal) = .ok e := by
      rw [unmarshal_marshal, hostField_16 _ h2, ← h1]
    obtain ⟨e', h3, _, h4⟩ := (readResults_step n (e.marshal ++ l.flatMap ID.marshal) acc).2 (by rw [List.length_append, marshal_length]; omega)
    rw [hu] at h3
    obtain rfl := Res.ok.inj h3
    rw [List.flatMap_cons, h4, List.drop_left' (marshal_length e), readResults_marshal l n _ (by simpa using h) (fun x hx => hv x (List.mem_cons_of_mem _ hx))]
    simp

/-- **C53 (requests).** `FindNodeRequest` round-trips; any other length than 32 bytes is rejected with `io.ErrUnexpectedEOF`. -/
theorem C53_request (k : PublicKey) (buf : Bytes) :
    unmarshalFindNodeRequest (marshalFindNodeRequest k) = .ok k ∧
    (buf.length ≠ 32 → unmarshalFindNodeRequest buf = .err .unexpectedEOF) ∧
    (buf.length = 32 → ∃ k', unmarshalFindNodeRequest buf = .ok k' ∧ marshalFindNodeRequest k' = buf) := by
  refine ⟨?_, ?_, ?_⟩
  · simp only [unmarshalFindNodeRequest, marshalFindNodeRequest, k.2]
    rw [if_neg (by simp)]
    exact congrArg _ (Subtype.ext (keyOf_val _ k.2))
  · intro h; simp [unmarshalFindNodeRequest, h]
  · intro h
    exact ⟨keyOf buf, by simp [unmarshalFindNodeRequest, h], keyOf_val buf h⟩

/-- **C53 (responses, round trip).** Up to 255 results with 16-byte hosts survive `Marshal` and `Unmarshal` unchanged. Beyond 255 the count wraps: only the first
`n mod 256` results survive, without an error. -/
theorem C53_response_roundtrip (l : List ID) (hv : ∀ e ∈ l, e = newID e.id e.host e.port ∧ e.host.length = 16) :
    (l.length ≤ 255 → unmarshalFindNodeResponse (marshalFindNodeResponse l) = .ok l) ∧
    unmarshalFindNodeResponse (marshalFindNodeResponse l) = .ok (l.take (l.length % 256)) := by
  have h : unmarshalFindNodeResponse (marshalFindNodeResponse l) = .ok (l.take (l.length % 256)) := by
    rw [marshalFindNodeResponse, appendResults_eq]
    simp only [List.cons_append, List.nil_append, unmarshalFindNodeResponse]
    rw [show (UInt8.ofNat l.length).toNat = l.length % 256 from UInt8.toNat_ofNat', readResults_marshal l _ _ (Nat.mod_le _ _) hv]
    rfl
  refine ⟨fun hl => ?_, h⟩
  rw [h, Nat.mod_eq_of_lt (by omega), List.take_length]

/-- **C53 (responses, arbitrary bytes).** Unmarshalling never panics. It fails, with `io.ErrUnexpectedEOF`, exactly when the slice is empty or too short for the announced
number of results; otherwise it returns exactly the announced number of results, those that are encoded in the slice, ignoring what follows. -/
theorem C53_response_total (buf : Bytes) :
    (unmarshalFindNodeResponse [] = .err .unexpectedEOF) ∧
    ∀ (n : UInt8), (buf.length < 50 * n.toNat → unmarshalFindNodeResponse (n :: buf) = .err .unexpectedEOF) ∧
      (50 * n.toNat ≤ buf.length → ∃ l, unmarshalFindNodeResponse (n :: buf) = .ok l ∧ l.length = n.toNat ∧ marshalFindNodeResponse l = (n :: buf).take (1 + 50 * n.toNat)) := by
  refine ⟨rfl, fun n => ⟨fun h => (readResults_spec n.toNat buf []).1 h, fun h => ?_⟩⟩
  obtain ⟨l, h1, h2, h3⟩ := (readResults_spec n.toNat buf []).2 h
  refine ⟨l, by simpa [unmarshalFindNodeResponse] using h1, h2, ?_⟩
  rw [marshalFindNodeResponse, appendResults_eq, h3, h2, Nat.add_comm, List.take_succ_cons]
  simp

/-- A response with one result, and a truncated one. -/
example : let e := newID (keyOf [1, 2, 3]) (List.replicate 16 7) 80
    (e = newID e.id e.host e.port ∧ e.host.length = 16) ∧ unmarshalFindNodeResponse (marshalFindNodeResponse [e]) = .ok [e] ∧ unmarshalFindNodeResponse ((marshalFindNodeResponse [e]).take 50) = .err .unexpectedEOF := by
  decide +kernel

end Noise
