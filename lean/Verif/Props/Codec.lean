import Verif.Proofs.Codec
import Verif.Spec.Registry
/-! # Properties C16-C20: the message codec -/
namespace Noise
open Spec

theorem validRegs_eq (hist : List (GoType × Decoder)) : validRegs hist = accepted [] hist := by
  have : ∀ (acc h : List (GoType × Decoder)),
      h.foldl (fun regs x => if x.2.ret = some x.1 ∧ x.1 ∉ regs.map Prod.fst then regs ++ [x] else regs) acc = accepted acc h := by
    intro acc h
    induction h generalizing acc with
    | nil => rfl
    | cons x xs ih => obtain ⟨t, d⟩ := x; simp only [List.foldl_cons, accepted]; split <;> exact ih _
  exact this [] hist

/-- The codec of a node after a history of `RegisterMessage` calls. -/
def codecAfter (hist : List (GoType × Decoder)) : Codec := (Codec.new.runAll hist).1

theorem codecInv_after (hist : List (GoType × Decoder)) : CodecInv (validRegs hist) (codecAfter hist) := by
  rw [validRegs_eq]; exact (CodecInv.new.runAll hist).1

theorem codecAfter_append (h1 h2 : List (GoType × Decoder)) : codecAfter (h1 ++ h2) = ((codecAfter h1).runAll h2).1 := by
  have : ∀ (c : Codec), (c.runAll (h1 ++ h2)).1 = ((c.runAll h1).1.runAll h2).1 := by
    induction h1 with
    | nil => intro c; rfl
    | cons x xs ih =>
      intro c
      obtain ⟨t, d⟩ := x
      simp only [List.cons_append, Codec.runAll]
      split <;> simp [ih]
  exact this _

/-- Encoding a value of a registered type that is not a pointer. -/
theorem encode_registered {regs : List (GoType × Decoder)} {c : Codec} (h : CodecInv regs c) {i : Nat} {n : Nat} {d : Decoder}
    (hi : regs[i]? = some (.named n, d)) (v : Val) (hv : v.ty = .named n ∨ v.ty = .ptr (.named n)) :
    c.encode v = .ok (put16 (UInt16.ofNat i) ++ v.marshalled) := by
  unfold Codec.encode
  have hs := h.ser i _ d hi
  rcases hv with hv | hv <;> rw [hv] <;> simp only [hs]

theorem encode_eq (c : Codec) (v : Val) : c.encode v = match c.ser (messageType v.ty) with
    | none => .err .notRegistered
    | some o => .ok (put16 o ++ v.marshalled) := by
  unfold Codec.encode messageType
  cases v.ty <;> rfl

theorem encode_ok {regs : List (GoType × Decoder)} {c : Codec} (h : CodecInv regs c) {v : Val} {b : Bytes} (he : c.encode v = .ok b) :
    ∃ (i : Nat) (d : Decoder), regs[i]? = some (messageType v.ty, d) ∧ b = put16 (UInt16.ofNat i) ++ v.marshalled := by
  rw [encode_eq] at he
  cases hs : c.ser (messageType v.ty) with
  | none => rw [hs] at he; cases he
  | some o =>
    rw [hs] at he
    injection he with he
    obtain ⟨i, d, hi⟩ := mem_types_iff.1 ((h.ser_isSome _).1 ⟨o, hs⟩)
    have := h.ser i _ d hi
    rw [hs] at this
    injection this with this
    exact ⟨i, d, hi, by rw [← he, this]⟩

/-- C16: with at most 65536 successes, exactly the valid calls succeed, the n-th success returns opcode n-1, opcodes of distinct types are distinct, and the
bytes of an encoded message never change when more types are registered. -/
theorem C16_opcodes (hist more : List (GoType × Decoder)) (hle : (validRegs (hist ++ more)).length ≤ 65536) :
    (Codec.new.runAll hist).2.length = hist.length ∧
    (Codec.new.runAll hist).2.filterMap id = (List.range (validRegs hist).length).map UInt16.ofNat ∧
    ((Codec.new.runAll hist).2.filterMap id).Nodup ∧
    (∀ v w bv bw, (codecAfter hist).encode v = .ok bv → (codecAfter hist).encode w = .ok bw → bv.take 2 = bw.take 2 →
      messageType v.ty = messageType w.ty) ∧
    (∀ v b, (codecAfter hist).encode v = .ok b → (codecAfter (hist ++ more)).encode v = .ok b) := by
  have hpre : ∃ l, validRegs (hist ++ more) = validRegs hist ++ l := by
    rw [validRegs_eq, validRegs_eq, accepted_append]; exact accepted_prefix _ _
  obtain ⟨l, hl⟩ := hpre
  have hle' : (validRegs hist).length ≤ 65536 := by rw [hl, List.length_append] at hle; omega
  have hrun := (CodecInv.new.runAll hist).2
  rw [← validRegs_eq] at hrun
  have hout : (Codec.new.runAll hist).2.filterMap id = (List.range (validRegs hist).length).map UInt16.ofNat := by
    rw [hrun.1, List.range_eq_range']; rfl
  refine ⟨hrun.2, hout, ?_, ?_, ?_⟩
  · rw [hout]
    unfold List.Nodup
    rw [List.pairwise_map]
    refine List.Pairwise.imp_of_mem ?_ (List.nodup_range (n := (validRegs hist).length))
    intro a b ha hb hab e
    simp at ha hb
    rw [ofNat16_eq_iff] at e
    omega
  · intro v w bv bw hv hw hb
    obtain ⟨i, d, hi, rfl⟩ := encode_ok (codecInv_after hist) hv
    obtain ⟨j, e, hj, rfl⟩ := encode_ok (codecInv_after hist) hw
    have h2 : put16 (UInt16.ofNat i) = put16 (UInt16.ofNat j) := by
      simpa [put16] using hb
    have h3 : UInt16.ofNat i = UInt16.ofNat j := by
      rw [← UInt16.toNat_inj, ← beVal_put16, ← beVal_put16, h2]
    rw [ofNat16_eq_iff] at h3
    have li := (List.getElem?_eq_some_iff.1 hi).1
    have lj := (List.getElem?_eq_some_iff.1 hj).1
    have : i = j := by omega
    subst this
    rw [hi] at hj
    injection hj with hj
    injection hj
  · intro v b hv
    obtain ⟨i, d, hi, rfl⟩ := encode_ok (codecInv_after hist) hv
    have hi' : (validRegs (hist ++ more))[i]? = some (messageType v.ty, d) := by
      rw [hl, List.getElem?_append_left (List.getElem?_eq_some_iff.1 hi).1]; exact hi
    have := (codecInv_after (hist ++ more)).ser i _ d hi'
    rw [encode_eq, this]

/-- C17: for a validly registered (value) type with decoder `d`: encoding a message of that type, or a pointer to one, gives the 2-byte big-endian
opcode followed by its serialisation, and decoding that calls exactly `d` on the serialisation; whatever decoding returns has the registered type. -/
theorem C17_encode_decode (hist : List (GoType × Decoder)) (hle : (validRegs hist).length ≤ 65536) (i n : Nat) (d : Decoder)
    (hi : (validRegs hist)[i]? = some (.named n, d)) (v : Val) (hv : v.ty = .named n ∨ v.ty = .ptr (.named n)) :
    ∃ hd, hd.length = 2 ∧ beVal hd = i ∧ (codecAfter hist).encode v = .ok (hd ++ v.marshalled) ∧
      (codecAfter hist).decode (hd ++ v.marshalled) = d.run v.marshalled ∧
      (∀ w, (codecAfter hist).decode (hd ++ v.marshalled) = .ok w → w.ty = .named n) := by
  have inv := codecInv_after hist
  have li := (List.getElem?_eq_some_iff.1 hi).1
  have hdec : (codecAfter hist).decode (put16 (UInt16.ofNat i) ++ v.marshalled) = d.run v.marshalled := by
    rw [decode_encoded, inv.de i _ d hi (by omega)]
  refine ⟨put16 (UInt16.ofNat i), rfl, ?_, encode_registered inv hi v hv, hdec, ?_⟩
  · rw [beVal_put16]; simp; omega
  · intro w hw
    rw [hdec] at hw
    have h1 := d.typed _ _ hw
    have h2 : d.ret = some (.named n) := by
      have := accepted_typed [] hist (by simp) (.named n, d) (by rw [← validRegs_eq]; exact List.mem_of_getElem? hi)
      exact this
    rw [h2] at h1
    injection h1 with h1
    exact h1.symm

/-- C18: a registration panics exactly when the type is already registered or the decoder has the wrong type; then nothing changes. Encoding an
unregistered type and decoding short data or an unknown opcode are errors. (Decoding data of a registered type can only panic if the decoder does.) -/
theorem C18_clean_failures (hist : List (GoType × Decoder)) (t : GoType) (d : Decoder) (v : Val) (b : Bytes) :
    ((codecAfter hist).register t d = none ↔ (∃ d', (t, d') ∈ validRegs hist) ∨ d.ret ≠ some t) ∧
    ((codecAfter hist).register t d = none → codecAfter (hist ++ [(t, d)]) = codecAfter hist) ∧
    ((∀ d', (messageType v.ty, d') ∉ validRegs hist) → (codecAfter hist).encode v = .err .notRegistered) ∧
    (codecAfter hist).encode v ≠ .panic ∧
    (b.length < 2 → (codecAfter hist).decode b = .err .unexpectedEOF) ∧
    (2 ≤ b.length → (validRegs hist).length ≤ beVal (b.take 2) → (codecAfter hist).decode b = .err .notRegistered) := by
  have inv := codecInv_after hist
  have hmem : ∀ t, t ∈ (validRegs hist).map Prod.fst ↔ ∃ d', (t, d') ∈ validRegs hist := by
    intro t; simp
  refine ⟨?_, ?_, ?_, ?_, ?_, ?_⟩
  · have := inv.register t d
    by_cases hc : d.ret = some t ∧ t ∉ (validRegs hist).map Prod.fst
    · obtain ⟨c', he, _⟩ := this.1 hc
      rw [he]
      simp only [reduceCtorEq, false_iff, not_or]
      exact ⟨fun h => hc.2 ((hmem t).2 h), fun h => h hc.1⟩
    · rw [this.2 hc]
      simp only [true_iff]
      by_cases hd : d.ret = some t
      · left
        rw [← hmem]
        by_cases hm : t ∈ (validRegs hist).map Prod.fst
        · exact hm
        · exact absurd ⟨hd, hm⟩ hc
      · exact Or.inr hd
  · intro h
    rw [codecAfter_append]
    simp only [Codec.runAll, h]
  · intro h
    have hn : messageType v.ty ∉ (validRegs hist).map Prod.fst := by
      rw [hmem]; rintro ⟨d', hd'⟩; exact h d' hd'
    rw [encode_eq, inv.ser_none _ hn]
  · rw [encode_eq]; split <;> simp
  · intro h; unfold Codec.decode; rw [if_pos h]
  · intro h hlen
    obtain ⟨o, ho, hv⟩ := get16_eq (b.take 2) (by simp; omega)
    rw [List.take_take, Nat.min_self] at hv
    have hb : b = put16 o ++ b.drop 2 := by rw [put16_of_take h hv, List.take_append_drop]
    rw [hb, decode_encoded, inv.de_none o (by omega)]

/-- A decoder for a given type. -/
def plainDecoder (t : GoType) (k : Nat) : Decoder where
  ret := some t
  run b := .ok ⟨t, b, k⟩
  typed := by intro b v h; injection h with h; subst h; rfl

/-- Registering distinct types with proper decoders always succeeds, in any number. -/
theorem validRegs_all (l : List (GoType × Decoder)) (h1 : (l.map Prod.fst).Nodup) (h2 : ∀ x ∈ l, x.2.ret = some x.1) : validRegs l = l := by
  have : ∀ (acc l : List (GoType × Decoder)), ((acc ++ l).map Prod.fst).Nodup → (∀ x ∈ l, x.2.ret = some x.1) → accepted acc l = acc ++ l := by
    intro acc l
    induction l generalizing acc with
    | nil => intro _ _; simp [accepted]
    | cons x xs ih =>
      intro hn ht
      obtain ⟨t, d⟩ := x
      simp only [accepted]
      rw [if_pos]
      · rw [ih (acc ++ [(t, d)]) (by simpa using hn) (fun y hy => ht y (by simp [hy]))]; simp
      · refine ⟨ht (t, d) (by simp), ?_⟩
        intro hm
        rw [List.map_append, List.nodup_append] at hn
        exact hn.2.2 t hm t (by simp) rfl
  rw [validRegs_eq]
  simpa using this [] l (by simpa using h1) h2

example : (codecAfter [(.named 1, plainDecoder (.named 1) 0), (.named 1, plainDecoder (.named 1) 0), (.named 2, plainDecoder (.named 2) 0)]).encode ⟨.named 2, [9], 0⟩
    = .ok [0, 1, 9] := by decide

/-- C19 is false: after any history with exactly 65537 successful registrations (none of which fails), a message of the first registered type is
encoded with opcode 0 but decoded by the decoder of the last registered type. -/
theorem C19_overflow_refuted (hist : List (GoType × Decoder)) (hlen : (validRegs hist).length = 65537) (n : Nat) (d0 : Decoder) (t1 : GoType) (d1 : Decoder)
    (h0 : (validRegs hist)[0]? = some (.named n, d0)) (h1 : (validRegs hist)[65536]? = some (t1, d1)) (v : Val) (hv : v.ty = .named n) :
    (codecAfter hist).encode v = .ok ([0, 0] ++ v.marshalled) ∧ (codecAfter hist).decode ([0, 0] ++ v.marshalled) = d1.run v.marshalled ∧
    (∀ w, (codecAfter hist).decode ([0, 0] ++ v.marshalled) = .ok w → w.ty ≠ v.ty) := by
  have inv := codecInv_after hist
  have e0 : put16 (UInt16.ofNat 0) = [0, 0] := by decide
  have e1 : UInt16.ofNat 65536 = 0 := by decide
  have henc := encode_registered inv h0 v (Or.inl hv)
  rw [e0] at henc
  have hdec : (codecAfter hist).decode ([0, 0] ++ v.marshalled) = d1.run v.marshalled := by
    have hde := inv.de 65536 t1 d1 h1 (by omega)
    rw [e1] at hde
    have : ([0, 0] : Bytes) = put16 0 := by decide
    rw [this, decode_encoded, hde]
  refine ⟨henc, hdec, ?_⟩
  intro w hw e
  rw [hdec] at hw
  have k1 := d1.typed _ _ hw
  have k2 : d1.ret = some t1 :=
    accepted_typed [] hist (by simp) (t1, d1) (by rw [← validRegs_eq]; exact List.mem_of_getElem? h1)
  rw [k2, e, hv] at k1
  injection k1 with k1
  subst k1
  -- the same type at two positions contradicts distinctness
  have s0 := inv.ser 0 _ d0 h0
  have hn := inv.nodup
  have g0 : ((validRegs hist).map Prod.fst)[0]? = some (.named n) := by rw [List.getElem?_map, h0]; rfl
  have g1 : ((validRegs hist).map Prod.fst)[65536]? = some (.named n) := by rw [List.getElem?_map, h1]; rfl
  have l1 := (List.getElem?_eq_some_iff.1 g1).1
  have l0 := (List.getElem?_eq_some_iff.1 g0).1
  have := (List.getElem_inj (i := 0) (j := 65536) (h₀ := l0) (h₁ := l1) hn).1
    (by rw [(List.getElem?_eq_some_iff.1 g0).2, (List.getElem?_eq_some_iff.1 g1).2])
  cases this

/-- 65537 registrations of distinct types. -/
def manyTypes : List (GoType × Decoder) := (List.range 65537).map fun n => (.named n, plainDecoder (.named n) n)

theorem manyTypes_valid : validRegs manyTypes = manyTypes := by
  apply validRegs_all
  · have : manyTypes.map Prod.fst = (List.range 65537).map GoType.named := by simp [manyTypes]
    rw [this]
    unfold List.Nodup
    rw [List.pairwise_map]
    exact List.Pairwise.imp (fun h e => h (by injection e)) List.nodup_range
  · intro x hx
    simp only [manyTypes, List.mem_map] at hx
    obtain ⟨n, _, rfl⟩ := hx
    rfl

theorem C19_overflow_witness (b : Bytes) : (codecAfter manyTypes).encode ⟨.named 0, b, 0⟩ = .ok ([0, 0] ++ b) ∧
    (codecAfter manyTypes).decode ([0, 0] ++ b) = .ok ⟨.named 65536, b, 65536⟩ := by
  have := C19_overflow_refuted manyTypes (by rw [manyTypes_valid]; simp [manyTypes]) 0 (plainDecoder (.named 0) 0) (.named 65536)
    (plainDecoder (.named 65536) 65536)
    (by rw [manyTypes_valid]; simp [manyTypes]) (by rw [manyTypes_valid]; simp [manyTypes]) ⟨.named 0, b, 0⟩ rfl
  exact ⟨this.1, this.2.1⟩

/-- C19, what does hold: after any number `N` of successes, the types among the last 65536 registered are encoded and decoded properly; up to 65536 nothing
is lost. Missing for the full claim: the earlier types (refuted above). -/
theorem C19_overflow_partial (hist : List (GoType × Decoder)) (i n : Nat) (d : Decoder) (hi : (validRegs hist)[i]? = some (.named n, d))
    (hlast : (validRegs hist).length ≤ i + 65536) (v : Val) (hv : v.ty = .named n) :
    ∃ b, (codecAfter hist).encode v = .ok b ∧ (codecAfter hist).decode b = d.run v.marshalled := by
  have inv := codecInv_after hist
  exact ⟨_, encode_registered inv hi v (Or.inl hv), by rw [decode_encoded, inv.de i _ d hi hlast]⟩

/-- C20 is false in its second half: a type that was registered successfully as a pointer type can never be encoded through its registration - without a
registration of the pointee every message of that type is rejected, and with one, it is encoded as the pointee. -/
theorem C20_pointer_refuted (hist : List (GoType × Decoder)) (n : Nat) (_hreg : ∃ d, (.ptr (.named n), d) ∈ validRegs hist) (v : Val)
    (hv : v.ty = .ptr (.named n)) :
    ((∀ d, (.named n, d) ∉ validRegs hist) → (codecAfter hist).encode v = .err .notRegistered) ∧
    (∀ w, w.ty = .named n → w.marshalled = v.marshalled → (codecAfter hist).encode v = (codecAfter hist).encode w) := by
  have inv := codecInv_after hist
  constructor
  · intro h
    have hn : (.named n : GoType) ∉ (validRegs hist).map Prod.fst := by
      intro hm
      simp at hm
      obtain ⟨d, hd⟩ := hm
      exact h d hd
    rw [encode_eq, hv]
    simp only [messageType, inv.ser_none _ hn]
  · intro w hw hm
    rw [encode_eq, encode_eq, hv, hw, hm]
    rfl

theorem C20_pointer_witness : (codecAfter [(.ptr (.named 1), plainDecoder (.ptr (.named 1)) 0)]).encode ⟨.ptr (.named 1), [1], 0⟩ = .err .notRegistered := by
  refine (C20_pointer_refuted _ 1 ⟨plainDecoder (.ptr (.named 1)) 0, ?_⟩ _ rfl).1 ?_
  · simp [validRegs, plainDecoder]
  · intro d; simp [validRegs, plainDecoder]

/-- C20, what does hold: a message passed by pointer is encoded like the value it points to, and every successfully registered non-pointer type
can be encoded. Missing: registered pointer types (refuted above). -/
theorem C20_pointer_partial (hist : List (GoType × Decoder)) (n : Nat) (v w : Val) (hv : v.ty = .named n) (hw : w.ty = .ptr (.named n))
    (hm : v.marshalled = w.marshalled) :
    (codecAfter hist).encode w = (codecAfter hist).encode v ∧
    ((∃ d, (.named n, d) ∈ validRegs hist) → ∃ b, (codecAfter hist).encode v = .ok b) := by
  constructor
  · rw [encode_eq, encode_eq, hv, hw, hm]; rfl
  · rintro ⟨d, hd⟩
    obtain ⟨i, hi⟩ := List.mem_iff_getElem?.1 hd
    exact ⟨_, encode_registered (codecInv_after hist) hi v (Or.inl hv)⟩

end Noise
