import Verif.Model.Codec
import Verif.Proofs.Ident
/-! Invariant of the codec. -/
namespace Noise

/-- The registrations that count: right decoder type, type not seen before. `acc` are the earlier ones, oldest first. -/
def accepted : List (GoType × Decoder) → List (GoType × Decoder) → List (GoType × Decoder)
  | acc, [] => acc
  | acc, (t, d) :: r => if d.ret = some t ∧ t ∉ acc.map Prod.fst then accepted (acc ++ [(t, d)]) r else accepted acc r

theorem accepted_append (acc h1 h2 : List (GoType × Decoder)) : accepted acc (h1 ++ h2) = accepted (accepted acc h1) h2 := by
  induction h1 generalizing acc with
  | nil => rfl
  | cons x xs ih => obtain ⟨t, d⟩ := x; simp only [List.cons_append, accepted]; split <;> exact ih _

theorem accepted_prefix (acc h : List (GoType × Decoder)) : ∃ l, accepted acc h = acc ++ l := by
  induction h generalizing acc with
  | nil => exact ⟨[], by simp [accepted]⟩
  | cons x xs ih =>
    obtain ⟨t, d⟩ := x
    simp only [accepted]
    split
    · obtain ⟨l, hl⟩ := ih (acc ++ [(t, d)])
      exact ⟨(t, d) :: l, by rw [hl]; simp⟩
    · exact ih acc

theorem accepted_nodup (acc h : List (GoType × Decoder)) (hn : (acc.map Prod.fst).Nodup) : ((accepted acc h).map Prod.fst).Nodup := by
  induction h generalizing acc with
  | nil => exact hn
  | cons x xs ih =>
    obtain ⟨t, d⟩ := x
    simp only [accepted]
    split
    · next hc =>
      apply ih
      rw [List.map_append, List.nodup_append]
      refine ⟨hn, by simp, ?_⟩
      intro a ha b hb e
      simp at hb
      subst hb; subst e
      exact hc.2 ha
    · exact ih acc hn

theorem accepted_typed (acc h : List (GoType × Decoder)) (hn : ∀ x ∈ acc, x.2.ret = some x.1) : ∀ x ∈ accepted acc h, x.2.ret = some x.1 := by
  induction h generalizing acc with
  | nil => exact hn
  | cons x xs ih =>
    obtain ⟨t, d⟩ := x
    simp only [accepted]
    split
    · next hc =>
      apply ih
      intro x hx
      rw [List.mem_append] at hx
      rcases hx with hx | hx
      · exact hn x hx
      · simp at hx; subst hx; exact hc.1
    · exact ih acc hn

/-- The codec state after the accepted registrations `regs`. -/
structure CodecInv (regs : List (GoType × Decoder)) (c : Codec) : Prop where
  counter : c.counter = UInt16.ofNat regs.length
  nodup : (regs.map Prod.fst).Nodup
  ser : ∀ (i : Nat) t d, regs[i]? = some (t, d) → c.ser t = some (UInt16.ofNat i)
  ser_none : ∀ t, t ∉ regs.map Prod.fst → c.ser t = none
  de : ∀ (i : Nat) t d, regs[i]? = some (t, d) → regs.length ≤ i + 65536 → c.de (UInt16.ofNat i) = some d
  de_none : ∀ o : UInt16, regs.length ≤ o.toNat → c.de o = none

theorem CodecInv.new : CodecInv [] Codec.new where
  counter := rfl
  nodup := by simp
  ser := by simp
  ser_none := by simp [Codec.new]
  de := by simp
  de_none := by simp [Codec.new]

theorem mem_types_iff {regs : List (GoType × Decoder)} {t : GoType} : t ∈ regs.map Prod.fst ↔ ∃ (i : Nat) (d : Decoder), regs[i]? = some (t, d) := by
  constructor
  · intro h
    simp only [List.mem_map] at h
    obtain ⟨⟨t', d⟩, hm, rfl⟩ := h
    obtain ⟨i, hi⟩ := List.mem_iff_getElem?.1 hm
    exact ⟨i, d, hi⟩
  · rintro ⟨i, d, hi⟩
    exact List.mem_map.2 ⟨(t, d), List.mem_of_getElem? hi, rfl⟩

theorem CodecInv.ser_isSome {regs : List (GoType × Decoder)} {c : Codec} (h : CodecInv regs c) (t : GoType) :
    (∃ o, c.ser t = some o) ↔ t ∈ regs.map Prod.fst := by
  constructor
  · rintro ⟨o, ho⟩
    by_cases hm : t ∈ regs.map Prod.fst
    · exact hm
    · rw [h.ser_none t hm] at ho; cases ho
  · intro hm
    obtain ⟨i, d, hi⟩ := mem_types_iff.1 hm
    exact ⟨_, h.ser i t d hi⟩

theorem ofNat16_eq_iff {a b : Nat} : UInt16.ofNat a = UInt16.ofNat b ↔ a % 65536 = b % 65536 := by
  rw [← UInt16.toNat_inj]; simp

theorem CodecInv.register {regs : List (GoType × Decoder)} {c : Codec} (h : CodecInv regs c) (t : GoType) (d : Decoder) :
    (d.ret = some t ∧ t ∉ regs.map Prod.fst → ∃ c', c.register t d = some (c', UInt16.ofNat regs.length) ∧ CodecInv (regs ++ [(t, d)]) c') ∧
    (¬ (d.ret = some t ∧ t ∉ regs.map Prod.fst) → c.register t d = none) := by
  constructor
  · rintro ⟨hd, hm⟩
    unfold Codec.register
    rw [h.ser_none t hm]
    simp only
    rw [if_neg (by simp [hd])]
    have ho : c.counter + 1 - 1 = UInt16.ofNat regs.length := by simp [h.counter]
    rw [ho]
    refine ⟨_, rfl, ?_⟩
    · constructor
      · show c.counter + 1 = _
        rw [h.counter, List.length_append, List.length_singleton]
        exact (UInt16.ofNat_add _ _).symm
      · rw [List.map_append, List.nodup_append]
        refine ⟨h.nodup, by simp, ?_⟩
        intro a ha b hb e
        simp at hb
        subst hb; subst e
        exact hm ha
      · intro i t' d' hi
        simp only
        by_cases hil : i < regs.length
        · rw [List.getElem?_append_left hil] at hi
          have hne : t' ≠ t := by rintro rfl; exact hm (mem_types_iff.2 ⟨i, d', hi⟩)
          rw [if_neg hne]; exact h.ser i t' d' hi
        · rw [List.getElem?_append_right (by omega)] at hi
          have : i - regs.length = 0 := by
            by_cases h0 : i - regs.length = 0
            · exact h0
            · rw [List.getElem?_eq_none (by simp; omega)] at hi; cases hi
          rw [this] at hi
          simp at hi
          obtain ⟨rfl, rfl⟩ := hi
          have : i = regs.length := by omega
          rw [if_pos rfl, h.counter, this]
      · intro t' ht'
        simp only [List.map_append, List.mem_append, not_or] at ht'
        simp at ht'
        simp only
        rw [if_neg ht'.2]
        exact h.ser_none t' (by simpa using ht'.1)
      · intro i t' d' hi hle
        simp only
        rw [h.counter]
        simp only [List.length_append, List.length_singleton] at hle
        by_cases hil : i < regs.length
        · rw [List.getElem?_append_left hil] at hi
          rw [if_neg (by rw [ofNat16_eq_iff]; omega)]
          exact h.de i t' d' hi (by omega)
        · rw [List.getElem?_append_right (by omega)] at hi
          have : i - regs.length = 0 := by
            by_cases h0 : i - regs.length = 0
            · exact h0
            · rw [List.getElem?_eq_none (by simp; omega)] at hi; cases hi
          rw [this] at hi
          simp at hi
          obtain ⟨rfl, rfl⟩ := hi
          have : i = regs.length := by omega
          rw [this, if_pos rfl]
      · intro o ho
        simp only [List.length_append, List.length_singleton] at ho
        have := o.toNat_lt
        simp only
        rw [if_neg, h.de_none o (by omega)]
        rw [h.counter, ← UInt16.toNat_inj]
        simp; omega
  · intro hn
    unfold Codec.register
    cases hs : c.ser t with
    | some o => rfl
    | none =>
      have hm : t ∉ regs.map Prod.fst := by
        intro hm
        obtain ⟨o, ho⟩ := (h.ser_isSome t).2 hm
        rw [hs] at ho; cases ho
      simp only
      rw [if_pos (fun hd => hn ⟨hd, hm⟩)]

theorem CodecInv.runAll {regs : List (GoType × Decoder)} {c : Codec} (h : CodecInv regs c) (hist : List (GoType × Decoder)) :
    CodecInv (accepted regs hist) (c.runAll hist).1 ∧
    (c.runAll hist).2.filterMap id = (List.range' regs.length ((accepted regs hist).length - regs.length)).map UInt16.ofNat ∧
    (c.runAll hist).2.length = hist.length := by
  induction hist generalizing regs c with
  | nil => simp [Codec.runAll, accepted, h]
  | cons x xs ih =>
    obtain ⟨t, d⟩ := x
    simp only [accepted, Codec.runAll]
    split
    · next hc =>
      obtain ⟨c', he, hi⟩ := (h.register t d).1 hc
      rw [he]
      obtain ⟨i1, i2, i3⟩ := ih hi
      obtain ⟨l, hl⟩ := accepted_prefix (regs ++ [(t, d)]) xs
      refine ⟨i1, ?_, by simp [i3]⟩
      simp only [List.filterMap_cons, id_eq, i2]
      have : (accepted (regs ++ [(t, d)]) xs).length - regs.length = (accepted (regs ++ [(t, d)]) xs).length - (regs ++ [(t, d)]).length + 1 := by
        rw [hl]; simp; omega
      rw [this, List.range'_succ]
      simp
    · next hc =>
      rw [(h.register t d).2 hc]
      obtain ⟨i1, i2, i3⟩ := ih h
      exact ⟨i1, by simpa using i2, by simp [i3]⟩

theorem decode_encoded {c : Codec} (o : UInt16) (b : Bytes) :
    c.decode (put16 o ++ b) = match c.de o with | none => .err .notRegistered | some d => d.run b := by
  unfold Codec.decode
  rw [if_neg (by simp [put16]), slice_ok (by omega) (by simp [put16]), Res.bind_ok]
  have e1 : ((put16 o ++ b).drop 0).take (2 - 0) = put16 o ++ [] := by simp [put16]
  rw [e1, get16_put16, Res.bind_ok, slice_ok (by simp [put16]) (by omega), Res.bind_ok]
  have e2 : ((put16 o ++ b).drop 2).take ((put16 o ++ b).length - 2) = b := by simp [put16]
  rw [e2]
  rfl

end Noise
