import Verif.Model.Mem
import Verif.Proofs.Frame
/-! Lemmas about the memory model. -/
namespace Noise

/-- The slice lies inside an allocated array. -/
def Wf (H : Heap) (s : Slice) : Prop := s.arr < H.next ∧ s.off + s.cap ≤ (H.mem s.arr).length ∧ s.len ≤ s.cap

/-- `H` differs from `H0` only inside the window `[w.off, w.off + w.cap)` of array `w.arr` and in arrays allocated since. -/
def Safe (H0 : Heap) (w : Slice) (H : Heap) : Prop :=
  H0.next ≤ H.next ∧ ∀ a, a < H0.next → (H.mem a).length = (H0.mem a).length ∧ (a ≠ w.arr → H.mem a = H0.mem a) ∧
    (H.mem a).take w.off = (H0.mem a).take w.off ∧ (H.mem a).drop (w.off + w.cap) = (H0.mem a).drop (w.off + w.cap)

/-- The slice may be written: it is new, or inside the window. -/
def InW (H0 : Heap) (w s : Slice) : Prop := H0.next ≤ s.arr ∨ (s.arr = w.arr ∧ w.off ≤ s.off ∧ s.off + s.cap ≤ w.off + w.cap)

theorem pokeL_length {L bs : Bytes} {i : Nat} (h : i + bs.length ≤ L.length) : (pokeL L i bs).length = L.length := by
  simp [pokeL]; omega

theorem pokeL_read {L bs : Bytes} {i : Nat} (h : i + bs.length ≤ L.length) : ((pokeL L i bs).drop i).take bs.length = bs := by
  simp [pokeL, List.append_assoc, List.length_take, Nat.min_eq_left (show i ≤ L.length by omega)]

theorem pokeL_take {L bs : Bytes} {i j : Nat} (h : i + bs.length ≤ L.length) (hj : j ≤ i) : (pokeL L i bs).take j = L.take j := by
  unfold pokeL
  rw [List.append_assoc, List.take_append_of_le_length (by simp; omega), List.take_take, Nat.min_eq_left hj]

theorem pokeL_drop {L bs : Bytes} {i j : Nat} (h : i + bs.length ≤ L.length) (hj : i + bs.length ≤ j) : (pokeL L i bs).drop j = L.drop j := by
  unfold pokeL
  rw [List.drop_append, List.drop_of_length_le (by simp; omega), List.nil_append, List.drop_drop]
  congr 1
  simp; omega

/-- Reading a stretch before the written one. -/
theorem pokeL_before {L bs : Bytes} {i j n : Nat} (h : i + bs.length ≤ L.length) (hj : j + n ≤ i) :
    ((pokeL L i bs).drop j).take n = (L.drop j).take n := by
  rw [List.take_drop, List.take_drop, pokeL_take h hj]

theorem Safe.refl (H : Heap) (w : Slice) : Safe H w H := ⟨Nat.le_refl _, fun _ _ => ⟨rfl, fun _ => rfl, rfl, rfl⟩⟩

theorem Safe.alloc {H0 H : Heap} {w : Slice} (h : Safe H0 w H) (bs : Bytes) (len : Nat) : Safe H0 w (H.alloc bs len).1 := by
  refine ⟨Nat.le_succ_of_le h.1, fun a ha => ?_⟩
  have hne : a ≠ H.next := by have := h.1; omega
  simp only [Heap.alloc, if_neg hne]
  exact h.2 a ha

theorem InW.alloc {H0 H : Heap} {w : Slice} (h : Safe H0 w H) (bs : Bytes) (len : Nat) : InW H0 w (H.alloc bs len).2 := Or.inl h.1

theorem Wf.alloc (H : Heap) (bs : Bytes) (len : Nat) (h : len ≤ bs.length) : Wf (H.alloc bs len).1 (H.alloc bs len).2 := by
  refine ⟨Nat.lt_succ_self _, ?_, h⟩
  simp [Heap.alloc]

theorem Wf.alloc_old {H : Heap} {s : Slice} (h : Wf H s) (bs : Bytes) (len : Nat) : Wf (H.alloc bs len).1 s := by
  have hne : s.arr ≠ H.next := by have := h.1; omega
  refine ⟨Nat.lt_succ_of_lt h.1, ?_, h.2.2⟩
  simp only [Heap.alloc, if_neg hne]; exact h.2.1

theorem read_alloc_old {H : Heap} {s : Slice} (h : Wf H s) (bs : Bytes) (len : Nat) : (H.alloc bs len).1.read s = H.read s := by
  have hne : s.arr ≠ H.next := by have := h.1; omega
  simp only [Heap.read, Heap.alloc, if_neg hne]

theorem read_alloc (H : Heap) (bs : Bytes) (len : Nat) : (H.alloc bs len).1.read (H.alloc bs len).2 = bs.take len := by
  simp [Heap.read, Heap.alloc]

theorem read_length {H : Heap} {s : Slice} (h : Wf H s) : (H.read s).length = s.len := by
  have := h.2.1; have := h.2.2
  simp [Heap.read]; omega

/-- Writing inside the capacity of a writable slice is safe. -/
theorem Safe.poke {H0 H : Heap} {w s : Slice} (h : Safe H0 w H) (hi : InW H0 w s) (hw : Wf H s) {i : Nat} {bs : Bytes}
    (h1 : s.off ≤ i) (h2 : i + bs.length ≤ s.off + s.cap) : Safe H0 w (H.poke s.arr i bs) := by
  refine ⟨h.1, fun a ha => ?_⟩
  obtain ⟨k1, k2, k3, k4⟩ := h.2 a ha
  by_cases e : a = s.arr
  · subst e
    rcases hi with hi | ⟨hi1, hi2, hi3⟩
    · omega
    have hlen : i + bs.length ≤ (H.mem s.arr).length := by have := hw.2.1; omega
    simp only [Heap.poke, if_true]
    refine ⟨by rw [pokeL_length hlen, k1], fun hne => absurd hi1 hne, ?_, ?_⟩
    · rw [pokeL_take hlen (by omega), k3]
    · rw [pokeL_drop hlen (by omega), k4]
  · simp only [Heap.poke, if_neg e]
    exact ⟨k1, k2, k3, k4⟩

theorem Wf.poke {H : Heap} {s t : Slice} (h : Wf H s) {i : Nat} {bs : Bytes} (hl : i + bs.length ≤ (H.mem t.arr).length) :
    Wf (H.poke t.arr i bs) s := by
  refine ⟨h.1, ?_, h.2.2⟩
  simp only [Heap.poke]
  split
  · next e => rw [pokeL_length hl, ← e]; exact h.2.1
  · exact h.2.1

theorem slice_ok' {s : Slice} {lo hi : Nat} (h1 : lo ≤ hi) (h2 : hi ≤ s.cap) :
    s.slice lo hi = .ok ⟨s.arr, s.off + lo, hi - lo, s.cap - lo⟩ := by
  unfold Slice.slice; rw [if_pos ⟨h1, h2⟩]

theorem goAppend_spec {H0 H : Heap} {w s : Slice} (slack : Nat → Nat) (h : Safe H0 w H) (hi : InW H0 w s) (hw : Wf H s) (bs : Bytes) :
    Safe H0 w (goAppend slack H s bs).1 ∧ InW H0 w (goAppend slack H s bs).2 ∧ Wf (goAppend slack H s bs).1 (goAppend slack H s bs).2 ∧
    (goAppend slack H s bs).1.read (goAppend slack H s bs).2 = H.read s ++ bs ∧ (goAppend slack H s bs).2.len = s.len + bs.length ∧
    H.next ≤ (goAppend slack H s bs).1.next ∧
    (∀ a, a < H.next → a ≠ s.arr → (goAppend slack H s bs).1.mem a = H.mem a) := by
  unfold goAppend
  split
  · next hc =>
    have hlen : s.off + s.len + bs.length ≤ (H.mem s.arr).length := by have := hw.2.1; omega
    refine ⟨h.poke hi hw (by omega) (by omega), hi, ?_, ?_, rfl, Nat.le_refl _, ?_⟩
    · have := hw.poke (t := s) (i := s.off + s.len) (bs := bs) hlen
      exact ⟨this.1, this.2.1, hc⟩
    · simp only [Heap.read, Heap.poke, if_true]
      rw [List.take_add, pokeL_before hlen (by omega), List.drop_drop, pokeL_read hlen]
    · intro a _ ha; simp only [Heap.poke, if_neg ha]
  · next hc =>
    have hl := read_length hw
    refine ⟨h.alloc _ _, InW.alloc h _ _, Wf.alloc _ _ _ (by simp), ?_, by simp [Heap.alloc, hl], Nat.le_succ _, ?_⟩
    · rw [read_alloc]; exact List.take_left
    · intro a ha _
      have hne : a ≠ H.next := by omega
      simp only [Heap.alloc, if_neg hne]

/-- Sub-slices of a writable, well-formed slice. -/
theorem InW.sub {H0 : Heap} {w s : Slice} (h : InW H0 w s) {lo len : Nat} (hl : lo ≤ s.cap) : InW H0 w ⟨s.arr, s.off + lo, len, s.cap - lo⟩ := by
  rcases h with h | ⟨h1, h2, h3⟩
  · exact Or.inl h
  · refine Or.inr ⟨h1, ?_, ?_⟩ <;> dsimp only <;> omega

theorem Wf.sub {H : Heap} {s : Slice} (h : Wf H s) {lo len : Nat} (hl : lo + len ≤ s.cap) : Wf H ⟨s.arr, s.off + lo, len, s.cap - lo⟩ := by
  refine ⟨h.1, ?_, ?_⟩
  · have := h.2.1; dsimp only; omega
  · dsimp only; omega

theorem extendFront_spec {H0 H : Heap} {w s : Slice} (slack : Nat → Nat) (h : Safe H0 w H) (hi : InW H0 w s) (hw : Wf H s) (n : Nat) :
    ∃ H' s' X, extendFront slack H s n = .ok (H', s') ∧ Safe H0 w H' ∧ InW H0 w s' ∧ Wf H' s' ∧ X.length = n ∧ H'.read s' = X ++ H.read s ∧
      s'.len = n + s.len := by
  unfold extendFront
  have hrl := read_length hw
  split
  · next hc =>
    have hA := Wf.alloc H (List.replicate (n + s.len) 0) (n + s.len) (by simp)
    simp only
    rw [slice_ok' (by simp [Heap.alloc]) (by simp [Heap.alloc]), Res.bind_ok]
    have hl : ((H.alloc (List.replicate (n + s.len) 0) (n + s.len)).1.mem H.next).length = n + s.len := by simp [Heap.alloc]
    have hr : ((H.alloc (List.replicate (n + s.len) 0) (n + s.len)).1.read s).take s.len = H.read s := by
      rw [read_alloc_old hw, List.take_of_length_le (by omega)]
    have hlen2 : (H.alloc (List.replicate (n + s.len) 0) (n + s.len)).2.len - n = s.len := by simp [Heap.alloc]
    dsimp only
    rw [hlen2, hr]
    have hpk : n + (H.read s).length ≤ ((H.alloc (List.replicate (n + s.len) 0) (n + s.len)).1.mem (H.alloc (List.replicate (n + s.len) 0) (n + s.len)).2.arr).length := by
      rw [show (H.alloc (List.replicate (n + s.len) 0) (n + s.len)).2.arr = H.next from rfl, hl, hrl]; omega
    refine ⟨_, _, List.replicate n 0, rfl, ?_, InW.alloc h _ _, ?_, by simp, ?_, rfl⟩
    · apply (h.alloc (List.replicate (n + s.len) 0) (n + s.len)).poke (InW.alloc h _ _) hA
      · exact Nat.le_add_right _ _
      · rw [hrl]; simp [Heap.alloc]
    · apply hA.poke
      rw [show (H.alloc (List.replicate (n + s.len) 0) (n + s.len)).2.off = 0 from rfl, Nat.zero_add]
      exact hpk
    · simp only [Heap.read, Heap.poke, Heap.alloc, if_true, Nat.zero_add, List.drop_zero]
      have hr2 : ((H.mem s.arr).drop s.off).take s.len = H.read s := rfl
      rw [hr2, List.take_of_length_le (by rw [pokeL_length] <;> simp [hrl])]
      unfold pokeL
      rw [hrl, List.drop_of_length_le (by simp), List.append_nil]
      simp
  · next hc =>
    have hcap := hw.2.2
    rw [slice_ok' (by omega) (by omega), Res.bind_ok]
    have hi' : InW H0 w ⟨s.arr, s.off + 0, n - 0, s.cap - 0⟩ := hi.sub (by omega)
    have hw' : Wf H ⟨s.arr, s.off + 0, n - 0, s.cap - 0⟩ := hw.sub (by omega)
    obtain ⟨a1, a2, a3, a4, a5, _⟩ := goAppend_spec slack h hi' hw' (H.read s)
    exact ⟨_, _, _, rfl, a1, a2, a3, (by rw [read_length hw']; rfl), a4, a5.trans (by rw [hrl]; rfl)⟩

theorem extendBack_spec {H0 H : Heap} {w s : Slice} (slack : Nat → Nat) (h : Safe H0 w H) (hi : InW H0 w s) (hw : Wf H s) (n : Nat) :
    ∃ H' s' Y, extendBack slack H s n = .ok (H', s') ∧ Safe H0 w H' ∧ InW H0 w s' ∧ Wf H' s' ∧ Y.length = n ∧ H'.read s' = H.read s ++ Y ∧
      s'.len = n + s.len := by
  unfold extendBack
  have hcap := hw.2.2
  simp only
  split
  · next hc =>
    rw [slice_ok' (by omega) (by omega), Res.bind_ok]
    have hi' : InW H0 w ⟨s.arr, s.off + 0, s.cap - 0, s.cap - 0⟩ := hi.sub (by omega)
    have hw' : Wf H ⟨s.arr, s.off + 0, s.cap - 0, s.cap - 0⟩ := hw.sub (by omega)
    obtain ⟨a1, a2, a3, a4, a5, _⟩ := goAppend_spec slack h hi' hw' (List.replicate (n + s.len - s.cap) 0)
    generalize hg : goAppend slack H ⟨s.arr, s.off + 0, s.cap - 0, s.cap - 0⟩ (List.replicate (n + s.len - s.cap) 0) = G at a1 a2 a3 a4 a5
    obtain ⟨G1, G2⟩ := G
    dsimp only at a1 a2 a3 a4 a5 ⊢
    have hl2 : G2.len = n + s.len := by rw [a5]; simp; omega
    have hc2 := a3.2.2
    rw [slice_ok' (by omega) (by omega), Res.bind_ok]
    have a4' : G1.read ⟨G2.arr, G2.off + 0, n + s.len - 0, G2.cap - 0⟩ = G1.read G2 := by
      simp [Heap.read, hl2]
    refine ⟨_, _, ((H.mem s.arr).drop (s.off + s.len)).take (s.cap - s.len) ++ List.replicate (n + s.len - s.cap) 0, rfl, a1,
      a2.sub (by omega), a3.sub (by omega), ?_, ?_, rfl⟩
    · have := hw.2.1
      simp; omega
    · rw [a4', a4]
      have : H.read ⟨s.arr, s.off + 0, s.cap - 0, s.cap - 0⟩ = H.read s ++ ((H.mem s.arr).drop (s.off + s.len)).take (s.cap - s.len) := by
        simp only [Heap.read, Nat.add_zero, Nat.sub_zero]
        rw [← List.drop_drop, ← List.take_add]
        congr 1; omega
      rw [this, List.append_assoc]
  · next hc =>
    rw [slice_ok' (by omega) (by omega), Res.bind_ok]
    refine ⟨_, _, ((H.mem s.arr).drop (s.off + s.len)).take n, rfl, h, hi.sub (by omega), hw.sub (by omega), ?_, ?_, rfl⟩
    · have := hw.2.1
      simp; omega
    · simp only [Heap.read, Nat.add_zero, Nat.sub_zero]
      rw [← List.drop_drop, ← List.take_add]
      congr 1; omega

/-- Reading sub-slices. -/
theorem read_sub {H : Heap} {s : Slice} {lo len : Nat} (hl : lo + len ≤ s.len) :
    H.read ⟨s.arr, s.off + lo, len, s.cap - lo⟩ = ((H.read s).drop lo).take len := by
  simp only [Heap.read]
  rw [List.drop_take, List.drop_drop, List.take_take]
  congr 1; omega

theorem memEncrypt_spec {H0 H : Heap} {w s : Slice} (slack : Nat → Nat) (A : AEAD) (hA : A.Lawful) (rnd : Bytes) (hr : rnd.length = A.nonceSize)
    (h : Safe H0 w H) (hi : InW H0 w s) (hw : Wf H s) :
    ∃ H' s', memEncrypt slack A rnd H s = .ok (H', s') ∧ Safe H0 w H' ∧ InW H0 w s' ∧ Wf H' s' ∧
      H'.read s' = rnd ++ A.sealB rnd (H.read s) := by
  unfold memEncrypt
  simp only
  have hrl := read_length hw
  obtain ⟨H1, s1, X, e1, k1, i1, w1, x1, r1, l1⟩ := extendFront_spec slack h hi hw A.nonceSize
  rw [e1, Res.bind_ok]
  dsimp only
  obtain ⟨H2, s2, Y, e2, k2, i2, w2, y2, r2, l2⟩ := extendBack_spec slack k1 i1 w1 s.len
  rw [e2, Res.bind_ok]
  dsimp only
  obtain ⟨P, hP⟩ : ∃ P, P = H.read s := ⟨_, rfl⟩
  rw [← hP] at hrl r1 ⊢
  have hlen2 : s2.len = s.len + (A.nonceSize + s.len) := by rw [l2, l1]
  have hc2 := w2.2.2
  rw [slice_ok' (by omega) (by omega), Res.bind_ok]
  dsimp only
  rw [List.take_of_length_le (by omega)]
  have hpl : s2.off + 0 + rnd.length ≤ (H2.mem s2.arr).length := by have := w2.2.1; omega
  -- after rand.Read
  have k3 : Safe H0 w (H2.poke s2.arr (s2.off + 0) rnd) := k2.poke i2 w2 (by omega) (by omega)
  have w3 : Wf (H2.poke s2.arr (s2.off + 0) rnd) s2 := w2.poke hpl
  have r3 : (H2.poke s2.arr (s2.off + 0) rnd).read s2 = rnd ++ (P ++ Y) := by
    have : H2.read s2 = X ++ (P ++ Y) := by rw [r2, r1, List.append_assoc]
    simp only [Heap.read, Heap.poke, if_true, Nat.add_zero] at this ⊢ hpl
    unfold pokeL
    rw [List.append_assoc, List.drop_append, List.length_take]
    have hm : min s2.off (H2.mem s2.arr).length = s2.off := by have := w2.2.1; omega
    rw [hm, List.drop_of_length_le (by simp; omega), List.nil_append, Nat.sub_self, List.drop_zero, List.take_append,
      List.take_of_length_le (by omega)]
    congr 1
    have e : List.drop A.nonceSize (List.take s2.len (List.drop s2.off (H2.mem s2.arr))) = P ++ Y := by rw [this, ← x1, List.drop_left]
    rw [List.drop_take, List.drop_drop] at e
    rw [hr]; exact e
  generalize hH3 : H2.poke s2.arr (s2.off + 0) rnd = H3 at k3 w3 r3
  rw [slice_ok' (by omega) (by omega), Res.bind_ok, slice_ok' (by omega) (by omega), Res.bind_ok]
  have rn : H3.read ⟨s2.arr, s2.off + 0, A.nonceSize - 0, s2.cap - 0⟩ = rnd := by
    rw [read_sub (s := s2) (lo := 0) (by omega), r3]
    rw [List.drop_zero, Nat.sub_zero, ← hr, List.take_left]
  have rp : H3.read ⟨s2.arr, s2.off + A.nonceSize, A.nonceSize + s.len - A.nonceSize, s2.cap - A.nonceSize⟩ = P := by
    rw [read_sub (s := s2) (by omega), r3, ← hr, List.drop_left, Nat.add_sub_cancel_left, ← hrl, List.take_left]
  have hcl : (A.sealB rnd (P)).length = s.len + A.overhead := by rw [hA.seal_length _ _ hr, hrl]
  -- the result of Seal
  have hseal : ∃ H4 s4, memSeal A H3 ⟨s2.arr, s2.off + A.nonceSize, A.nonceSize - A.nonceSize, s2.cap - A.nonceSize⟩
      ⟨s2.arr, s2.off + 0, A.nonceSize - 0, s2.cap - 0⟩
      ⟨s2.arr, s2.off + A.nonceSize, A.nonceSize + s.len - A.nonceSize, s2.cap - A.nonceSize⟩ = .ok (H4, s4) ∧ Safe H0 w H4 ∧ Wf H4 s2 ∧
      H4.read s4 = A.sealB rnd (P) ∧ H4.read ⟨s2.arr, s2.off + 0, A.nonceSize - 0, s2.cap - 0⟩ = rnd := by
    unfold memSeal
    simp only [rn, rp]
    split
    · next hfit =>
      have hno : inexactOverlap ⟨s2.arr, s2.off + A.nonceSize + (A.nonceSize - A.nonceSize), (A.sealB rnd (P)).length,
          s2.cap - A.nonceSize - (A.nonceSize - A.nonceSize)⟩
          ⟨s2.arr, s2.off + A.nonceSize, A.nonceSize + s.len - A.nonceSize, s2.cap - A.nonceSize⟩ = false := by
        simp [inexactOverlap]
      rw [hno]
      simp only [Bool.false_eq_true, if_false]
      have hb : s2.off + A.nonceSize + (A.nonceSize - A.nonceSize) + (A.sealB rnd (P)).length ≤ (H3.mem s2.arr).length := by
        have := w3.2.1; omega
      refine ⟨_, _, rfl, k3.poke i2 w3 (by omega) (by omega), w3.poke hb, ?_, ?_⟩
      · simp only [Heap.read, Heap.poke, if_true]
        have := pokeL_read hb
        simpa using this
      · refine Eq.trans ?_ rn
        simp only [Heap.read, Heap.poke, if_true]
        exact pokeL_before hb (by omega)
    · have hC : (H3.read ⟨s2.arr, s2.off + A.nonceSize, A.nonceSize - A.nonceSize, s2.cap - A.nonceSize⟩ ++ A.sealB rnd P).take
          (A.nonceSize - A.nonceSize + (A.sealB rnd P).length) = A.sealB rnd P := by
        have : H3.read ⟨s2.arr, s2.off + A.nonceSize, A.nonceSize - A.nonceSize, s2.cap - A.nonceSize⟩ = [] := by simp [Heap.read]
        rw [this, Nat.sub_self, Nat.zero_add, List.nil_append, List.take_length]
      refine ⟨_, _, rfl, k3.alloc (H3.read ⟨s2.arr, s2.off + A.nonceSize, A.nonceSize - A.nonceSize, s2.cap - A.nonceSize⟩ ++ A.sealB rnd P)
        (A.nonceSize - A.nonceSize + (A.sealB rnd P).length), w3.alloc_old _ 0, ?_, ?_⟩
      · exact (read_alloc H3 _ _).trans hC
      · exact (read_alloc_old (w3.sub (lo := 0) (len := A.nonceSize - 0) (by omega)) _ 0).trans rn
  obtain ⟨H4, s4, e4, k4, w4, r4, n4⟩ := hseal
  rw [e4, Res.bind_ok]
  dsimp only
  rw [Res.bind_ok]
  obtain ⟨a1, a2, a3, a4, _⟩ := goAppend_spec slack k4 (i2.sub (lo := 0) (len := A.nonceSize - 0) (by omega))
    (w4.sub (lo := 0) (len := A.nonceSize - 0) (by omega)) (H4.read s4)
  exact ⟨_, _, rfl, a1, a2, a3, a4.trans (by rw [n4, r4])⟩

/-- A slice of an array outside the window reads the same as at the start. -/
theorem Safe.read {H0 H : Heap} {w d : Slice} (h : Safe H0 w H) (h1 : d.arr < H0.next) (h2 : d.arr ≠ w.arr) : H.read d = H0.read d := by
  unfold Heap.read; rw [(h.2 d.arr h1).2.1 h2]

theorem memMarshal_spec {H0 H : Heap} {w s d : Slice} (slack : Nat → Nat) (h : Safe H0 w H) (hi : InW H0 w s) (hw : Wf H s) (hs : s.len = 0)
    (h1 : d.arr < H0.next) (h2 : d.arr ≠ w.arr) (nonce : UInt64) :
    ∃ H' s', memMarshal slack H s nonce d = .ok (H', s') ∧ Safe H0 w H' ∧ InW H0 w s' ∧ Wf H' s' ∧ H'.read s' = put64 nonce ++ H0.read d := by
  unfold memMarshal
  obtain ⟨a1, a2, a3, a4, a5, _⟩ := goAppend_spec slack h hi hw (List.replicate 8 0)
  generalize goAppend slack H s (List.replicate 8 0) = G at a1 a2 a3 a4 a5
  obtain ⟨G1, G2⟩ := G
  dsimp only at a1 a2 a3 a4 a5 ⊢
  have hl : G2.len = 8 := by rw [a5, hs]; simp
  have hc := a3.2.2
  rw [slice_ok' (by omega) (by omega), Res.bind_ok]
  dsimp only
  have hp : G2.off + 0 + (put64 nonce).length ≤ (G1.mem G2.arr).length := by have := a3.2.1; rw [put64_length]; omega
  have k : Safe H0 w (G1.poke G2.arr (G2.off + 0) (put64 nonce)) := a1.poke a2 a3 (by omega) (by rw [put64_length]; omega)
  have wf : Wf (G1.poke G2.arr (G2.off + 0) (put64 nonce)) G2 := a3.poke hp
  have rd : (G1.poke G2.arr (G2.off + 0) (put64 nonce)).read G2 = put64 nonce := by
    have := pokeL_read hp
    rw [put64_length] at this
    simp only [Heap.read, Heap.poke, if_true, hl]
    simpa using this
  obtain ⟨b1, b2, b3, b4, _⟩ := goAppend_spec slack k a2 wf ((G1.poke G2.arr (G2.off + 0) (put64 nonce)).read d)
  exact ⟨_, _, rfl, b1, b2, b3, b4.trans (by rw [rd, k.read h1 h2])⟩

theorem memWriteOne_spec {H0 H : Heap} {w s d : Slice} (slack : Nat → Nat) (A : AEAD) (hA : A.Lawful) (rnd : Bytes)
    (hr : rnd.length = A.nonceSize) (h : Safe H0 w H) (hi : InW H0 w s) (hw : Wf H s)
    (h1 : d.arr < H0.next) (h2 : d.arr ≠ w.arr) (nonce : UInt64) :
    ∃ H' s', memWriteOne slack A H s rnd nonce d = .ok (H', s') ∧ Safe H0 w H' ∧ InW H0 w s' ∧ Wf H' s' ∧
      H'.read s' = rnd ++ A.sealB rnd (put64 nonce ++ H0.read d) := by
  unfold memWriteOne
  rw [slice_ok' (by omega) (by omega), Res.bind_ok]
  obtain ⟨H1, s1, e1, k1, i1, w1, r1⟩ := memMarshal_spec slack h (hi.sub (lo := 0) (len := 0 - 0) (by omega)) (hw.sub (by omega)) rfl h1 h2 nonce
  rw [e1, Res.bind_ok]
  obtain ⟨H2, s2, e2, k2, i2, w2, r2⟩ := memEncrypt_spec slack A hA rnd hr k1 i1 w1
  exact ⟨H2, s2, e2, k2, i2, w2, by rw [r2, r1]⟩

theorem memWriteLoop_spec {H0 : Heap} {w : Slice} (slack : Nat → Nat) (A : AEAD) (hA : A.Lawful) (xs : List (Bytes × UInt64 × Slice))
    (hx : ∀ x ∈ xs, x.1.length = A.nonceSize ∧ x.2.2.arr < H0.next ∧ x.2.2.arr ≠ w.arr) :
    ∀ (H : Heap) (s : Slice), Safe H0 w H → InW H0 w s → Wf H s →
    ∃ H' s', memWriteLoop slack A H s xs = .ok (H', s', xs.map fun x => x.1 ++ A.sealB x.1 (put64 x.2.1 ++ H0.read x.2.2)) ∧
      Safe H0 w H' ∧ InW H0 w s' ∧ Wf H' s' := by
  induction xs with
  | nil => intro H s h hi hw; exact ⟨H, s, rfl, h, hi, hw⟩
  | cons x xs ih =>
    intro H s h hi hw
    obtain ⟨rnd, nonce, d⟩ := x
    obtain ⟨p1, p2, p3⟩ := hx (rnd, nonce, d) (by simp)
    obtain ⟨H1, s1, e1, k1, i1, w1, r1⟩ := memWriteOne_spec slack A hA rnd p1 h hi hw p2 p3 nonce
    obtain ⟨H2, s2, e2, k2, i2, w2⟩ := ih (fun y hy => hx y (by simp [hy])) H1 s1 k1 i1 w1
    refine ⟨H2, s2, ?_, k2, i2, w2⟩
    rw [memWriteLoop, e1, Res.bind_ok]
    dsimp only
    rw [e2, Res.bind_ok]
    dsimp only
    rw [r1]
    rfl

theorem memDecrypt_spec {H0 H : Heap} {w s : Slice} (A : AEAD) (hA : A.Lawful) (h : Safe H0 w H) (hi : InW H0 w s) (hw : Wf H s) :
    (s.len < A.nonceSize → memDecrypt A H s = .err .unexpectedEOF) ∧
    (A.nonceSize ≤ s.len → ∃ H' o, memDecrypt A H s = .ok (H', o) ∧ Safe H0 w H' ∧
      (∀ n p, n.length = A.nonceSize → H.read s = n ++ A.sealB n p → ∃ t, o = some t ∧ Wf H' t ∧ InW H0 w t ∧ H'.read t = p) ∧
      (∀ t, o = some t → ∃ n p, n.length = A.nonceSize ∧ H.read s = n ++ A.sealB n p ∧ H'.read t = p)) := by
  unfold memDecrypt
  have hcap := hw.2.2
  constructor
  · intro hl; rw [if_pos hl]
  · intro hl
    have hrl := read_length hw
    rw [if_neg (by omega), slice_ok' (by omega) (by omega), Res.bind_ok, slice_ok' (by omega) (by omega), Res.bind_ok]
    have rn : H.read ⟨s.arr, s.off + 0, A.nonceSize - 0, s.cap - 0⟩ = (H.read s).take A.nonceSize := by
      rw [read_sub (s := s) (lo := 0) (by omega)]; simp
    have rt : H.read ⟨s.arr, s.off + A.nonceSize, s.len - A.nonceSize, s.cap - A.nonceSize⟩ = (H.read s).drop A.nonceSize := by
      rw [read_sub (s := s) (by omega), List.take_of_length_le (by simp [hrl])]
    simp only [rn, rt]
    have hnl : ((H.read s).take A.nonceSize).length = A.nonceSize := by simp [hrl]; omega
    cases ho : A.openB ((H.read s).take A.nonceSize) ((H.read s).drop A.nonceSize) with
    | some p =>
      have hsound := hA.sound _ _ _ hnl ho
      have hplen : p.length + A.overhead = s.len - A.nonceSize := by
        rw [← hA.seal_length _ _ hnl, ← hsound]; simp [hrl]
      have hb : s.off + A.nonceSize + p.length ≤ (H.mem s.arr).length := by have := hw.2.1; omega
      have hread : (H.poke s.arr (s.off + A.nonceSize) p).read ⟨s.arr, s.off + A.nonceSize, p.length, s.cap - A.nonceSize⟩ = p := by
        simp only [Heap.read, Heap.poke, if_true]
        exact pokeL_read hb
      refine ⟨_, _, rfl, h.poke hi hw (by omega) (by omega), ?_, ?_⟩
      · intro n q hn hq
        have e1 : (H.read s).take A.nonceSize = n := by rw [hq, ← hn, List.take_left]
        have e2 : (H.read s).drop A.nonceSize = A.sealB n q := by rw [hq, ← hn, List.drop_left]
        rw [e1, e2, hA.open_seal n q hn] at ho
        injection ho with ho
        subst ho
        exact ⟨_, rfl, (hw.sub (lo := A.nonceSize) (len := q.length) (by omega)).poke (t := s) hb, hi.sub (by omega), hread⟩
      · intro t ht
        injection ht with ht
        subst ht
        refine ⟨_, p, hnl, ?_, hread⟩
        rw [← hsound, List.take_append_drop]
    | none =>
      refine ⟨_, _, rfl, h.poke hi hw (by omega) (by simp; omega), ?_, by simp⟩
      intro n q hn hq
      have e1 : (H.read s).take A.nonceSize = n := by rw [hq, ← hn, List.take_left]
      have e2 : (H.read s).drop A.nonceSize = A.sealB n q := by rw [hq, ← hn, List.drop_left]
      rw [e1, e2, hA.open_seal n q hn] at ho
      cases ho

end Noise
