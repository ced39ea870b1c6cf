import Verif.Model.Share
import Verif.Proofs.TS
import Verif.Proofs.Mem
/-! # C86, C87: whose memory do messages live in -/
namespace Noise
namespace Spec
open Share

/-- Number of messages queued / written so far. -/
def sends (l : List Event) : List UInt64 := l.filterMap fun | .sent n _ _ => some n | _ => none
def writes (l : List Event) : List UInt64 := l.filterMap fun | .wrote n _ => some n | _ => none
/-- Messages as they came in, and as they were handed out. -/
def arrivals (l : List Event) : List (UInt64 × Bytes) := l.filterMap fun | .arrived n p => some (n, p) | _ => none
def deliveries (l : List Event) : List (UInt64 × Bytes) := l.filterMap fun | .delivered n _ p => some (n, p) | _ => none
/-- The arrays an event is about. -/
def touches (a : Nat) : Event → Prop
  | .sent _ s _ => s.arr = a
  | .poked b => b = a
  | .delivered _ s _ => s.arr = a
  | _ => False

end Spec
open Spec Share

theorem snoc_split {α : Type} {l l1 l2 : List α} {e x : α} (h : l ++ [e] = l1 ++ x :: l2) : (l2 = [] ∧ x = e ∧ l1 = l) ∨ ∃ l3, l2 = l3 ++ [e] ∧ l = l1 ++ x :: l3 := by
  rcases List.eq_nil_or_concat l2 with rfl | ⟨l3, y, rfl⟩
  · obtain ⟨h1, h2⟩ := List.append_inj' h rfl
    injection h2 with h2
    exact .inl ⟨rfl, h2.symm, h1.symm⟩
  · rw [List.concat_eq_append, show l1 ++ x :: (l3 ++ [y]) = (l1 ++ x :: l3) ++ [y] by simp] at h
    obtain ⟨h1, h2⟩ := List.append_inj' h rfl
    injection h2 with h2
    subst h2
    exact .inr ⟨l3, List.concat_eq_append .., h1⟩


theorem deliver_heap {k : Nat} {H : Heap} (b : Bytes) : ∃ m, (goAppend (fun _ => k) (H.alloc [] 0).1 (H.alloc [] 0).2 b).1 = ⟨m, (goAppend (fun _ => k) (H.alloc [] 0).1 (H.alloc [] 0).2 b).1.next⟩ ∧
    H.next < (goAppend (fun _ => k) (H.alloc [] 0).1 (H.alloc [] 0).2 b).1.next ∧ (∀ j, j < H.next → m j = H.mem j) ∧
    H.next ≤ (goAppend (fun _ => k) (H.alloc [] 0).1 (H.alloc [] 0).2 b).2.arr ∧
    (goAppend (fun _ => k) (H.alloc [] 0).1 (H.alloc [] 0).2 b).2.arr < (goAppend (fun _ => k) (H.alloc [] 0).1 (H.alloc [] 0).2 b).1.next ∧
    (goAppend (fun _ => k) (H.alloc [] 0).1 (H.alloc [] 0).2 b).1.read (goAppend (fun _ => k) (H.alloc [] 0).1 (H.alloc [] 0).2 b).2 = b := by
  refine ⟨_, rfl, ?_⟩
  unfold goAppend
  split
  · rename_i h
    have hb : b = [] := by
      cases b with
      | nil => rfl
      | cons x b => simp [Heap.alloc] at h
    subst hb
    simp only [Heap.poke, Heap.alloc, Heap.read]
    refine ⟨by omega, ?_, by omega, by omega, by simp⟩
    intro j hj
    have : j ≠ H.next := by omega
    simp [this]
  · simp only [Heap.alloc, Heap.read]
    refine ⟨by omega, ?_, by omega, by omega, by simp⟩
    intro j hj
    have h1 : j ≠ H.next := by omega
    have h2 : j ≠ H.next + 1 := by omega
    simp [h1, h2]

/-- What a step can do, in the terms needed below. -/
inductive ShareEff (s s' : Share.State) : Prop where
  | quiet (hl : s'.log = s.log) (hr : s'.reading = s.reading) (hn : s.heap.next ≤ s'.heap.next) (hm : ∀ j, j < s.heap.next → s'.heap.mem j = s.heap.mem j)
      (hq : s'.batch ++ s'.queue = s.batch ++ s.queue) (hh : ∀ r ∈ s'.held, (∃ r0 ∈ s.held, r0.arr = r.arr) ∨ (s.heap.next ≤ r.arr ∧ r.arr < s'.heap.next))
  | poke (r0 : Slice) (h0 : r0 ∈ s.held) (hl : s'.log = s.log ++ [.poked r0.arr]) (hr : s'.reading = s.reading) (hn : s'.heap.next = s.heap.next)
      (hm : ∀ j, j ≠ r0.arr → s'.heap.mem j = s.heap.mem j) (hq : s'.batch ++ s'.queue = s.batch ++ s.queue) (hh : s'.held = s.held)
  | send (n : UInt64) (r0 : Slice) (h0 : r0 ∈ s.held) (hl : s'.log = s.log ++ [.sent n r0 (s.heap.read r0)]) (hr : s'.reading = s.reading) (he : s'.heap = s.heap)
      (hq : s'.batch ++ s'.queue = s.batch ++ s.queue ++ [(n, r0)]) (hh : s'.held = s.held)
  | write (n : UInt64) (r0 : Slice) (hl : s'.log = s.log ++ [.wrote n (s.heap.read r0)]) (hr : s'.reading = s.reading) (he : s'.heap = s.heap)
      (hq : s.batch ++ s.queue = (n, r0) :: (s'.batch ++ s'.queue)) (hh : s'.held = s.held)
  | read (n : UInt64) (r0 : Slice) (h0 : r0.arr = 0) (hl : s'.log = s.log ++ [.arrived n (s'.heap.read r0)]) (hr : s.reading = none) (hr' : s'.reading = some (n, r0)) (hn : s'.heap.next = s.heap.next)
      (hm : ∀ j, j ≠ 0 → s'.heap.mem j = s.heap.mem j) (hq : s'.batch ++ s'.queue = s.batch ++ s.queue) (hh : s'.held = s.held)
  | deliver (n : UInt64) (r0 d : Slice) (hl : s'.log = s.log ++ [.delivered n d (s.heap.read r0)]) (hd : s'.heap.read d = s.heap.read r0) (hr : s.reading = some (n, r0)) (hr' : s'.reading = none)
      (hn : s.heap.next < s'.heap.next) (hm : ∀ j, j < s.heap.next → s'.heap.mem j = s.heap.mem j) (hq : s'.batch ++ s'.queue = s.batch ++ s.queue)
      (hda : s.heap.next ≤ d.arr ∧ d.arr < s'.heap.next) (hh : s'.held = s.held ++ [d])

theorem share_eff {s s' : Share.State} {a : Share.Action} (h : Share.step s a = some s') : ShareEff s s' := by
  cases a with
  | alloc b =>
    simp only [Share.step, Option.some.injEq] at h
    subst h
    refine .quiet rfl rfl (by simp [Heap.alloc]) ?_ rfl ?_
    · intro j hj; have : j ≠ s.heap.next := by omega
      simp [Heap.alloc, this]
    · intro r hr
      simp only [List.mem_append, List.mem_singleton] at hr
      rcases hr with hr | hr
      · exact .inl ⟨r, hr, rfl⟩
      · subst hr; exact .inr ⟨by simp [Heap.alloc], by simp [Heap.alloc]⟩
  | reslice i lo hi =>
    simp only [Share.step] at h
    split at h
    · rename_i r hr
      split at h
      · rename_i r' hs
        injection h with h; subst h
        refine .quiet rfl rfl (Nat.le_refl _) (fun _ _ => rfl) rfl ?_
        intro q hq
        simp only [List.mem_append, List.mem_singleton] at hq
        rcases hq with hq | hq
        · exact .inl ⟨q, hq, rfl⟩
        · subst hq
          refine .inl ⟨r, List.mem_of_getElem? hr, ?_⟩
          unfold Slice.slice at hs
          split at hs
          · injection hs with hs; subst hs; rfl
          · cases hs
      · cases h
    · cases h
  | poke i j v =>
    simp only [Share.step] at h
    split at h
    · rename_i r hr
      split at h
      · injection h with h; subst h
        refine .poke r (List.mem_of_getElem? hr) rfl rfl rfl ?_ rfl rfl
        intro j hj; simp [Heap.poke, hj]
      · cases h
    · cases h
  | send n i =>
    simp only [Share.step] at h
    split at h
    · rename_i r hr
      injection h with h; subst h
      exact .send n r (List.mem_of_getElem? hr) rfl rfl rfl (by simp) rfl
    · cases h
  | take =>
    simp only [Share.step] at h
    split at h
    · rename_i hc
      injection h with h; subst h
      exact .quiet rfl rfl (Nat.le_refl _) (fun _ _ => rfl) (by simp [hc.1]) (fun r hr => .inl ⟨r, hr, rfl⟩)
    · cases h
  | write =>
    simp only [Share.step] at h
    split at h
    · rename_i n r b hb
      injection h with h; subst h
      exact .write n r rfl rfl rfl (by simp [hb]) rfl
    · cases h
  | read n c off len =>
    simp only [Share.step] at h
    split at h
    · rename_i hc
      injection h with h; subst h
      refine .read n ⟨0, off, len, c.length - off⟩ rfl ?_ (by simpa using hc.1) rfl rfl ?_ rfl rfl
      · simp [Heap.read]
      · intro j hj; simp [hj]
    · cases h
  | deliver k =>
    simp only [Share.step] at h
    split at h
    · rename_i n r hr
      injection h with h; subst h
      obtain ⟨m, h1, h2, h3, h4, h5, h6⟩ := deliver_heap (k := k) (H := s.heap) (s.heap.read r)
      refine .deliver n r _ (by rw [h6]) h6 hr rfl h2 ?_ rfl ⟨h4, h5⟩ rfl
      intro j hj
      rw [h1]; exact h3 j hj
    · cases h

theorem read_congr {H H' : Heap} {r : Slice} (h : H'.mem r.arr = H.mem r.arr) : H'.read r = H.read r := by simp [Heap.read, h]

structure ShareBounds (s : Share.State) : Prop where
  nxt : 1 ≤ s.heap.next
  held : ∀ r ∈ s.held, 1 ≤ r.arr ∧ r.arr < s.heap.next
  evs : ∀ e ∈ s.log, ∀ a, touches a e → 1 ≤ a ∧ a < s.heap.next
  rd0 : ∀ n r, s.reading = some (n, r) → r.arr = 0

theorem ShareBounds.step {s s' : Share.State} (i : ShareBounds s) (h : ShareEff s s') : ShareBounds s' := by
  obtain ⟨i1, i2, i3, i4⟩ := i
  cases h with
  | quiet hl hr hn hm hq hh =>
    refine ⟨by omega, ?_, ?_, by rw [hr]; exact i4⟩
    · intro r hr
      rcases hh r hr with ⟨r0, h0, h1⟩ | h1
      · have := i2 r0 h0; omega
      · omega
    · intro e he a ha
      rw [hl] at he
      have := i3 e he a ha; omega
  | poke r0 h0 hl hr hn hm hq hh =>
    refine ⟨by omega, by rw [hh, hn]; exact i2, ?_, by rw [hr]; exact i4⟩
    intro e he a ha
    rw [hl] at he
    rw [hn]
    simp only [List.mem_append, List.mem_singleton] at he
    rcases he with he | he
    · exact i3 e he a ha
    · subst he; simp only [touches] at ha; subst ha; exact i2 r0 h0
  | send n r0 h0 hl hr he hq hh =>
    refine ⟨by rw [he]; exact i1, by rw [hh, he]; exact i2, ?_, by rw [hr]; exact i4⟩
    intro e he' a ha
    rw [hl] at he'
    rw [he]
    simp only [List.mem_append, List.mem_singleton] at he'
    rcases he' with he' | he'
    · exact i3 e he' a ha
    · subst he'; simp only [touches] at ha; subst ha; exact i2 r0 h0
  | write n r0 hl hr he hq hh =>
    refine ⟨by rw [he]; exact i1, by rw [hh, he]; exact i2, ?_, by rw [hr]; exact i4⟩
    intro e he' a ha
    rw [hl] at he'
    rw [he]
    simp only [List.mem_append, List.mem_singleton] at he'
    rcases he' with he' | he'
    · exact i3 e he' a ha
    · subst he'; simp only [touches] at ha
  | read n r0 h0 hl hr hr' hn hm hq hh =>
    refine ⟨by omega, by rw [hh, hn]; exact i2, ?_, ?_⟩
    · intro e he a ha
      rw [hl] at he
      rw [hn]
      simp only [List.mem_append, List.mem_singleton] at he
      rcases he with he | he
      · exact i3 e he a ha
      · subst he; simp only [touches] at ha
    · intro n' r hr2; rw [hr'] at hr2; injection hr2 with hr2; injection hr2 with _ hr2; rw [← hr2]; exact h0
  | deliver n r0 d hl hd hr hr' hn hm hq hda hh =>
    refine ⟨by omega, ?_, ?_, by rw [hr']; intro n r h; cases h⟩
    · intro r h
      rw [hh] at h
      simp only [List.mem_append, List.mem_singleton] at h
      rcases h with h | h
      · have := i2 r h; omega
      · subst h; omega
    · intro e he a ha
      rw [hl] at he
      simp only [List.mem_append, List.mem_singleton] at he
      rcases he with he | he
      · have := i3 e he a ha; omega
      · subst he; simp only [touches] at ha; subst ha; omega

/-- What a slice held when it was handed over, it holds as long as the user did not overwrite its array. -/
def Kept (s : Share.State) : Prop :=
  ∀ l1 l2 e r p, s.log = l1 ++ e :: l2 → ((∃ n, e = .sent n r p) ∨ ∃ n, e = .delivered n r p) → .poked r.arr ∉ l2 → s.heap.read r = p

theorem Kept.step {s s' : Share.State} (b : ShareBounds s) (k : Kept s) (h : ShareEff s s') : Kept s' := by
  have bd : ∀ {e r p}, e ∈ s.log → ((∃ n, e = .sent n r p) ∨ ∃ n, e = .delivered n r p) → 1 ≤ r.arr ∧ r.arr < s.heap.next := by
    intro e r p he hc
    refine b.evs e he r.arr ?_
    rcases hc with ⟨n, rfl⟩ | ⟨n, rfl⟩ <;> simp [touches]
  -- old events
  have old : ∀ {l1 l2 e r p}, s.log = l1 ++ e :: l2 → ((∃ n, e = .sent n r p) ∨ ∃ n, e = .delivered n r p) → .poked r.arr ∉ l2 →
      s'.heap.mem r.arr = s.heap.mem r.arr → s'.heap.read r = p := by
    intro l1 l2 e r p hs hc hp hm
    rw [read_congr hm]
    exact k l1 l2 e r p hs hc hp
  intro l1 l2 e r p hs hc hp
  cases h with
  | quiet hl hr hn hm hq hh =>
    rw [hl] at hs
    exact old hs hc hp (hm _ (bd (by rw [hs]; simp) hc).2)
  | poke r0 h0 hl hr hn hm hq hh =>
    rw [hl] at hs
    replace hs := snoc_split hs
    rcases hs with ⟨rfl, rfl, rfl⟩ | ⟨l3, rfl, hs⟩
    · rcases hc with ⟨n, hc⟩ | ⟨n, hc⟩ <;> cases hc
    · refine old hs hc (fun h => hp (List.mem_append_left _ h)) (hm _ ?_)
      intro he; apply hp; rw [he]; simp
  | send n r0 h0 hl hr he hq hh =>
    rw [hl] at hs
    replace hs := snoc_split hs
    rcases hs with ⟨rfl, rfl, rfl⟩ | ⟨l3, rfl, hs⟩
    · rcases hc with ⟨n', hc⟩ | ⟨n', hc⟩
      · cases hc; rw [he]
      · cases hc
    · exact old hs hc (fun h => hp (List.mem_append_left _ h)) (by rw [he])
  | write n r0 hl hr he hq hh =>
    rw [hl] at hs
    replace hs := snoc_split hs
    rcases hs with ⟨rfl, rfl, rfl⟩ | ⟨l3, rfl, hs⟩
    · rcases hc with ⟨n, hc⟩ | ⟨n, hc⟩ <;> cases hc
    · exact old hs hc (fun h => hp (List.mem_append_left _ h)) (by rw [he])
  | read n r0 h0 hl hr hr' hn hm hq hh =>
    rw [hl] at hs
    replace hs := snoc_split hs
    rcases hs with ⟨rfl, rfl, rfl⟩ | ⟨l3, rfl, hs⟩
    · rcases hc with ⟨n, hc⟩ | ⟨n, hc⟩ <;> cases hc
    · refine old hs hc (fun h => hp (List.mem_append_left _ h)) (hm _ ?_)
      have := bd (e := e) (by rw [hs]; simp) hc
      omega
  | deliver n r0 d hl hd hr hr' hn hm hq hda hh =>
    rw [hl] at hs
    replace hs := snoc_split hs
    rcases hs with ⟨rfl, rfl, rfl⟩ | ⟨l3, rfl, hs⟩
    · rcases hc with ⟨n', hc⟩ | ⟨n', hc⟩
      · cases hc
      · cases hc; exact hd
    · exact old hs hc (fun h => hp (List.mem_append_left _ h)) (hm _ (bd (by rw [hs]; simp) hc).2)

/-- The messages that were sent, with their slices. -/
def sentRefs (l : List Event) : List (UInt64 × Slice) := l.filterMap fun | .sent n r _ => some (n, r) | _ => none

structure Lines (s : Share.State) : Prop where
  fifo : (sentRefs s.log).drop (writes s.log).length = s.batch ++ s.queue
  wle : (writes s.log).length ≤ (sentRefs s.log).length
  arr : arrivals s.log = deliveries s.log ++ (match s.reading with | some (n, r) => [(n, s.heap.read r)] | none => [])
  fresh : ∀ l1 l2 n r p, s.log = l1 ++ .delivered n r p :: l2 → ∀ e ∈ l1, ¬ touches r.arr e
  wr : ∀ l1 l2 l3 n r p n' q, s.log = l1 ++ .sent n r p :: (l2 ++ .wrote n' q :: l3) → (sends l1).length = (writes (l1 ++ l2)).length → n' = n ∧ (.poked r.arr ∉ l2 → q = p)

theorem sends_length (l : List Event) : (sends l).length = (sentRefs l).length := by
  induction l with
  | nil => rfl
  | cons e l ih => cases e <;> simp_all [sends, sentRefs]

theorem Lines.step {s s' : Share.State} (b : ShareBounds s) (k : Kept s) (i : Lines s) (h : ShareEff s s') : Lines s' := by
  obtain ⟨f, w, ar, fr, wr⟩ := i
  have wr_old : ∀ {e}, (∀ n q, e ≠ .wrote n q) → ∀ l1 l2 l3 n r p n' q, s.log ++ [e] = l1 ++ .sent n r p :: (l2 ++ .wrote n' q :: l3) → (sends l1).length = (writes (l1 ++ l2)).length →
      n' = n ∧ (.poked r.arr ∉ l2 → q = p) := by
    intro e he l1 l2 l3 n r p n' q hs hc
    rw [show l1 ++ Event.sent n r p :: (l2 ++ .wrote n' q :: l3) = (l1 ++ .sent n r p :: l2) ++ .wrote n' q :: l3 by simp] at hs
    replace hs := snoc_split hs
    rcases hs with ⟨rfl, h, -⟩ | ⟨l4, rfl, hs⟩
    · exact absurd h.symm (he _ _)
    · exact wr l1 l2 l4 n r p n' q (by rw [hs]; simp) hc
  have fr_old : ∀ {e}, (∀ n r p, e ≠ .delivered n r p) → ∀ l1 l2 n r p, s.log ++ [e] = l1 ++ .delivered n r p :: l2 → ∀ e' ∈ l1, ¬ touches r.arr e' := by
    intro e he l1 l2 n r p hs
    replace hs := snoc_split hs
    rcases hs with ⟨rfl, h, -⟩ | ⟨l4, rfl, hs⟩
    · exact absurd h.symm (he _ _ _)
    · exact fr l1 l4 n r p hs
  cases h with
  | quiet hl hr hn hm hq hh =>
    refine ⟨by rw [hl, hq]; exact f, by rw [hl]; exact w, ?_, by rw [hl]; exact fr, by rw [hl]; exact wr⟩
    rw [hl, hr, ar]
    congr 1
    cases hrd : s.reading with
    | none => rfl
    | some x =>
      have : x.2.arr = 0 := b.rd0 x.1 x.2 hrd
      simp only
      rw [read_congr (H := s.heap) (H' := s'.heap) (hm _ (by have := b.nxt; omega))]
  | poke r0 h0 hl hr hn hm hq hh =>
    refine ⟨?_, ?_, ?_, by rw [hl]; exact fr_old (by intros; simp), by rw [hl]; exact wr_old (by intros; simp)⟩
    · rw [hl, hq, ← f]; simp [sentRefs, writes]
    · rw [hl]; simpa [sentRefs, writes] using w
    · rw [hl, hr]
      have e1 : arrivals (s.log ++ [.poked r0.arr]) = arrivals s.log := by simp [arrivals]
      have e2 : deliveries (s.log ++ [.poked r0.arr]) = deliveries s.log := by simp [deliveries]
      rw [e1, e2, ar]
      congr 1
      cases hrd : s.reading with
      | none => rfl
      | some x =>
        have h1 : x.2.arr = 0 := b.rd0 x.1 x.2 hrd
        have h2 := b.held r0 h0
        simp only
        rw [read_congr (H := s.heap) (H' := s'.heap) (hm _ (by omega))]
  | send n r0 h0 hl hr he hq hh =>
    refine ⟨?_, ?_, ?_, by rw [hl]; exact fr_old (by intros; simp), by rw [hl]; exact wr_old (by intros; simp)⟩
    · have e1 : sentRefs (s.log ++ [.sent n r0 (s.heap.read r0)]) = sentRefs s.log ++ [(n, r0)] := by simp [sentRefs]
      have e2 : writes (s.log ++ [.sent n r0 (s.heap.read r0)]) = writes s.log := by simp [writes]
      rw [hl, hq, ← f, e1, e2, List.drop_append_of_le_length w]
    · have e1 : sentRefs (s.log ++ [.sent n r0 (s.heap.read r0)]) = sentRefs s.log ++ [(n, r0)] := by simp [sentRefs]
      have e2 : writes (s.log ++ [.sent n r0 (s.heap.read r0)]) = writes s.log := by simp [writes]
      rw [hl, e1, e2]; simp; omega
    · rw [hl, hr, he]
      simpa [arrivals, deliveries] using ar
  | write n r0 hl hr he hq hh =>
    have e1 : sentRefs (s.log ++ [.wrote n (s.heap.read r0)]) = sentRefs s.log := by simp [sentRefs]
    have e2 : writes (s.log ++ [.wrote n (s.heap.read r0)]) = writes s.log ++ [n] := by simp [writes]
    rw [hq] at f
    have hlt : (writes s.log).length < (sentRefs s.log).length := by
      rcases Nat.lt_or_ge (writes s.log).length (sentRefs s.log).length with h | h
      · exact h
      · rw [List.drop_of_length_le h] at f; cases f
    refine ⟨?_, ?_, ?_, by rw [hl]; exact fr_old (by intros; simp), ?_⟩
    · rw [hl, e1, e2, List.length_append, List.length_singleton, ← List.drop_drop, f]; rfl
    · rw [hl, e1, e2]; simp; omega
    · rw [hl, hr, he]
      simpa [arrivals, deliveries] using ar
    · rw [hl]
      intro l1 l2 l3 n1 r p n' q hs hc
      rw [show l1 ++ Event.sent n1 r p :: (l2 ++ .wrote n' q :: l3) = (l1 ++ .sent n1 r p :: l2) ++ .wrote n' q :: l3 by simp] at hs
      replace hs := snoc_split hs
      rcases hs with ⟨rfl, h, hs⟩ | ⟨l4, rfl, hs⟩
      · injection h with h1 h2
        have hget : (sentRefs s.log)[(writes s.log).length]? = some (n1, r) := by
          have hw : (writes s.log).length = (sentRefs l1).length := by
            rw [← sends_length, hc, ← hs]; simp [writes]
          rw [hw, ← hs]
          simp [sentRefs]
        have hget2 : (sentRefs s.log)[(writes s.log).length]? = some (n, r0) := by
          have := congrArg List.head? f
          rw [List.head?_drop] at this
          exact this
        rw [hget] at hget2
        injection hget2 with hget2
        injection hget2 with g1 g2
        refine ⟨by rw [h1, g1], ?_⟩
        intro hp
        rw [h2, ← g2]
        exact k l1 l2 _ r p hs.symm (.inl ⟨n1, rfl⟩) hp
      · exact wr l1 l2 l4 n1 r p n' q (by rw [hs]; simp) hc
  | read n r0 h0 hl hr hr' hn hm hq hh =>
    refine ⟨?_, ?_, ?_, by rw [hl]; exact fr_old (by intros; simp), by rw [hl]; exact wr_old (by intros; simp)⟩
    · rw [hl, hq, ← f]; simp [sentRefs, writes]
    · rw [hl]; simpa [sentRefs, writes] using w
    · rw [hl, hr']
      rw [hr] at ar
      have e1 : arrivals (s.log ++ [.arrived n (s'.heap.read r0)]) = arrivals s.log ++ [(n, s'.heap.read r0)] := by simp [arrivals]
      have e2 : deliveries (s.log ++ [.arrived n (s'.heap.read r0)]) = deliveries s.log := by simp [deliveries]
      rw [e1, e2, ar]; simp
  | deliver n r0 d hl hd hr hr' hn hm hq hda hh =>
    refine ⟨?_, ?_, ?_, ?_, by rw [hl]; exact wr_old (by intros; simp)⟩
    · rw [hl, hq, ← f]; simp [sentRefs, writes]
    · rw [hl]; simpa [sentRefs, writes] using w
    · rw [hl, hr']
      rw [hr] at ar
      have e1 : arrivals (s.log ++ [.delivered n d (s.heap.read r0)]) = arrivals s.log := by simp [arrivals]
      have e2 : deliveries (s.log ++ [.delivered n d (s.heap.read r0)]) = deliveries s.log ++ [(n, s.heap.read r0)] := by simp [deliveries]
      rw [e1, e2, ar]; simp
    · rw [hl]
      intro l1 l2 n1 r p hs e' he'
      replace hs := snoc_split hs
      rcases hs with ⟨rfl, h, hs⟩ | ⟨l4, rfl, hs⟩
      · injection h with h1 h2 h3
        subst h2
        intro ht
        have := b.evs e' (by rw [← hs]; exact he') _ ht
        omega
      · exact fr l1 l4 n1 r p hs e' he'

theorem share_inv {size : Nat} {s : Share.State} (h : Share.Reachable size s) : ShareBounds s ∧ Kept s ∧ Lines s := by
  refine ReachFrom.inv (P := fun s => ShareBounds s ∧ Kept s ∧ Lines s) ?_ h ⟨⟨Nat.le_refl _, by simp [State.new], by simp [State.new], by simp [State.new]⟩, by simp [Kept, State.new], ⟨rfl, Nat.le_refl _, rfl, by simp [State.new], by simp [State.new]⟩⟩
  rintro s a s' ⟨h1, h2, h3⟩ hs
  have e := share_eff hs
  exact ⟨h1.step e, h2.step h1 e, h3.step h1 h2 e⟩

/-- C86 is false: for every message that is not empty, there is a run in which its bytes are overwritten by its owner after the send was accepted and the overwritten bytes are what is written to the connection. -/
theorem C86_snapshot_refuted (size : Nat) (n : UInt64) (x y : UInt8) (t : Bytes) : ∃ s r, Share.Reachable size s ∧ s.log = [.sent n r (x :: t), .poked r.arr, .wrote n (y :: t)] := by
  refine ⟨_, ⟨1, 0, t.length + 1, t.length + 1⟩, ⟨[.alloc (x :: t), .send n 0, .poke 0 0 y, .take, .write], rfl⟩, ?_⟩
  simp [State.new, Heap.read, Heap.poke, pokeL]

/-- C86, what holds (missing: bytes overwritten by the user before they are written): in every run, the `i`-th message written is the `i`-th one sent, and its payload is what the slice held when it
was sent unless the user has overwritten memory of that slice's array between the two. No traffic in either direction changes it. -/
theorem C86_send_partial (size : Nat) (s : Share.State) (h : Share.Reachable size s) (l1 l2 l3 : List Event) (n n' : UInt64) (r : Slice) (p q : Bytes)
    (hl : s.log = l1 ++ .sent n r p :: (l2 ++ .wrote n' q :: l3)) (hi : (sends l1).length = (writes (l1 ++ l2)).length) : n' = n ∧ (.poked r.arr ∉ l2 → q = p) :=
  (share_inv h).2.2.wr l1 l2 l3 n r p n' q hl hi

/-- C87: the messages handed out are the messages that arrived, in order and with the same payloads, all of them up to the one being read; each is in memory that was in use for nothing before, so in
particular for no earlier message, and as long as the user does not write to that memory the slice goes on holding the payload, whatever else is sent and received. -/
theorem C87_received_data_is_private (size : Nat) (s : Share.State) (h : Share.Reachable size s) :
    (deliveries s.log <+: arrivals s.log ∧ (arrivals s.log).length ≤ (deliveries s.log).length + 1) ∧
    ∀ l1 l2 n r p, s.log = l1 ++ .delivered n r p :: l2 → (∀ e ∈ l1, ¬ touches r.arr e) ∧ (.poked r.arr ∉ l2 → s.heap.read r = p) := by
  obtain ⟨h1, h2, h3⟩ := share_inv h
  refine ⟨⟨⟨_, h3.arr.symm⟩, ?_⟩, fun l1 l2 n r p hs => ⟨h3.fresh l1 l2 n r p hs, h2 l1 l2 _ r p hs (.inr ⟨n, rfl⟩)⟩⟩
  rw [h3.arr]
  cases s.reading <;> simp

/-- Two messages arrive one after the other in the same buffer; the first one is not changed by the second. -/
example : ∃ s r, Share.Reachable 6 s ∧ (∃ l1 l2, s.log = l1 ++ .delivered 1 r [1, 2] :: l2 ∧ .delivered 0 ⟨4, 0, 2, 3⟩ [3, 4] ∈ l2) ∧ s.heap.read r = [1, 2] :=
  ⟨_, ⟨2, 0, 2, 2⟩, ⟨[.read 1 [0, 0, 0, 2, 1, 2] 4 2, .deliver 0, .read 0 [0, 0, 0, 2, 3, 4] 4 2, .deliver 1], rfl⟩, ⟨[.arrived 1 [1, 2]], [.arrived 0 [3, 4], .delivered 0 ⟨4, 0, 2, 3⟩ [3, 4]], rfl, by simp⟩, rfl⟩

/-- A message is written as it was sent although other memory was overwritten in between. -/
example : ∃ s r, Share.Reachable 6 s ∧ s.log = [] ++ .sent 0 r [1, 2] :: ([.poked 2] ++ .wrote 0 [1, 2] :: []) ∧ r.arr = 1 :=
  ⟨_, ⟨1, 0, 2, 2⟩, ⟨[.alloc [1, 2], .alloc [3], .send 0 0, .poke 1 0 9, .take, .write], rfl⟩, rfl, rfl⟩

end Noise
