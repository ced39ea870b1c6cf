import Verif.Proofs.Mem
import Verif.Props.Frame
/-! # Property C12: encryption and buffers -/
namespace Noise

/-- Bytes of the heap that lie outside the window `[w.off, w.off+w.cap)` of `w`'s array, in arrays that existed in `H0`, are as in `H0`. -/
def UntouchedOutside (w : Slice) (H0 H : Heap) : Prop :=
  ∀ a i, a < H0.next → (a ≠ w.arr ∨ i < w.off ∨ w.off + w.cap ≤ i) → (H.mem a)[i]? = (H0.mem a)[i]?

theorem Safe.untouched {H0 H : Heap} {w : Slice} (h : Safe H0 w H) : UntouchedOutside w H0 H := by
  intro a i ha hc
  obtain ⟨k1, k2, k3, k4⟩ := h.2 a ha
  by_cases e : a = w.arr
  · rcases hc with hc | hc | hc
    · exact absurd e hc
    · have := congrArg (·[i]?) k3
      simpa [List.getElem?_take, hc] using this
    · have := congrArg (·[i - (w.off + w.cap)]?) k4
      simp only [List.getElem?_drop] at this
      rw [Nat.add_sub_cancel' hc] at this
      exact this
  · rw [k2 e]

/-- C12: for every buffer slice (any offset, length, spare capacity and memory contents), every growth behaviour of `append` and every random nonce:
encryption succeeds, yields nonce ++ Seal(nonce, plaintext), writes only inside the buffer's own window or in new arrays; and decrypting the
result in place gives back the plaintext, again writing nowhere else. -/
theorem C12_encrypt_decrypt (slack : Nat → Nat) (A : AEAD) (hA : A.IsGCM) (rnd : Bytes) (hr : rnd.length = 12) (H : Heap) (buf : Slice)
    (hbuf : buf.arr < H.next ∧ buf.off + buf.cap ≤ (H.mem buf.arr).length ∧ buf.len ≤ buf.cap) :
    ∃ H1 enc, memEncrypt slack A rnd H buf = .ok (H1, enc) ∧ H1.read enc = rnd ++ A.sealB rnd (H.read buf) ∧ UntouchedOutside buf H H1 ∧
      ∃ H2 dec, memDecrypt A H1 enc = .ok (H2, some dec) ∧ H2.read dec = H.read buf ∧ UntouchedOutside buf H H2 := by
  have hn : rnd.length = A.nonceSize := by rw [hr, hA.nonce_12]
  obtain ⟨H1, enc, e1, k1, i1, w1, r1⟩ := memEncrypt_spec slack A hA.toLawful rnd hn (Safe.refl H buf)
    (Or.inr ⟨rfl, Nat.le_refl _, Nat.le_refl _⟩) hbuf
  refine ⟨H1, enc, e1, r1, k1.untouched, ?_⟩
  have hlen : A.nonceSize ≤ enc.len := by
    rw [← read_length w1, r1]; simp [hn]
  obtain ⟨H2, o, e2, k2, f2, _⟩ := (memDecrypt_spec A hA.toLawful k1 i1 w1).2 hlen
  obtain ⟨t, rfl, _, _, rt⟩ := f2 rnd (H.read buf) hn r1
  exact ⟨H2, t, e2, rt, k2.untouched⟩

/-- C12, the sender: for every batch of messages whose data live in arrays other than the writer's buffer, the writer emits for each message
nonce ++ Seal(nonce, envelope) of the data as they were, and none of the users' arrays is changed. -/
theorem C12_send_preserves_user_data (slack : Nat → Nat) (A : AEAD) (hA : A.IsGCM) (H : Heap) (buf : Slice)
    (hbuf : buf.arr < H.next ∧ buf.off + buf.cap ≤ (H.mem buf.arr).length ∧ buf.len ≤ buf.cap) (xs : List (Bytes × UInt64 × Slice))
    (hx : ∀ x ∈ xs, x.1.length = 12 ∧ x.2.2.arr < H.next ∧ x.2.2.arr ≠ buf.arr) :
    ∃ H' buf', memWriteLoop slack A H buf xs = .ok (H', buf', xs.map fun x => x.1 ++ A.sealB x.1 ((Message.mk x.2.1 (H.read x.2.2)).marshal [])) ∧
      ∀ a, a < H.next → a ≠ buf.arr → H'.mem a = H.mem a := by
  obtain ⟨H', s', e, k, _, _⟩ := memWriteLoop_spec slack A hA.toLawful xs (fun x hx' => by rw [hA.nonce_12]; exact hx x hx') H buf
    (Safe.refl H buf) (Or.inr ⟨rfl, Nat.le_refl _, Nat.le_refl _⟩) hbuf
  refine ⟨H', s', ?_, fun a ha hne => (k.2 a ha).2.1 hne⟩
  rw [e]
  simp [marshal_nil]

/-- A heap with a user array (0) and the writer's 1024-byte buffer (1). -/
def sampleHeap : Heap := ⟨fun a => if a = 0 then [1, 2, 3] else if a = 1 then List.replicate 1024 0 else [], 2⟩

example : ∃ H1 enc, memEncrypt (fun n => n) toyAEAD (List.replicate 12 9) sampleHeap ⟨0, 0, 2, 3⟩ = .ok (H1, enc) ∧
    H1.read enc = List.replicate 12 9 ++ toyAEAD.sealB (List.replicate 12 9) [1, 2] := by
  obtain ⟨H1, enc, e, r, _⟩ := C12_encrypt_decrypt (fun n => n) toyAEAD toyAEAD_gcm (List.replicate 12 9) (by simp) sampleHeap ⟨0, 0, 2, 3⟩
    (by simp [sampleHeap, -List.reduceReplicate])
  exact ⟨H1, enc, e, r⟩

example : ∃ H' buf' out, memWriteLoop (fun n => n) toyAEAD sampleHeap ⟨1, 0, 0, 1024⟩ [(List.replicate 12 9, 5, ⟨0, 0, 3, 3⟩)] = .ok (H', buf', out) ∧
    H'.mem 0 = [1, 2, 3] := by
  obtain ⟨H', b, e, h⟩ := C12_send_preserves_user_data (fun n => n) toyAEAD toyAEAD_gcm sampleHeap ⟨1, 0, 0, 1024⟩ (by simp [sampleHeap, -List.reduceReplicate])
    [(List.replicate 12 9, 5, ⟨0, 0, 3, 3⟩)] (by simp [sampleHeap, -List.reduceReplicate])
  exact ⟨H', b, _, e, by rw [h 0 (by decide) (by decide)]; rfl⟩

/-- What `Seal` and `Open` refuse: buffers with a byte in common that do not begin at the same place. -/
theorem inexactOverlap_iff (x y : Slice) :
    inexactOverlap x y = true ↔ x.arr = y.arr ∧ x.off ≠ y.off ∧ ∃ p, (x.off ≤ p ∧ p < x.off + x.len) ∧ (y.off ≤ p ∧ p < y.off + y.len) := by
  simp only [inexactOverlap, Bool.and_eq_true, Bool.not_eq_true', decide_eq_true_eq, Bool.and_eq_false_iff, decide_eq_false_iff_not]
  constructor
  · rintro ⟨⟨⟨h1, h2⟩, h3⟩, ⟨h4, h5⟩, h6⟩
    exact ⟨h4, h3.resolve_left (fun h => h h4), max x.off y.off, by omega, by omega⟩
  · rintro ⟨h1, h2, p, h3, h4⟩
    exact ⟨⟨⟨by omega, by omega⟩, .inr h2⟩, ⟨h1, by omega⟩, by omega⟩

end Noise
