import Verif.Proofs.Frame
import Verif.Model.Rand
/-! # Properties C08-C11, C13-C15: messages, frames, encryption -/
namespace Noise
open Spec

/-- C08: the envelope round-trips, exactly the payloads of at least 8 bytes are accepted and each is the envelope of the message
it is decoded to, and plain messages are never confused with requests/responses. -/
theorem C08_envelope (m : Message) (p : Bytes) :
    unmarshalMessage (m.marshal []) = .ok m ∧
    (p.length < 8 → unmarshalMessage p = .err .unexpectedEOF) ∧
    (8 ≤ p.length → ∃ m', unmarshalMessage p = .ok m' ∧ m'.marshal [] = p ∧ m'.nonce.toNat = beVal (p.take 8) ∧ m'.data = p.drop 8) ∧
    (m.isRequest = true ↔ m.nonce ≠ 0) := by
  refine ⟨unmarshal_marshal_msg m, unmarshalMessage_short, ?_, ?_⟩
  · intro h
    obtain ⟨m', h1, h2, h3, h4⟩ := unmarshalMessage_ok h
    exact ⟨m', h1, h4, h2, h3⟩
  · unfold Message.isRequest
    rw [decide_eq_true_eq, gt_iff_lt, UInt64.lt_iff_toNat_lt, ne_eq, ← UInt64.toNat_inj]
    simp; omega

example : unmarshalMessage ([0, 0, 0, 0, 0, 0, 1, 2] ++ [9, 9]) = .ok ⟨258, [9, 9]⟩ := by decide

/-- The bytes a sender puts on the wire for a list of (random bytes, message). -/
def wire (suite : Option AEAD) (xs : List (Bytes × Message)) : Bytes := xs.flatMap fun x => frameMsg suite x.1 x.2

/-- Plaintext phase, or an established AES-GCM session whose random nonces have 12 bytes. -/
def Session (suite : Option AEAD) (xs : List (Bytes × Message)) : Prop :=
  ∀ A, suite = some A → A.IsGCM ∧ ∀ x ∈ xs, x.1.length = 12

theorem Session.suiteOK {suite : Option AEAD} {xs : List (Bytes × Message)} (h : Session suite xs) {x : Bytes × Message} (hx : x ∈ xs) :
    SuiteOK suite x.1 := by
  intro A hA
  obtain ⟨g, hn⟩ := h A hA
  exact ⟨g.toLawful, by rw [hn x hx, g.nonce_12]⟩

theorem wire_cons (suite : Option AEAD) (x : Bytes × Message) (xs : List (Bytes × Message)) :
    wire suite (x :: xs) = frameMsg suite x.1 x.2 ++ wire suite xs := rfl

/-- C09: cut the sender's stream after any number `k` of bytes: the receiver obtains exactly the messages whose frames are complete, in order,
and then an error; if the cut is at a frame boundary (in particular at the very end) the error is the stream's own end (`e`, EOF for an orderly close). -/
theorem C09_stream (max : UInt32) (hmax : 1 ≤ max.toNat ∧ max.toNat ≤ 2 ^ 32 - 5) (suite : Option AEAD) (xs : List (Bytes × Message))
    (hs : Session suite xs) (hl : ∀ x ∈ xs, (frameMsg suite x.1 x.2).length ≤ max.toNat + 4) (k : Nat) (e : Err) :
    ∃ ys zs e', xs = ys ++ zs ∧ recvAll max suite ((wire suite xs).take k) e = (ys.map Prod.snd, some e') ∧
      (wire suite ys).length ≤ k ∧ (∀ z ∈ zs.head?, k < (wire suite (ys ++ [z])).length) ∧
      ((wire suite ys).length = k ∨ zs = [] → e' = e) ∧ (e' = e ∨ (e = .eof ∧ e' = .unexpectedEOF)) := by
  induction xs generalizing k with
  | nil =>
    refine ⟨[], [], e, rfl, ?_, Nat.zero_le _, by simp, fun _ => rfl, Or.inl rfl⟩
    have : (wire suite []).take k = [] := by simp [wire]
    rw [this]
    apply recvAll_err
    rw [readFrame_char hmax]
    simp [shortErr]
  | cons x xs ih =>
    have hbody : (bodyOf suite x.1 (x.2.marshal [])).length ≤ max.toNat := by
      have := hl x (by simp)
      unfold frameMsg at this
      rw [frame_eq] at this
      simp [put32_length] at this
      omega
    rw [wire_cons]
    by_cases hk : (frameMsg suite x.1 x.2).length ≤ k
    · obtain ⟨ys, zs, e', h1, h2, h3, h4, h5, h6⟩ := ih (fun A hA => ⟨(hs A hA).1, fun y hy => (hs A hA).2 y (by simp [hy])⟩)
        (fun y hy => hl y (by simp [hy])) (k - (frameMsg suite x.1 x.2).length)
      refine ⟨x :: ys, zs, e', by rw [h1]; rfl, ?_, ?_, ?_, ?_, h6⟩
      · rw [List.take_append, List.take_of_length_le hk]
        have := recvAll_ok (readFrame_frame hmax (hs.suiteOK (x := x) (by simp)) hbody ((wire suite xs).take (k - (frameMsg suite x.1 x.2).length)) e)
          (unmarshal_marshal_msg x.2)
        rw [h2] at this
        exact this
      · rw [wire_cons]; simp; omega
      · intro z hz
        have := h4 z hz
        rw [List.cons_append, wire_cons]; simp; omega
      · intro h
        apply h5
        rw [wire_cons] at h
        simp at h
        rcases h with h | h
        · left; omega
        · exact Or.inr h
    · obtain ⟨e', he, h0, h1, h2⟩ := readFrame_incomplete hmax (suite := suite) (rnd := x.1) (p := x.2.marshal []) hbody
        (k := k) (by unfold frameMsg at hk; omega) e
      refine ⟨[], x :: xs, e', rfl, ?_, Nat.zero_le _, ?_, ?_, ?_⟩
      · rw [List.take_append_of_le_length (by omega)]
        exact recvAll_err he
      · intro z hz
        simp at hz
        subst hz
        simp [wire]; omega
      · rintro (h | h)
        · exact h0 (by simpa [wire] using h.symm)
        · cases h
      · by_cases he' : e = .eof
        · by_cases hk0 : k = 0
          · exact Or.inl (h0 hk0)
          · rcases h1 hk0 he' with h | h
            · exact Or.inl (by rw [h, he'])
            · exact Or.inr ⟨he', h⟩
        · exact Or.inl (h2 he')

/-- Corollary of C09 in its plainest form: the whole stream carries the whole sequence. -/
theorem C09_stream_complete (max : UInt32) (hmax : 1 ≤ max.toNat ∧ max.toNat ≤ 2 ^ 32 - 5) (suite : Option AEAD) (xs : List (Bytes × Message))
    (hs : Session suite xs) (hl : ∀ x ∈ xs, (frameMsg suite x.1 x.2).length ≤ max.toNat + 4) :
    recvAll max suite (wire suite xs) .eof = (xs.map Prod.snd, some .eof) := by
  obtain ⟨ys, zs, e', h1, h2, h3, h4, h5, h6⟩ := C09_stream max hmax suite xs hs hl (wire suite xs).length .eof
  rw [List.take_of_length_le (Nat.le_refl _)] at h2
  cases zs with
  | nil =>
    rw [List.append_nil] at h1
    rw [h2, h5 (Or.inr rfl), h1]
  | cons z zs =>
    have := h4 z (by simp)
    rw [h1] at this
    simp [wire] at this
    omega

/-- A toy AEAD with the sizes of AES-GCM, showing that the hypotheses on AEADs can be met. -/
def toyAEAD : AEAD where
  nonceSize := 12
  overhead := 16
  sealB n p := p ++ n ++ [0, 0, 0, 0]
  openB n c := if c.drop (c.length - 16) = n ++ [0, 0, 0, 0] then some (c.take (c.length - 16)) else none

theorem toyAEAD_gcm : toyAEAD.IsGCM where
  nonce_12 := rfl
  overhead_16 := rfl
  seal_length n p h := by simp [toyAEAD] at *; omega
  open_seal n p h := by
    simp [toyAEAD] at *
    rw [show p.length + (n.length + 4) - 16 = p.length by omega]
    simp
  sound n c p h ho := by
    simp only [toyAEAD] at *
    split at ho
    · next he =>
      injection ho with ho
      rw [List.append_assoc, ← he, ← ho, List.take_append_drop]
    · cases ho

example : recvAll 100 (some toyAEAD) (wire (some toyAEAD) [(List.replicate 12 1, ⟨5, [1, 2]⟩), (List.replicate 12 2, ⟨0, []⟩)]) .eof
    = ([⟨5, [1, 2]⟩, ⟨0, []⟩], some .eof) := by
  refine C09_stream_complete 100 (by decide) _ _ ?_ ?_
  · intro A hA; cases hA; exact ⟨toyAEAD_gcm, by simp⟩
  · intro x hx; simp at hx; rcases hx with rfl | rfl <;> decide

theorem decrypt_noPanic {A : AEAD} (b : Bytes) : decryptAEAD A b ≠ .panic := by
  unfold decryptAEAD
  by_cases h : b.length < A.nonceSize
  · rw [if_pos h]; simp
  · rw [if_neg h, slice_ok (by omega) (by omega), Res.bind_ok, slice_ok (by omega) (by omega), Res.bind_ok]
    split <;> simp

/-- C10, part 1: reading any peer bytes never panics, accepts nothing above the limit, and reports "too large" exactly for announced sizes above it. -/
theorem C10_limit (max : UInt32) (hmax : 1 ≤ max.toNat ∧ max.toNat ≤ 2 ^ 32 - 5) (suite : Option AEAD)
    (hA : ∀ A, suite = some A → A.Lawful) (s : Bytes) (e : Err) (he : e ≠ .messageTooLarge) :
    readFrame max suite s e ≠ .panic ∧
    (∀ p r, readFrame max suite s e = .ok (p, r) → p.length ≤ max.toNat) ∧
    (readFrame max suite s e = .err .messageTooLarge ↔ 4 ≤ s.length ∧ max.toNat < beVal (s.take 4)) ∧
    (recvAll max suite s e).2 ≠ none := by
  have main : ∀ s : Bytes, readFrame max suite s e ≠ .panic ∧
    (∀ p r, readFrame max suite s e = .ok (p, r) → p.length ≤ max.toNat) ∧
    (readFrame max suite s e = .err .messageTooLarge ↔ 4 ≤ s.length ∧ max.toNat < beVal (s.take 4)) := by
    intro s
    have hse : ∀ s, shortErr s e ≠ .messageTooLarge := by
      intro s; unfold shortErr; split
      · exact he
      · split
        · simp
        · exact he
    rw [readFrame_char hmax]
    by_cases h4 : s.length < 4
    · rw [if_pos h4]
      refine ⟨by simp, by simp, ?_⟩
      constructor
      · intro h; injection h with h; exact absurd h (hse _)
      · intro h; omega
    · rw [if_neg h4]
      by_cases hg : max.toNat < beVal (s.take 4)
      · rw [if_pos hg]
        exact ⟨by simp, by simp, by simp; exact ⟨by omega, hg⟩⟩
      · rw [if_neg hg]
        by_cases hl : s.length < 4 + beVal (s.take 4)
        · rw [if_pos hl]
          refine ⟨by simp, by simp, ?_⟩
          constructor
          · intro h; injection h with h; exact absurd h (hse _)
          · intro h; exact absurd h.2 hg
        · rw [if_neg hl]
          cases suite with
          | none =>
            refine ⟨by simp [openBody], ?_, ?_⟩
            · intro p r h
              simp [openBody] at h
              rw [← h.1]; simp; omega
            · simp [openBody]; intro _; omega
          | some A =>
            simp only [openBody]
            rcases decrypt_cases (hA A rfl) ((s.drop 4).take (beVal (s.take 4))) with ⟨n, p, hn, hb, hd⟩ | ⟨hd, _⟩ | hd
            · rw [hd, Res.bind_ok]
              refine ⟨by simp, ?_, ?_⟩
              · intro p' r h
                injection h with h; injection h with h _
                subst h
                have h1 := congrArg List.length hb
                simp [encryptAEAD, (hA A rfl).seal_length n p hn] at h1
                omega
              · simp; intro _; omega
            · rw [hd]; simp; intro _; omega
            · rw [hd]; simp; intro _; omega
  obtain ⟨h1, h2, h3⟩ := main s
  refine ⟨h1, h2, h3, ?_⟩
  clear h1 h2 h3
  induction hn : s.length using Nat.strongRecOn generalizing s with
  | _ n ih =>
    cases hr : readFrame max suite s e with
    | err e' => rw [recvAll_err hr]; simp
    | panic => exact absurd hr (main s).1
    | ok pr =>
      obtain ⟨p, r⟩ := pr
      by_cases hp : p.length < 8
      · rw [recvAll_badmsg hr (unmarshalMessage_short hp)]; simp
      · obtain ⟨m, hm, _⟩ := unmarshalMessage_ok (p := p) (by omega)
        rw [recvAll_ok hr hm]
        have := readFrame_shorter hr
        exact ih r.length (by omega) r rfl

/-- C10, part 2: on an established session a message with `d` bytes of data is received exactly when `d + 36` does not exceed the limit. -/
theorem C10_session_limit (max : UInt32) (hmax : 1 ≤ max.toNat ∧ max.toNat ≤ 2 ^ 32 - 5) (A : AEAD) (hA : A.IsGCM) (rnd : Bytes)
    (hr : rnd.length = 12) (m : Message) (rest : Bytes) (e : Err) :
    (∃ p r, readFrame max (some A) (frameMsg (some A) rnd m ++ rest) e = .ok (p, r) ∧ unmarshalMessage p = .ok m) ↔
      m.data.length + 36 ≤ max.toNat := by
  have hlen : (bodyOf (some A) rnd (m.marshal [])).length = m.data.length + 36 := by
    simp only [bodyOf, encryptAEAD, List.length_append, hA.seal_length _ _ (by rw [hr, hA.nonce_12]), hA.overhead_16, hr, marshal_nil,
      put64_length]
    omega
  constructor
  · rintro ⟨p, r, h, hm⟩
    have hb := (C10_limit max hmax (some A) (by rintro _ ⟨⟩; exact hA.toLawful) (frameMsg (some A) rnd m ++ rest) .eof (by simp)).1
    rw [readFrame_char hmax] at h
    split at h
    · cases h
    · split at h
      · cases h
      · split at h
        · cases h
        · obtain ⟨q, hq, h⟩ := Res.bind_eq_ok h
          injection h with h; injection h with h _; subst h
          simp only [openBody] at hq
          rename_i h4 hg hl
          rcases decrypt_cases hA.toLawful (((frameMsg (some A) rnd m ++ rest).drop 4).take (beVal ((frameMsg (some A) rnd m ++ rest).take 4)))
            with ⟨n, q', hn, hb', hd⟩ | ⟨hd, _⟩ | hd
          · rw [hd] at hq; injection hq with hq; subst hq
            have h1 := congrArg List.length hb'
            rw [List.length_take] at h1
            have : q'.length = m.data.length + 8 := by
              by_cases h8 : q'.length < 8
              · rw [unmarshalMessage_short h8] at hm; cases hm
              · obtain ⟨m', hm', _, hd', _⟩ := unmarshalMessage_ok (p := q') (by omega)
                rw [hm'] at hm; injection hm with hm; subst hm
                rw [hd']; simp; omega
            simp only [encryptAEAD, List.length_append, hA.seal_length _ _ hn, hA.overhead_16, hn, hA.nonce_12] at h1
            omega
          · rw [hd] at hq; cases hq
          · rw [hd] at hq; cases hq
  · intro h
    have := readFrame_frame hmax (suite := some A) (rnd := rnd) (p := m.marshal [])
      (by rintro _ ⟨⟩; exact ⟨hA.toLawful, by rw [hr, hA.nonce_12]⟩) (by omega) rest e
    exact ⟨_, _, this, unmarshal_marshal_msg m⟩

example : (∃ p r, readFrame 40 (some toyAEAD) (frameMsg (some toyAEAD) (List.replicate 12 1) ⟨7, [1, 2, 3, 4]⟩ ++ []) .eof = .ok (p, r) ∧
    unmarshalMessage p = .ok ⟨7, [1, 2, 3, 4]⟩) :=
  (C10_session_limit 40 (by decide) toyAEAD toyAEAD_gcm _ (by simp) ⟨7, [1, 2, 3, 4]⟩ [] .eof).2 (by decide)
example : readFrame 3 none [0, 0, 0, 4, 1, 2, 3, 4] .eof = .err .messageTooLarge := by decide

/-- C11 is false: with the limit set to zero every frame that announces at least one byte makes `read` panic, whatever follows; and limits above
2^32-5 panic on every read. -/
theorem C11_zero_limit_refuted (suite : Option AEAD) (s : Bytes) (e : Err) :
    (4 ≤ s.length → 0 < beVal (s.take 4) → readFrame 0 suite s e = .panic ∧ recvAll 0 suite s e = ([], none)) ∧
    (∀ max : UInt32, 2 ^ 32 - 5 < max.toNat → readFrame max suite s e = .panic) := by
  constructor
  · intro h4 hv
    have : readFrame 0 suite s e = .panic := by
      unfold readFrame
      have hb : boundsOK 0 0 4 = true := by decide
      rw [hb, readFull_enough h4]
      simp only [Bool.not_true, Bool.false_eq_true, if_false, Res.bind_ok]
      obtain ⟨size, hs, hv'⟩ := get32_eq (s.take 4) (by simp; omega)
      rw [List.take_take, Nat.min_self] at hv'
      rw [hs, Res.bind_ok]
      have h0 : (decide ((0 : UInt32) > 0) && decide (size > 0)) = false := by simp
      rw [h0]
      have hb2 : boundsOK 0 4 (size + 4).toNat = false := by
        have hrl : readerBufLen 0 = 4 := by decide
        have hlt := size.toNat_lt
        have : (size + 4).toNat = (size.toNat + 4) % 2 ^ 32 := by rw [UInt32.toNat_add]; rfl
        simp only [boundsOK, hrl, Bool.and_eq_false_iff, decide_eq_false_iff_not, this]
        omega
      rw [hb2]
      rfl
    exact ⟨this, recvAll_panic this⟩
  · intro max hm
    have hlt := max.toNat_lt
    unfold readFrame
    have hb : boundsOK max 0 4 = false := by
      have : (4 + max).toNat = (4 + max.toNat) % 2 ^ 32 := by rw [UInt32.toNat_add]; rfl
      simp only [boundsOK, readerBufLen, this, Bool.and_eq_false_iff, decide_eq_false_iff_not]
      omega
    rw [hb]
    rfl

example : readFrame 0 none [0, 0, 0, 1, 65] .eof = .panic := ((C11_zero_limit_refuted _ _ _).1 (by decide) (by decide)).1

/-- C11, what does hold: with limit zero empty frames are read; and the largest working limit, 2^32-5, admits every frame up to that size.
Missing for the full claim: a limit of zero is not "no limit" (refuted by `C11_zero_limit_refuted`). -/
theorem C11_zero_limit_partial (p rest : Bytes) (e : Err) :
    readFrame 0 none ([0, 0, 0, 0] ++ rest) e = .ok ([], rest) ∧
    (p.length ≤ 2 ^ 32 - 5 → readFrame (UInt32.ofNat (2 ^ 32 - 5)) none (frame none [] p ++ rest) e = .ok (p, rest)) := by
  constructor
  · have hb : boundsOK 0 0 4 = true := by decide
    unfold readFrame
    rw [hb, readFull_enough (by simp)]
    simp only [Bool.not_true, Bool.false_eq_true, if_false, Res.bind_ok]
    have : ([0, 0, 0, 0] ++ rest : Bytes).take 4 = put32 0 ++ [] := rfl
    rw [this, get32_put32, Res.bind_ok]
    have hb2 : boundsOK 0 4 ((0 : UInt32) + 4).toNat = true := by decide
    rw [hb2]
    have : (((0 : UInt32) + 4).toNat - 4) = 0 := by decide
    rw [this, readFull_enough (by simp)]
    simp
  · intro h
    exact readFrame_frame (by unfold LimitOK; decide) (by rintro _ ⟨⟩) (by
      have : (UInt32.ofNat (2 ^ 32 - 5)).toNat = 2 ^ 32 - 5 := by decide
      rw [this]; exact h) rest e

/-- C13: on an established session, whatever bytes arrive, an accepted payload `p` was carried by the frame
length ++ nonce ++ Seal(nonce, p); every other complete frame within the limit ends the session with an error. -/
theorem C13_only_sealed (max : UInt32) (hmax : 1 ≤ max.toNat ∧ max.toNat ≤ 2 ^ 32 - 5) (A : AEAD) (hA : A.IsGCM) (s : Bytes) (e : Err) :
    (∀ p r, readFrame max (some A) s e = .ok (p, r) →
      ∃ n, n.length = 12 ∧ s = put32 (UInt32.ofNat (12 + (A.sealB n p).length)) ++ n ++ A.sealB n p ++ r) ∧
    (∀ body r, body.length ≤ max.toNat → s = put32 (UInt32.ofNat body.length) ++ body ++ r →
      (¬ ∃ n p, n.length = 12 ∧ body = n ++ A.sealB n p) →
      ∃ e', readFrame max (some A) s e = .err e' ∧ recvAll max (some A) s e = ([], some e') ∧ (body.length < 12 → e' = .unexpectedEOF)) := by
  constructor
  · intro p r h
    rw [readFrame_char hmax] at h
    split at h
    · cases h
    · split at h
      · cases h
      · split at h
        · cases h
        · rename_i h4 hg hl
          obtain ⟨q, hq, h⟩ := Res.bind_eq_ok h
          injection h with h; injection h with h h'; subst h; subst h'
          simp only [openBody] at hq
          rcases decrypt_cases hA.toLawful ((s.drop 4).take (beVal (s.take 4))) with ⟨n, q', hn, hb', hd⟩ | ⟨hd, _⟩ | hd
          · rw [hd] at hq; injection hq with hq; subst hq
            refine ⟨n, by rw [hn, hA.nonce_12], ?_⟩
            have hlen := congrArg List.length hb'
            simp [encryptAEAD] at hlen
            rw [hA.nonce_12] at hn
            have hsz : 12 + (A.sealB n q').length = beVal (s.take 4) := by omega
            have hlt : beVal (s.take 4) < 2 ^ 32 := by
              have := beVal_lt (s.take 4)
              have h' : (s.take 4).length = 4 := by simp; omega
              rw [h'] at this; exact this
            have hp : put32 (UInt32.ofNat (12 + (A.sealB n q').length)) = s.take 4 := by
              apply put32_of_take (by omega)
              rw [hsz]; simp; omega
            rw [hp, List.append_assoc (s.take 4)]
            have : n ++ A.sealB n q' = (s.drop 4).take (beVal (s.take 4)) := hb'.symm
            rw [this, ← List.drop_drop, List.append_assoc, List.take_append_drop, List.take_append_drop]
          · rw [hd] at hq; cases hq
          · rw [hd] at hq; cases hq
  · intro body r hl hs hno
    have hlt := max.toNat_lt
    have hv : beVal (s.take 4) = body.length := by
      have : s.take 4 = put32 (UInt32.ofNat body.length) := by rw [hs]; simp [put32]
      rw [this, beVal_put32]; simp; omega
    have hb : (s.drop 4).take body.length = body := by rw [hs]; simp [put32]
    have hsl : s.length = 4 + body.length + r.length := by rw [hs]; simp [put32_length]; omega
    have : ∃ e', readFrame max (some A) s e = .err e' ∧ (body.length < 12 → e' = .unexpectedEOF) := by
      rw [readFrame_char hmax, if_neg (by omega), hv, if_neg (by omega), if_neg (by omega), hb]
      simp only [openBody]
      rcases decrypt_cases hA.toLawful body with ⟨n, p, hn, hb', _⟩ | ⟨hd, _⟩ | hd
      · exact absurd ⟨n, p, by rw [hn, hA.nonce_12], hb'⟩ hno
      · rw [hd]; exact ⟨_, rfl, fun _ => rfl⟩
      · refine ⟨.aead, by rw [hd]; rfl, fun h12 => ?_⟩
        unfold decryptAEAD at hd
        rw [if_pos (by rw [hA.nonce_12]; exact h12)] at hd
        cases hd
    obtain ⟨e', h1, h2⟩ := this
    exact ⟨e', h1, recvAll_err h1, h2⟩

example : ∃ e', readFrame 100 (some toyAEAD) (put32 (UInt32.ofNat 3) ++ [1, 2, 3] ++ []) .eof = .err e' := by
  obtain ⟨e', h, _⟩ := (C13_only_sealed 100 (by decide) toyAEAD toyAEAD_gcm (put32 (UInt32.ofNat 3) ++ [1, 2, 3] ++ []) .eof).2 [1, 2, 3] []
    (by decide) rfl (by
      rintro ⟨n, p, hn, hb⟩
      have := congrArg List.length hb
      simp [hn] at this; omega)
  exact ⟨e', h⟩

/-- C14 is false: any message frame that the receiver accepts once is accepted every time it is repeated on that session, by every AEAD: `n+1` copies
deliver the message `n+1` times. -/
theorem C14_replay_refuted (max : UInt32) (suite : Option AEAD) (f : Bytes) (p : Bytes) (m : Message)
    (hacc : ∀ rest e, readFrame max suite (f ++ rest) e = .ok (p, rest)) (hm : unmarshalMessage p = .ok m) (n : Nat) (rest : Bytes) (e : Err) :
    (recvAll max suite ((List.replicate n f).flatten ++ rest) e).1 = List.replicate n m ++ (recvAll max suite rest e).1 := by
  induction n with
  | zero => simp
  | succ n ih =>
    simp only [List.replicate_succ, List.flatten_cons, List.append_assoc]
    rw [recvAll_ok (hacc _ e) hm, ih]
    rfl

/-- The hypothesis of `C14_replay_refuted` is met by every frame of an honest sender within the limit. -/
theorem C14_replay_applies (max : UInt32) (hmax : 1 ≤ max.toNat ∧ max.toNat ≤ 2 ^ 32 - 5) (A : AEAD) (hA : A.IsGCM) (rnd : Bytes)
    (hr : rnd.length = 12) (m : Message) (hl : m.data.length + 36 ≤ max.toNat) :
    (recvAll max (some A) (frameMsg (some A) rnd m ++ frameMsg (some A) rnd m) .eof).1 = [m, m] := by
  have hlen : (bodyOf (some A) rnd (m.marshal [])).length = m.data.length + 36 := by
    simp only [bodyOf, encryptAEAD, List.length_append, hA.seal_length _ _ (by rw [hr, hA.nonce_12]), hA.overhead_16, hr, marshal_nil,
      put64_length]
    omega
  have := C14_replay_refuted max (some A) (frameMsg (some A) rnd m) (m.marshal []) m
    (fun rest e => readFrame_frame hmax (by rintro _ ⟨⟩; exact ⟨hA.toLawful, by rw [hr, hA.nonce_12]⟩) (by omega) rest e)
    (unmarshal_marshal_msg m) 2 [] .eof
  simp at this
  rw [this]
  have : readFrame max (some A) [] .eof = .err .eof := by rw [readFrame_char hmax]; simp [shortErr]
  rw [recvAll_err this]

example : (recvAll 100 (some toyAEAD) (frameMsg (some toyAEAD) (List.replicate 12 1) ⟨0, [1]⟩ ++
    frameMsg (some toyAEAD) (List.replicate 12 1) ⟨0, [1]⟩) .eof).1 = [⟨0, [1]⟩, ⟨0, [1]⟩] :=
  C14_replay_applies 100 (by decide) toyAEAD toyAEAD_gcm _ (by simp) _ (by decide)

/-- C14, what does hold: a network attacker can only repeat, drop or reorder; if no sealed text outside `sent` exists in the stream (unforgeability), then
every delivered message is one of those that were sealed. Missing for the full claim: at most one delivery per frame (refuted above). -/
theorem C14_replay_partial (max : UInt32) (hmax : 1 ≤ max.toNat ∧ max.toNat ≤ 2 ^ 32 - 5) (A : AEAD) (hA : A.IsGCM) (sent : List Message) (s : Bytes) (e : Err)
    (unforgeable : ∀ n p pre post, n.length = 12 → s = pre ++ n ++ A.sealB n p ++ post → ∃ m ∈ sent, p = m.marshal []) :
    ∀ m ∈ (recvAll max (some A) s e).1, m ∈ sent := by
  have key : ∀ len (s : Bytes), s.length = len →
      (∀ n p pre post, n.length = 12 → s = pre ++ n ++ A.sealB n p ++ post → ∃ m ∈ sent, p = m.marshal []) →
      ∀ m ∈ (recvAll max (some A) s e).1, m ∈ sent := by
    intro len
    induction len using Nat.strongRecOn with
    | _ len ih =>
      intro s hlen hu m hm
      cases hr : readFrame max (some A) s e with
      | err e' => rw [recvAll_err hr] at hm; simp at hm
      | panic => rw [recvAll_panic hr] at hm; simp at hm
      | ok pr =>
        obtain ⟨p, r⟩ := pr
        obtain ⟨n, hn, hs⟩ := (C13_only_sealed max hmax A hA s e).1 p r hr
        obtain ⟨m0, hm0, hp⟩ := hu n p (put32 (UInt32.ofNat (12 + (A.sealB n p).length))) r hn hs
        rw [recvAll_ok hr (by rw [hp]; exact unmarshal_marshal_msg m0)] at hm
        simp only [List.mem_cons] at hm
        rcases hm with rfl | hm
        · exact hm0
        · have := readFrame_shorter hr
          refine ih r.length (by omega) r rfl ?_ m hm
          intro n' p' pre post hn' hs'
          refine hu n' p' (put32 (UInt32.ofNat (12 + (A.sealB n p).length)) ++ n ++ A.sealB n p ++ pre) post hn' ?_
          rw [hs, hs']; simp
  exact key _ s rfl unforgeable

/-- C15 is false: whatever the generator is, two processes that have drawn equally often use the same nonce; in the very first session between
two fresh processes the first frames sealed by the two sides (their overlay IDs, client.go:455-459) use one nonce under one key. -/
theorem C15_nonce_reuse_refuted {K : Type} (g : Prng) (as bs : List (K × Bytes)) (i : Nat) (k : K) (p q : Bytes)
    (ha : as[i]? = some (k, p)) (hb : bs[i]? = some (k, q)) :
    ∃ n, (k, n, p) ∈ sealLog g 12 g.seed as ∧ (k, n, q) ∈ sealLog g 12 g.seed bs := by
  have key : ∀ (s : g.State) (as bs : List (K × Bytes)) (i : Nat), as[i]? = some (k, p) → bs[i]? = some (k, q) →
      ∃ n, (k, n, p) ∈ sealLog g 12 s as ∧ (k, n, q) ∈ sealLog g 12 s bs := by
    intro s as
    induction as generalizing s with
    | nil => intro bs i h; simp at h
    | cons a as ih =>
      intro bs i h1 h2
      cases bs with
      | nil => simp at h2
      | cons b bs =>
        cases i with
        | zero =>
          simp at h1 h2
          subst h1; subst h2
          exact ⟨(g.draw s 12).1, by simp [sealLog], by simp [sealLog]⟩
        | succ i =>
          simp at h1 h2
          obtain ⟨n, h3, h4⟩ := ih (g.draw s 12).2 bs i h1 h2
          exact ⟨n, by simp [sealLog, h3], by simp [sealLog, h4]⟩
  exact key g.seed as bs i ha hb

example (g : Prng) : ∃ n, ("session", n, [1]) ∈ sealLog g 12 g.seed [("session", [1])] ∧ ("session", n, [2]) ∈ sealLog g 12 g.seed [("session", [2])] :=
  C15_nonce_reuse_refuted g [("session", [1])] [("session", [2])] 0 "session" [1] [2] rfl rfl

/-- `draws g k s`: the first `k` nonces drawn from state `s`. -/
def draws (g : Prng) : Nat → g.State → List Bytes
  | 0, _ => []
  | k + 1, s => (g.draw s 12).1 :: draws g k (g.draw s 12).2

/-- C15, what does hold: as long as the generator has not repeated a 12-byte block, one process never uses a nonce twice (under any key).
Missing for the full claim: two processes sharing a key (refuted above), and a generator without repetitions (math/rand gives no such guarantee). -/
theorem C15_nonce_reuse_partial {K : Type} (g : Prng) (as : List (K × Bytes)) (h : (draws g as.length g.seed).Nodup) :
    ((sealLog g 12 g.seed as).map fun x => x.2.1).Nodup := by
  have key : ∀ (as : List (K × Bytes)) (s : g.State), (sealLog g 12 s as).map (fun x => x.2.1) = draws g as.length s := by
    intro as
    induction as with
    | nil => intro s; rfl
    | cons a as ih => intro s; simp [sealLog, draws, ih]
  rw [key]; exact h

/-- A counting generator meets the hypotheses. -/
def counterPrng : Prng where
  State := Nat
  seed := 0
  draw s n := (List.replicate n (UInt8.ofNat s), s + 1)

example : ((sealLog counterPrng 12 counterPrng.seed [(0, [1]), (0, [2]), (1, [1])]).map fun x => x.2.1).Nodup :=
  C15_nonce_reuse_partial counterPrng _ (by decide)

end Noise
