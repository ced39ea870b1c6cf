import Verif.Model.Basic
/-!
# msg.go, aead.go and the framing part of client.go (read, write, recvLoop, writeLoop) at the level of byte strings

Slices are byte strings here; the memory-level version of the encryption functions is in `Model/Mem.lean`.
-/
namespace Noise

/-- msg.go:11-14 `message`. -/
structure Message where
  nonce : UInt64
  data : Bytes
  deriving DecidableEq, Repr

/-- msg.go:16-22 `marshal`: eight bytes are appended to `dst`, the nonce is written to `dst[:8]`, the data is appended. -/
def Message.marshal (m : Message) (dst : Bytes) : Bytes :=
  let dst := dst ++ List.replicate 8 0
  let dst := put64 m.nonce ++ dst.drop 8
  dst ++ m.data

/-- msg.go:24-33 `unmarshalMessage`. -/
def unmarshalMessage (data : Bytes) : Res Message :=
  if data.length < 8 then .err .unexpectedEOF
  else do
    let hd ← slice data 0 8
    let nonce ← get64 hd
    let data ← slice data 8 data.length
    pure ⟨nonce, data⟩

/-- msg.go:63-65 `IsRequest`. -/
def Message.isRequest (m : Message) : Bool := m.nonce > 0

/-- A `cipher.AEAD` with its key: what `cipher.NewGCM` returns (client.go:439-451). `sealB nonce plaintext` and
`openB nonce ciphertext`; additional data is always nil in this code base. -/
structure AEAD where
  nonceSize : Nat
  overhead : Nat
  sealB : Bytes → Bytes → Bytes
  openB : Bytes → Bytes → Option Bytes

/-- What the theorems assume of an AEAD. `sound` holds of GCM because opening recomputes tag and key stream: a ciphertext that opens to `p` is
the one that sealing `p` produces. Not in the code: an assumption about `cipher.AEAD` as used at aead.go:38, 49. -/
structure AEAD.Lawful (A : AEAD) : Prop where
  seal_length : ∀ n p, n.length = A.nonceSize → (A.sealB n p).length = p.length + A.overhead
  open_seal : ∀ n p, n.length = A.nonceSize → A.openB n (A.sealB n p) = some p
  sound : ∀ n c p, n.length = A.nonceSize → A.openB n c = some p → c = A.sealB n p

/-- AES-GCM as instantiated at client.go:439-451: 12-byte nonce, 16-byte tag. -/
structure AEAD.IsGCM (A : AEAD) : Prop extends AEAD.Lawful A where
  nonce_12 : A.nonceSize = 12
  overhead_16 : A.overhead = 16

/-- aead.go:28-39 `encryptAEAD` on byte strings; `n` are the bytes written by `rand.Read(buf[:a])`, which never fails. -/
def encryptAEAD (A : AEAD) (n buf : Bytes) : Bytes := n ++ A.sealB n buf

/-- aead.go:41-50 `decryptAEAD`. -/
def decryptAEAD (A : AEAD) (buf : Bytes) : Res Bytes :=
  if buf.length < A.nonceSize then .err .unexpectedEOF
  else do
    let nonce ← slice buf 0 A.nonceSize
    let text ← slice buf A.nonceSize buf.length
    match A.openB nonce text with
    | some p => pure p
    | none => .err .aead

/-- client.go:322-331 `write`, and 599-631 in `writeLoop`: optional encryption, then a 4-byte length computed in `uint32`, then the body.
`rnd` are the random bytes of this call. -/
def frame (suite : Option AEAD) (rnd data : Bytes) : Bytes :=
  let body := match suite with
    | none => data
    | some A => encryptAEAD A rnd data
  put32 (UInt32.ofNat body.length) ++ body

/-- client.go:599-631: one message as put on the wire by `writeLoop` (`buf = buf[:0]` before `marshal`). -/
def frameMsg (suite : Option AEAD) (rnd : Bytes) (m : Message) : Bytes := frame suite rnd (m.marshal [])

/-- `io.ReadFull` for `n` bytes on a stream that holds `s` and then fails with `e` (io.EOF for an orderly close): io.EOF turns into
io.ErrUnexpectedEOF when some but not all bytes were read. client.go:289, 299. -/
def readFull (n : Nat) (s : Bytes) (e : Err) : Res (Bytes × Bytes) :=
  if n ≤ s.length then .ok (s.take n, s.drop n)
  else if s = [] then .err e
  else if e = .eof then .err .unexpectedEOF else .err e

/-- client.go:94: `len(readerBuf)`, computed in `uint32`. -/
def readerBufLen (max : UInt32) : Nat := (4 + max).toNat

/-- Bounds check of the slice expression `readerBuf[lo:hi]`. client.go:289, 299. -/
def boundsOK (max : UInt32) (lo hi : Nat) : Bool := lo ≤ hi && hi ≤ readerBufLen max

/-- client.go:282-313 `read` (deadlines are part of the stream's final error): payload and remaining stream. -/
def readFrame (max : UInt32) (suite : Option AEAD) (s : Bytes) (e : Err) : Res (Bytes × Bytes) :=
  if !boundsOK max 0 4 then .panic
  else do
    let (hdr, s) ← readFull 4 s e
    let size ← get32 hdr
    if max > 0 && size > max then .err .messageTooLarge
    else if !boundsOK max 4 (size + 4).toNat then .panic
    else do
      let (body, s) ← readFull ((size + 4).toNat - 4) s e
      match suite with
      | none => pure (body, s)
      | some A => do
        let p ← decryptAEAD A body
        pure (p, s)

theorem readFull_ok {n : Nat} {s : Bytes} {e : Err} {a b : Bytes} (h : readFull n s e = .ok (a, b)) :
    n ≤ s.length ∧ a = s.take n ∧ b = s.drop n := by
  unfold readFull at h
  split at h
  · next hn => injection h with h; injection h with h1 h2; exact ⟨hn, h1.symm, h2.symm⟩
  · split at h
    · cases h
    · split at h <;> cases h

theorem Res.bind_eq_ok {α β : Type u} {x : Res α} {f : α → Res β} {b : β} (h : (x >>= f) = .ok b) :
    ∃ a, x = .ok a ∧ f a = .ok b := by
  cases x with
  | ok a => exact ⟨a, rfl, h⟩
  | err e => cases h
  | panic => cases h

theorem readFrame_shorter {max : UInt32} {suite : Option AEAD} {s : Bytes} {e : Err} {p r : Bytes}
    (h : readFrame max suite s e = .ok (p, r)) : r.length + 4 ≤ s.length := by
  unfold readFrame at h
  split at h
  · cases h
  · obtain ⟨⟨hdr, s1⟩, h1, h⟩ := Res.bind_eq_ok h
    obtain ⟨l1, _, e1⟩ := readFull_ok h1
    dsimp only at h
    obtain ⟨size, h2, h⟩ := Res.bind_eq_ok h
    split at h
    · cases h
    · split at h
      · cases h
      · obtain ⟨⟨body, s2⟩, h3, h⟩ := Res.bind_eq_ok h
        obtain ⟨l2, _, e2⟩ := readFull_ok h3
        dsimp only at h
        have : s2.length + 4 ≤ s.length := by subst e1; subst e2; simp at *; omega
        split at h
        · injection h with h; injection h with _ h; subst h; exact this
        · obtain ⟨q, _, h⟩ := Res.bind_eq_ok h
          injection h with h; injection h with _ h; subst h; exact this

/-- client.go:520-529: the payloads obtained by calling `read` until it fails, and how it failed (`none`: panic). -/
def readAll (max : UInt32) (suite : Option AEAD) (s : Bytes) (e : Err) : List Bytes × Option Err :=
  match h : readFrame max suite s e with
  | .ok (p, r) =>
    have : r.length < s.length := by have := readFrame_shorter h; omega
    let (ps, o) := readAll max suite r e
    (p :: ps, o)
  | .err e' => ([], some e')
  | .panic => ([], none)
termination_by s.length

/-- client.go:517-558 `recvLoop`: the messages decoded from a byte stream until the loop ends, and how it ended. -/
def recvAll (max : UInt32) (suite : Option AEAD) (s : Bytes) (e : Err) : List Message × Option Err :=
  match h : readFrame max suite s e with
  | .ok (p, r) =>
    match unmarshalMessage p with
    | .ok m =>
      have : r.length < s.length := by have := readFrame_shorter h; omega
      let (ms, o) := recvAll max suite r e
      (m :: ms, o)
    | .err e' => ([], some e')
    | .panic => ([], none)
  | .err e' => ([], some e')
  | .panic => ([], none)
termination_by s.length

end Noise
