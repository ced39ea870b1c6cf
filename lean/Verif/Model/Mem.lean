import Verif.Model.Frame
/-!
# aead.go and msg.go at the level of slices and backing arrays

A heap maps array identities to contents; arrays with identity `≥ next` are not allocated yet. A slice is (array, offset, length, capacity).
`append` reallocates when the capacity is exceeded; how much spare capacity the runtime then adds is given by an arbitrary function `slack`.
-/
namespace Noise

/-- Go's memory: the arrays behind the slices of aead.go:9-50 and client.go:282-313. -/
structure Heap where
  mem : Nat → Bytes
  next : Nat

/-- A Go slice: aead.go:9-50, client.go:282-313. -/
structure Slice where
  arr : Nat
  off : Nat
  len : Nat
  cap : Nat

/-- The bytes a slice denotes. aead.go:9-50. -/
def Heap.read (H : Heap) (s : Slice) : Bytes := ((H.mem s.arr).drop s.off).take s.len

/-- Overwrite `bs.length` bytes of a list from index `i`. Not in the code: for `copy` and `append` of aead.go:9-26. -/
def pokeL (L : Bytes) (i : Nat) (bs : Bytes) : Bytes := L.take i ++ bs ++ L.drop (i + bs.length)

/-- Overwrite bytes of an array. aead.go:9-26. -/
def Heap.poke (H : Heap) (a i : Nat) (bs : Bytes) : Heap :=
  { H with mem := fun j => if j = a then pokeL (H.mem a) i bs else H.mem j }

/-- Allocate an array with the given contents; the slice covers its first `len` bytes. `make`: aead.go:11, 23. -/
def Heap.alloc (H : Heap) (bs : Bytes) (len : Nat) : Heap × Slice :=
  (⟨fun j => if j = H.next then bs else H.mem j, H.next + 1⟩, ⟨H.next, 0, len, bs.length⟩)

/-- Go's `s[lo:hi]` on slices: bounds are checked against the capacity. -/
def Slice.slice (s : Slice) (lo hi : Nat) : Res Slice :=
  if lo ≤ hi ∧ hi ≤ s.cap then .ok ⟨s.arr, s.off + lo, hi - lo, s.cap - lo⟩ else .panic

/-- Go's `append(s, bs...)`, where `bs` is the value of the appended slice before the call (memmove semantics). -/
def goAppend (slack : Nat → Nat) (H : Heap) (s : Slice) (bs : Bytes) : Heap × Slice :=
  if s.len + bs.length ≤ s.cap then (H.poke s.arr (s.off + s.len) bs, { s with len := s.len + bs.length })
  else
    let new := H.read s ++ bs
    H.alloc (new ++ List.replicate (slack new.length) 0) new.length

/-- aead.go:9-18 `extendFront`. -/
def extendFront (slack : Nat → Nat) (H : Heap) (buf : Slice) (n : Nat) : Res (Heap × Slice) :=
  if buf.len < n then
    let (H1, clone) := H.alloc (List.replicate (n + buf.len) 0) (n + buf.len)
    do
      let tail ← clone.slice n clone.len
      .ok (H1.poke tail.arr tail.off ((H1.read buf).take tail.len), clone)
  else do
    let front ← buf.slice 0 n
    .ok (goAppend slack H front (H.read buf))

/-- aead.go:20-26 `extendBack`. -/
def extendBack (slack : Nat → Nat) (H : Heap) (buf : Slice) (n : Nat) : Res (Heap × Slice) :=
  let n := n + buf.len
  if n > buf.cap then do
    let full ← buf.slice 0 buf.cap
    let (H', buf') := goAppend slack H full (List.replicate (n - buf.cap) 0)
    let r ← buf'.slice 0 n
    .ok (H', r)
  else do
    let r ← buf.slice 0 n
    .ok (H, r)

/-- crypto/internal/subtle `InexactOverlap`. Go's panic in `Seal` and `Open`: aead.go:38, 49. -/
def inexactOverlap (x y : Slice) : Bool :=
  x.len ≠ 0 && y.len ≠ 0 && !(x.arr = y.arr && x.off = y.off) && (x.arr = y.arr && x.off < y.off + y.len && y.off < x.off + x.len)

/-- `gcm.Seal(dst, nonce, plaintext, nil)`: appends the ciphertext to `dst` (`sliceForAppend` allocates exactly when the capacity does not suffice). aead.go:38. -/
def memSeal (A : AEAD) (H : Heap) (dst nonce pt : Slice) : Res (Heap × Slice) :=
  let c := A.sealB (H.read nonce) (H.read pt)
  if dst.len + c.length ≤ dst.cap then
    if inexactOverlap ⟨dst.arr, dst.off + dst.len, c.length, dst.cap - dst.len⟩ pt then .panic
    else .ok (H.poke dst.arr (dst.off + dst.len) c, { dst with len := dst.len + c.length })
  else .ok (H.alloc (H.read dst ++ c) (dst.len + c.length))

/-- aead.go:28-39 `encryptAEAD`; `rnd` are the bytes delivered by `rand.Read`. -/
def memEncrypt (slack : Nat → Nat) (A : AEAD) (rnd : Bytes) (H : Heap) (buf : Slice) : Res (Heap × Slice) := do
  let a := A.nonceSize
  let b := buf.len
  let (H, buf) ← extendFront slack H buf a
  let (H, buf) ← extendBack slack H buf b
  let nonce ← buf.slice 0 a
  let H := H.poke nonce.arr nonce.off (rnd.take a)
  let dst ← buf.slice a a
  let pt ← buf.slice a (a + b)
  let (H, sealed) ← memSeal A H dst nonce pt
  let front ← buf.slice 0 a
  .ok (goAppend slack H front (H.read sealed))

/-- aead.go:41-50 `decryptAEAD`: opens in place; on an authentication failure `gcm.Open` zeroes the output bytes. The result is `none` on failure. -/
def memDecrypt (A : AEAD) (H : Heap) (buf : Slice) : Res (Heap × Option Slice) :=
  if buf.len < A.nonceSize then .err .unexpectedEOF
  else do
    let nonce ← buf.slice 0 A.nonceSize
    let text ← buf.slice A.nonceSize buf.len
    match A.openB (H.read nonce) (H.read text) with
    | some p => .ok (H.poke text.arr text.off p, some { text with len := p.length })
    | none => .ok (H.poke text.arr text.off (List.replicate (text.len - A.overhead) 0), none)

/-- msg.go:16-22 `marshal` into a caller-supplied buffer; `data` is the slice handed to `Send` by the user. -/
def memMarshal (slack : Nat → Nat) (H : Heap) (dst : Slice) (nonce : UInt64) (data : Slice) : Res (Heap × Slice) := do
  let (H, dst) := goAppend slack H dst (List.replicate 8 0)
  let hdr ← dst.slice 0 8
  let H := H.poke hdr.arr hdr.off (put64 nonce)
  .ok (goAppend slack H dst (H.read data))

/-- client.go:599-611 for one message on an encrypted session: `buf = buf[:0]`, marshal, encrypt. -/
def memWriteOne (slack : Nat → Nat) (A : AEAD) (H : Heap) (buf : Slice) (rnd : Bytes) (nonce : UInt64) (data : Slice) : Res (Heap × Slice) := do
  let b ← buf.slice 0 0
  let (H, b) ← memMarshal slack H b nonce data
  memEncrypt slack A rnd H b

/-- client.go:599-632, the loop over one batch; the result also lists the bytes handed to the writer for each message. -/
def memWriteLoop (slack : Nat → Nat) (A : AEAD) : Heap → Slice → List (Bytes × UInt64 × Slice) → Res (Heap × Slice × List Bytes)
  | H, buf, [] => .ok (H, buf, [])
  | H, buf, (rnd, nonce, data) :: r => do
    let (H, buf) ← memWriteOne slack A H buf rnd nonce data
    let out := H.read buf
    let (H, buf, outs) ← memWriteLoop slack A H buf r
    .ok (H, buf, out :: outs)

end Noise
