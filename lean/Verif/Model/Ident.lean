import Verif.Model.IP
/-! # id.go -/
namespace Noise

/-- id.go:15-27 `ID`. -/
structure ID where
  id : PublicKey
  host : IP
  port : UInt16
  address : Text
  deriving DecidableEq

/-- The zero value `ID{}`. id.go:15-27. -/
def ID.zero : ID := ⟨zeroPublicKey, [], 0, []⟩

/-- id.go:30-33 `NewID`. -/
def newID (id : PublicKey) (host : IP) (port : UInt16) : ID :=
  ⟨id, host, port, joinHostPort (normalizeIP host) (dec port.toNat)⟩

/-- id.go:36-38 `Size`. -/
def ID.size (e : ID) : Nat := e.id.1.length + 16 + 2

/-- Go's `copy(dst, src)` on non-overlapping slices: the first `min (len dst) (len src)` bytes are overwritten. -/
def copyInto (dst src : Bytes) : Bytes := src.take dst.length ++ dst.drop src.length

/-- id.go:52-60 `Marshal`: a zeroed buffer of `Size` bytes whose three sections are filled by `copy`, `copy` and `PutUint16`. -/
def ID.marshal (e : ID) : Bytes :=
  let buf := List.replicate e.size (0 : UInt8)
  let n := e.id.1.length
  copyInto (buf.take n) e.id.1 ++ copyInto ((buf.drop n).take 16) e.host ++ put16 e.port ++ buf.drop (n + 18)

/-- An array of 32 bytes filled by `copy(id[:], b)`. id.go:64-90, client.go:417-418. -/
def keyOf (b : Bytes) : PublicKey :=
  ⟨copyInto (List.replicate 32 0) b, by simp [copyInto]; omega⟩

/-- id.go:64-90 `UnmarshalID`. -/
def unmarshalID (buf : Bytes) : Res ID :=
  if buf.length < 32 then .err .unexpectedEOF
  else do
    let k ← slice buf 0 32
    let id := keyOf k
    let buf ← slice buf 32 buf.length
    if buf.length < 16 then .err .unexpectedEOF
    else do
      let h ← slice buf 0 16
      let host := copyInto (List.replicate 16 0) h
      let buf ← slice buf 16 buf.length
      if buf.length < 2 then .err .unexpectedEOF
      else do
        let p ← slice buf 0 2
        let port ← get16 p
        pure (newID id host port)

/-- `hex.EncodeToString`. keys.go:87-109. -/
def hexEncode (b : Bytes) : Text := Spec.hex b

/-- id.go:41-49 `String`. -/
def ID.string (e : ID) : Text :=
  "{\"public_key\": \"".toList ++ hexEncode e.id.1 ++ "\", \"address\": \"".toList ++ e.address ++ "\"}".toList

end Noise
