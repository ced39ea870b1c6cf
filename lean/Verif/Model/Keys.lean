import Verif.Model.Ident
/-! # keys.go (Ed25519 itself is abstract, see `Model/Crypto.lean`) -/
namespace Noise

/-- `hex.fromHexChar`. keys.go:64. -/
def fromHexChar (c : Char) : Option Nat :=
  if '0' ≤ c ∧ c ≤ '9' then some (c.toNat - '0'.toNat)
  else if 'a' ≤ c ∧ c ≤ 'f' then some (c.toNat - 'a'.toNat + 10)
  else if 'A' ≤ c ∧ c ≤ 'F' then some (c.toNat - 'A'.toNat + 10)
  else none

/-- `hex.DecodeString` (Go 1.13): pairs of digits; a bad digit gives InvalidByteError, an odd length ErrLength. Both are
reported as `Err.hexDecode`; the code under study only wraps them. A string is a list of characters; a character outside ASCII is a
bad digit, as its bytes are in Go. -/
def hexDecode : Text → Res Bytes
  | [] => .ok []
  | [_] => .err .hexDecode
  | a :: b :: r =>
    match fromHexChar a, fromHexChar b with
    | some x, some y =>
      match hexDecode r with
      | .ok t => .ok (UInt8.ofNat (16 * x + y) :: t)
      | .err e => .err e
      | .panic => .panic
    | _, _ => .err .hexDecode

/-- keys.go:63-79 `LoadKeysFromHex`: the returned key together with the error, if any. -/
def loadKeysFromHex (secretHex : Text) : PrivateKey × Option Err :=
  match hexDecode secretHex with
  | .err e => (zeroPrivateKey, some e)
  | .panic => (zeroPrivateKey, none)
  | .ok secret =>
    if h : secret.length ≠ 64 then (zeroPrivateKey, some .unexpectedEOF)
    else (⟨copyInto (List.replicate 64 0) secret, by simp [copyInto]; omega⟩, none)

/-- keys.go:102-104 (and 87-89, 120-122) `String`. -/
def keyString (b : Bytes) : Text := hexEncode b

/-- keys.go:92-94, 107-109, 125-127 `MarshalJSON`: `json.Marshal` of a string of hex digits (no character needs escaping). -/
def keyJSON (b : Bytes) : Text := '"' :: keyString b ++ ['"']

/-- keys.go:131-134 `UnmarshalSignature`: the bounds check `data[63]`, then a 64-byte load from the start of the slice. -/
def unmarshalSignature (data : Bytes) : Res Signature :=
  if h : 63 < data.length then .ok ⟨data.take 64, by simp; omega⟩ else .panic

end Noise
