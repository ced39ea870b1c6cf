import Verif.Model.Crypto
/-! # client.go:380-514 `handshake` on one end of a connection, at the level of bytes

The handshake talks to one peer over one ordered byte stream and touches nothing else, so its outcome is a function of the node's keys and
ID, of the random choices, and of the bytes that arrive. How the client as a whole uses the outcome is in `Model/Client.lean`.
-/
namespace Noise

/-- The ASCII bytes of `.__noise_handshake` (client.go:393, 422). -/
def handshakeText : Bytes := ".__noise_handshake".toUTF8.data.toList

/-- What the handshake depends on. client.go:380-515. -/
structure HsIn where
  /-- client.go:385 `GenerateKeys(nil)`: the ephemeral private key, or `none` if the source of randomness failed -/
  eph : Option PrivateKey
  /-- client.go:455 `c.node.id` -/
  id : ID
  /-- client.go:456 `c.node.privateKey`, used by `Sign` -/
  key : PrivateKey
  /-- the nonce drawn when the second message is encrypted (aead.go:34) -/
  rnd : Bytes
  /-- outcome of the two calls of `write` (client.go:395, 459): an error of the connection, if any -/
  write1 : Option Err
  write2 : Option Err
  /-- `maxRecvMessageSize` -/
  max : UInt32
  /-- the bytes that arrive on the connection, and the error the connection reports after them -/
  input : Bytes
  endErr : Err

/-- What the handshake leaves behind. client.go:380-515. -/
structure HsOut where
  /-- bytes handed to the connection; a failed `write` counts as nothing written (simplification: a prefix may have been) -/
  written : Bytes := []
  /-- client.go:451 `c.suite`, given by its key -/
  suite : Option SharedKey := none
  /-- client.go:497 `c.id`; `none` is the zero ID of a client that has not been authenticated -/
  id : Option ID := none
  /-- the error handed to `reportError`, if any -/
  err : Option Err := none
  panicked : Bool := false
  /-- bytes not yet read -/
  rest : Bytes := []
  /-- values given to the logger of the client (client.go:499-504): peer key, peer address and session key (the remote address of the
  connection is omitted) -/
  logged : List Text := []
  deriving DecidableEq

/-- Error values that the handshake makes up itself: no randomness, wrong length of the first message, bad signature in the first message,
no shared key, wrong length of the second message, bad signature in the second message. client.go:385-389. -/
def Err.noEntropy : Err := .other 100
/-- client.go:408-415. -/
def Err.hsLength1 : Err := .other 101
/-- client.go:422-425. -/
def Err.hsVerify1 : Err := .other 102
/-- client.go:430-434. -/
def Err.hsEcdh : Err := .other 103
/-- client.go:483-490. -/
def Err.hsLength2 : Err := .other 104
/-- client.go:492-495. -/
def Err.hsVerify2 : Err := .other 105

/-- client.go:393-395: the first message, an ephemeral public key and a signature by it. -/
def hsMsg1 (C : Crypto) (sec : PrivateKey) : Bytes := (C.pub sec).1 ++ (C.sign sec handshakeText).1

/-- client.go:455-457: the second message, the node's ID and the node's signature over the ID and the shared key. `Marshal` returns a slice
without spare capacity, so both `append`s copy. -/
def hsMsg2 (C : Crypto) (id : ID) (key : PrivateKey) (shared : SharedKey) : Bytes :=
  let buf := id.marshal
  buf ++ (C.sign key (buf ++ shared.1)).1

/-- client.go:402-434: what is done with the first message of the peer. -/
def hsCheck1 (C : Crypto) (sec : PrivateKey) (data : Bytes) : Res SharedKey :=
  if data.length ≠ 96 then .err .hsLength1
  else do
    let k ← slice data 0 32
    let peer := keyOf k
    let s ← slice data 32 96
    let sig ← unmarshalSignature s
    if !C.verify peer handshakeText sig then .err .hsVerify1
    else match C.ecdh sec peer with
      | none => .err .hsEcdh
      | some shared => pure shared

/-- client.go:472-495: what is done with the second message of the peer. -/
def hsCheck2 (C : Crypto) (shared : SharedKey) (data : Bytes) : Res ID := do
  let id ← unmarshalID data
  let buf := copyInto (List.replicate id.size 0) data
  if data.length ≠ buf.length + 64 then .err .hsLength2
  else do
    let s ← slice data buf.length (buf.length + 64)
    let sig ← unmarshalSignature s
    if !C.verify id.id (buf ++ shared.1) sig then .err .hsVerify2
    else pure id

/-- client.go:380-514 `handshake`, up to the callbacks. `aes.NewCipher` and `cipher.NewGCM` do not fail on a 32-byte key. -/
def handshake (C : Crypto) (i : HsIn) : HsOut :=
  match i.eph with
  | none => { err := some .noEntropy, rest := i.input }
  | some sec =>
    match i.write1 with
    | some e => { err := some e, rest := i.input }
    | none =>
      let w1 := frame none [] (hsMsg1 C sec)
      match readFrame i.max none i.input i.endErr with
      | .panic => { written := w1, panicked := true }
      | .err e => { written := w1, err := some e }
      | .ok (data, rest) =>
        match hsCheck1 C sec data with
        | .panic => { written := w1, panicked := true, rest := rest }
        | .err e => { written := w1, err := some e, rest := rest }
        | .ok shared =>
          match i.write2 with
          | some e => { written := w1, suite := some shared, err := some e, rest := rest }
          | none =>
            let w2 := frame (some (C.gcm shared)) i.rnd (hsMsg2 C i.id i.key shared)
            match readFrame i.max (some (C.gcm shared)) rest i.endErr with
            | .panic => { written := w1 ++ w2, suite := some shared, panicked := true }
            | .err e => { written := w1 ++ w2, suite := some shared, err := some e }
            | .ok (data, rest) =>
              match hsCheck2 C shared data with
              | .panic => { written := w1 ++ w2, suite := some shared, panicked := true, rest := rest }
              | .err e => { written := w1 ++ w2, suite := some shared, err := some e, rest := rest }
              | .ok id =>
                { written := w1 ++ w2, suite := some shared, id := some id, rest := rest,
                  logged := [keyString id.id.1, id.address, hexEncode shared.1] }

end Noise
