import Verif.Model.Frame
import Verif.Model.Keys
/-!
# The cryptographic primitives that keys.go, ecdh.go and client.go call, as parameters of the model

Ed25519 (keys.go:32-60, 82-84, 112-118), X25519 (ecdh.go:52-59) and AES-256-GCM (client.go:439-451) come from libraries that are not part of
the repository. They are parameters here; `Crypto.Lawful` is the complete list of what theorems about honest runs assume of them.
The arithmetic that ecdh.go does itself is modelled in `Model/Ecdh.lean`.
-/
namespace Noise

/-- A session key: the 32 bytes returned by `x25519.X25519` (ecdh.go:53). -/
abbrev SharedKey := { l : Bytes // l.length = 32 }

/-- The primitives. `pub` is keys.go:82-84 `Public` (and the first result of `GenerateKeys`), `sign` is keys.go:97-99 `Sign`, `verify` is
keys.go:112-114 `Verify`, `ecdh` is ecdh.go:52-59 `ECDH` (`none`: the library returned an error), `gcm` is client.go:439-451. -/
structure Crypto where
  pub : PrivateKey → PublicKey
  sign : PrivateKey → Bytes → Signature
  verify : PublicKey → Bytes → Signature → Bool
  ecdh : PrivateKey → PublicKey → Option SharedKey
  gcm : SharedKey → AEAD
  /-- keys that `ed25519.GenerateKey` can return (the second half of a private key is then the public key of the first half) -/
  generated : PrivateKey → Prop

/-- What correct primitives satisfy. `ecdh_some`: a generated public key has prime order and a clamped scalar is not a multiple of that
order, so that the all-zero output, which the library rejects, does not occur between generated keys. Not in the code: an assumption about crypto/ed25519, curve25519 and AES as used at keys.go:48-134 and ecdh.go:52-59. -/
structure Crypto.Lawful (C : Crypto) : Prop where
  verify_sign : ∀ k m, C.generated k → C.verify (C.pub k) m (C.sign k m) = true
  ecdh_comm : ∀ a b, C.generated a → C.generated b → C.ecdh a (C.pub b) = C.ecdh b (C.pub a)
  ecdh_some : ∀ a b, C.generated a → C.generated b → (C.ecdh a (C.pub b)).isSome
  gcm_ok : ∀ k, (C.gcm k).IsGCM

end Noise
