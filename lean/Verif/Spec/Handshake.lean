import Verif.Model.Ident
/-! # What the two handshake messages are, stated without the code that builds or checks them -/
namespace Noise.Spec

/-- The ASCII codes of `.__noise_handshake`. -/
def label : Bytes := [46, 95, 95, 110, 111, 105, 115, 101, 95, 104, 97, 110, 100, 115, 104, 97, 107, 101]

/-- The 50 bytes that describe a peer on the wire: key, 16-byte host, port (most significant byte first). -/
def Describes (x : ID) (b : Bytes) : Prop :=
  x.host.length = 16 ∧ b = x.id.1 ++ x.host ++ [UInt8.ofNat (x.port.toNat / 256), UInt8.ofNat (x.port.toNat % 256)] ∧
    x.address = joinHostPort (normalizeIP x.host) (dec x.port.toNat)

/-- A first message of the ephemeral key `k`: the key and a signature of the label that verifies under it. -/
def FirstMessage (verify : PublicKey → Bytes → Signature → Bool) (k : PublicKey) (m : Bytes) : Prop :=
  ∃ sig : Signature, m = k.1 ++ sig.1 ∧ verify k label sig = true

/-- A second message of the peer `x` in the session with key `shared`: the description of `x`, and a signature by the key of `x` over that
description and `shared`. -/
def SecondMessage (verify : PublicKey → Bytes → Signature → Bool) (shared : Bytes) (x : ID) (m : Bytes) : Prop :=
  ∃ (b : Bytes) (sig : Signature), Describes x b ∧ m = b ++ sig.1 ∧ verify x.id (b ++ shared) sig = true

end Noise.Spec
