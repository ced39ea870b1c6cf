import Verif.Model.Frame
/-!
# The source of AEAD nonces

aead.go:6 imports `math/rand`; aead.go:34 draws every nonce from its global generator. Nothing in the repository seeds that generator, and
with the Go versions of this code base (go.mod: go 1.13) an unseeded global generator behaves as if seeded by 1: every process produces
the same sequence. The generator is a parameter of the model.
-/
namespace Noise

/-- A deterministic generator: the state every process starts from, and `draw s n`, which yields `n` bytes and the next state. aead.go:34; Go's math/rand, whose global generator is not seeded by this code. -/
structure Prng where
  State : Type
  seed : State
  draw : State → Nat → Bytes × State

/-- `rand.Read(buf)` with `len(buf) = n` fills the whole buffer. aead.go:34. -/
def Prng.Full (g : Prng) : Prop := ∀ s n, (g.draw s n).1.length = n

/-- aead.go:28-39: the sequence of calls of `encryptAEAD` in one process, in the order in which they draw from the generator. A call is
(session key, suite for that key, plaintext); the result records (session key, nonce, plaintext) of each sealed frame. -/
def sealLog {K : Type} (g : Prng) (nonceSize : Nat) : g.State → List (K × Bytes) → List (K × Bytes × Bytes)
  | _, [] => []
  | s, (k, p) :: r =>
    let (n, s') := g.draw s nonceSize
    (k, n, p) :: sealLog g nonceSize s' r

end Noise
