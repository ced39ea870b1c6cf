import Verif.Model.Ident
/-! # Words for the properties of gossip -/
namespace Noise.Spec

/-- How often `data` occurs in a log of (peer, data). -/
def times (log : List (ID × Bytes)) (data : Bytes) : Nat := (log.filter fun e => e.2 == data).length

/-- How often `data` occurs in a log for the peer with this key. -/
def timesTo (log : List (ID × Bytes)) (k : PublicKey) (data : Bytes) : Nat := (log.filter fun e => e.1.id == k && e.2 == data).length

/-- `k` is reachable from `k0` by following tables. -/
inductive Linked (tables : List (PublicKey × List PublicKey)) (k0 : PublicKey) : PublicKey → Prop
  | refl : Linked tables k0 k0
  | step {k k' : PublicKey} {t : List PublicKey} : Linked tables k0 k → (k, t) ∈ tables → k' ∈ t → Linked tables k0 k'

end Noise.Spec
