import Verif.Model.Ident
/-! # What a lookup can discover -/
namespace Noise.Spec
open Noise

/-- Identities a search by the node `self` for `target` gets to know: its own peers, and whoever is named in the answer of one it knows, except for itself and the target.
`answers p res`: `p` answers with the list `res`. -/
inductive Discovered (self target : PublicKey) (peers : List ID) (answers : ID → List ID → Prop) : ID → Prop
  | peer {e : ID} : e ∈ peers → Discovered self target peers answers e
  | answer {p e : ID} {res : List ID} : Discovered self target peers answers p → answers p res → e ∈ res → e.id ≠ self → e.id ≠ target → Discovered self target peers answers e

end Noise.Spec
