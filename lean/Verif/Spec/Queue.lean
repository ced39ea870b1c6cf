import Verif.Model.Queue
import Verif.Spec.Connection
/-! # Specification vocabulary: the messages of a node's connections on their way to the handlers -/
namespace Noise.Spec
variable {ε : Type}

/-- The messages of connection number `i` among these. -/
def ofConn (i : Nat) (l : List (Nat × Message)) : List Message := l.filterMap fun p => if p.1 = i then some p.2 else none

/-- A call of `Request` has not returned a message. -/
def unanswered (c : Cl.State ε) (k : Nat) : Prop := ∃ r : Cl.Call, c.calls[k]? = some r ∧ ∀ m, r.st ≠ .returned m

end Noise.Spec
