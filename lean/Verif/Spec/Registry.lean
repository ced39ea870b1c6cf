import Verif.Model.Codec
/-!
# Specification vocabulary: which registrations are valid

`validRegs history` lists, oldest first, the registrations that must succeed: those with a decoder of the right type for a type that was not
validly registered before.
-/
namespace Noise.Spec
open Noise

/-- Process the calls from first to last, collecting the valid ones. -/
def validRegs (history : List (GoType × Decoder)) : List (GoType × Decoder) :=
  history.foldl (fun regs x => if x.2.ret = some x.1 ∧ x.1 ∉ regs.map Prod.fst then regs ++ [x] else regs) []

/-- The type a message is accounted to: a pointer counts as what it points to. -/
def messageType : GoType → GoType
  | .ptr t => t
  | t => t

end Noise.Spec
