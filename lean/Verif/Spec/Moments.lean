import Verif.Model.TS
/-! # Moments of an execution -/
namespace Noise.Spec

/-- The execution that starts in `s0` and does `as` has a moment at which `P` holds, of the state of that moment and of what is done from then on. -/
def Once {S A : Type} (step : S → A → Option S) (s0 : S) (as : List A) (P : S → List A → Prop) : Prop :=
  ∃ xs ys s, as = xs ++ ys ∧ runs step s0 xs = some s ∧ P s ys

end Noise.Spec
