/-! # Runs of a transition system given by a partial step function -/
namespace Noise

/-- Run a sequence of actions; `none` if one of them is not enabled. Not in the code. -/
def runs {S A : Type} (step : S → A → Option S) : S → List A → Option S
  | s, [] => some s
  | s, a :: as => match step s a with
    | some s' => runs step s' as
    | none => none

/-- `s` is reachable from `s0` by some finite sequence of actions. Not in the code. -/
def ReachFrom {S A : Type} (step : S → A → Option S) (s0 s : S) : Prop := ∃ as, runs step s0 as = some s

end Noise
