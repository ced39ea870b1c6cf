/-! # Specification vocabulary: configuration by a list of options -/
namespace Noise.Spec

/-- The last value that the options give to a setting; `sel` tells which value, if any, an option gives to it. -/
def lastSetting {O β : Type} (sel : O → Option β) (default : β) (opts : List O) : β := ((opts.filterMap sel).getLast?).getD default

/-- Zero stands for `d`. -/
def orElse (d n : Nat) : Nat := if n = 0 then d else n

end Noise.Spec
