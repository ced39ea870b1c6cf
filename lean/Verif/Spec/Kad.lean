import Verif.Spec.Bytes
/-! # Specification vocabulary: common prefixes of keys -/
namespace Noise.Spec

/-- The number of leading bits in which two byte strings agree (at most all bits of the first). -/
def commonPrefix (a b : List UInt8) : Nat := ((List.range (8 * a.length)).takeWhile fun i => bitAt a i == bitAt b i).length

end Noise.Spec
