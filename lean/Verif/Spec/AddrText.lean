import Verif.Spec.Endpoint
/-!
# Specification vocabulary: how an endpoint is written

RFC 5952 (IPv6) and RFC 3986 (brackets), in terms of Lean's own `Nat.toDigits` and `List.intercalate`.
-/
namespace Noise.Spec

/-- The numbers of two bytes each that an address of 16 bytes consists of. -/
def words : List UInt8 → List Nat
  | a :: b :: r => (256 * a.toNat + b.toNat) :: words r
  | _ => []

/-- Places `a` to `b - 1` of the list are zeros. -/
def ZerosAt (g : List Nat) (a b : Nat) : Prop := a < b ∧ b ≤ g.length ∧ ∀ i, a ≤ i → i < b → g[i]? = some 0

/-- Lower-case hexadecimal numbers without leading zeros, between colons. -/
def colons (g : List Nat) : List Char := List.intercalate [':'] (g.map (Nat.toDigits 16))

/-- Decimal numbers without leading zeros, between dots. -/
def dotted (b : List UInt8) : List Char := List.intercalate ['.'] (b.map fun x => Nat.toDigits 10 x.toNat)

/-- RFC 5952: the longest run of zeros, the first one if there are several, is written as two colons, unless there is no run of two or more. -/
inductive Text6 (g : List Nat) : List Char → Prop where
  | plain (h : ∀ a b, ZerosAt g a b → b ≤ a + 1) : Text6 g (colons g)
  | short (a b : Nat) (h : ZerosAt g a b) (two : a + 2 ≤ b) (longest : ∀ c d, ZerosAt g c d → d - c ≤ b - a ∧ (d - c = b - a → a ≤ c)) :
      Text6 g (colons (g.take a) ++ [':', ':'] ++ colons (g.drop b))

/-- The address of a host and port: an IPv6 host in brackets, an IPv4 host as it is, a host that means nothing to others left out. -/
inductive AddrText (h : List UInt8) (p : Nat) : List Char → Prop where
  | nowhere (hn : nowhere h) : AddrText h p (':' :: Nat.toDigits 10 p)
  | v4 (b : List UInt8) (hn : ¬ Spec.nowhere h) (hb : b.length = 4) (hc : canonicalHost h = mappedPrefix ++ b) : AddrText h p (dotted b ++ ':' :: Nat.toDigits 10 p)
  | v6 (t : List Char) (hn : ¬ Spec.nowhere h) (hl : h.length = 16) (hc : ∀ b, h ≠ mappedPrefix ++ b) (ht : Text6 (words h) t) : AddrText h p ('[' :: t ++ [']', ':'] ++ Nat.toDigits 10 p)

end Noise.Spec
