/-!
# Specification vocabulary: byte strings as numbers

Nothing here refers to the model. These are the plain mathematical notions used in property statements.
-/
namespace Noise.Spec

/-- The natural number a byte string denotes in big-endian (network) order. -/
def beVal (b : List UInt8) : Nat := b.foldl (fun acc x => 256 * acc + x.toNat) 0

/-- The natural number a byte string denotes in little-endian order. -/
def leVal : List UInt8 → Nat
  | [] => 0
  | x :: r => x.toNat + 256 * leVal r

/-- Bit `i` of a byte string, counted from the most significant bit of the first byte; `false` past the end. -/
def bitAt (b : List UInt8) (i : Nat) : Bool :=
  match b[i / 8]? with
  | some x => x.toNat.testBit (7 - i % 8)
  | none => false

/-- XOR distance of two byte strings read as big-endian integers. -/
def dist (a b : List UInt8) : Nat := beVal a ^^^ beVal b

/-- Lower-case hexadecimal digit of a number below 16. -/
def hexDigit (n : Nat) : Char := "0123456789abcdef".toList.getD n '?'

/-- Lower-case hexadecimal text of a byte string: two digits per byte. -/
def hex (b : List UInt8) : List Char := b.flatMap fun x => [hexDigit (x.toNat / 16), hexDigit (x.toNat % 16)]

end Noise.Spec
