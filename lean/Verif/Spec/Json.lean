/-! # Specification vocabulary: JSON strings -/
namespace Noise.Spec

/-- A character that may stand for itself inside a JSON string literal (RFC 8259: anything but quote, backslash and controls). -/
def jsonSafe (c : Char) : Prop := c ≠ '"' ∧ c ≠ '\\' ∧ 0x20 ≤ c.toNat

/-- The sixteen digits of lower-case hexadecimal. -/
def lowerHex (c : Char) : Prop := c ∈ "0123456789abcdef".toList

/-- A hexadecimal digit in either case. -/
def anyHex (c : Char) : Prop := c ∈ "0123456789abcdefABCDEF".toList

end Noise.Spec
