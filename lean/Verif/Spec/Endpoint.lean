/-!
# Specification vocabulary: network endpoints

A host is given as a byte string of 0 (no host), 4 (IPv4) or 16 (IPv6) bytes. Two hosts name the same machine to a remote dialer when
their 16-byte forms agree; hosts that mean "this machine" or "any interface" carry no information for a remote dialer.
-/
namespace Noise.Spec

/-- ::ffff:0:0/96, the IPv4-mapped prefix. -/
def mappedPrefix : List UInt8 := [0, 0, 0, 0, 0, 0, 0, 0, 0, 0, 0xff, 0xff]

/-- The 16-byte form of a host. -/
def canonicalHost (h : List UInt8) : List UInt8 := if h.length = 4 then mappedPrefix ++ h else h

/-- No host, 127.0.0.0/8, ::1, 0.0.0.0 or ::. -/
def nowhere (h : List UInt8) : Prop :=
  h = [] ∨ canonicalHost h = List.replicate 15 0 ++ [1] ∨ canonicalHost h = List.replicate 16 0 ∨
  canonicalHost h = mappedPrefix ++ [0, 0, 0, 0] ∨ ∃ a b c, canonicalHost h = mappedPrefix ++ [127, a, b, c]

/-- The two hosts are the same for the purpose of addressing. -/
def sameHost (h1 h2 : List UInt8) : Prop := (nowhere h1 ∧ nowhere h2) ∨ (¬ nowhere h1 ∧ ¬ nowhere h2 ∧ canonicalHost h1 = canonicalHost h2)

/-- A host of a length that `net.IP` gives meaning to. -/
def validHost (h : List UInt8) : Prop := h.length = 0 ∨ h.length = 4 ∨ h.length = 16

end Noise.Spec
