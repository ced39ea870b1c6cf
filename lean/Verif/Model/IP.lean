import Verif.Spec.Bytes
import Verif.Model.Basic
/-!
# net.IP printing and classification, addr.go

`net.IP` values are byte slices; `nil` is the empty list. The functions of package `net` follow Go 1.13's `net/ip.go` and
`net/ipsock.go`; the functions of addr.go follow the repository. `net.ResolveTCPAddr` itself (name resolution) is not modelled; see
`Model/NodeCfg.lean`.
-/
namespace Noise
open Spec (hexDigit)

/-- A Go string, as its characters; id.go:18-27, addr.go:29-38. -/
abbrev Text := List Char
/-- `net.IP`: id.go:15-27, addr.go:10-38. -/
abbrev IP := Bytes

/-- Digits of `n` in base `b` without leading zeros, at least one digit (strconv.FormatUint for b = 10,
net.appendHex for b = 16, net.ubtoa for b = 10). id.go:31, node.go:122, 137. -/
def digits (b : Nat) (hb : 2 ≤ b) (n : Nat) : Text :=
  if n < b then [hexDigit n] else digits b hb (n / b) ++ [hexDigit (n % b)]
termination_by n
decreasing_by exact Nat.div_lt_self (by omega) (by omega)

/-- `strconv.FormatUint(n, 10)`. id.go:31, node.go:122, 137. -/
def dec (n : Nat) : Text := digits 10 (by omega) n
/-- `net.appendHex`. Go's net/ip.go; used at addr.go:32. -/
def hexNat (n : Nat) : Text := digits 16 (by omega) n

/-- `net.v4InV6Prefix`. Go's net/ip.go; used at addr.go:32, id.go:64-90. -/
def v4InV6Prefix : Bytes := [0, 0, 0, 0, 0, 0, 0, 0, 0, 0, 0xff, 0xff]

/-- `net.IP.To4`: `none` is the nil result. Go's net/ip.go; used at id.go:52-60. -/
def to4 (ip : IP) : Option Bytes :=
  if ip.length = 4 then some ip
  else if ip.length = 16 ∧ ip.take 12 = v4InV6Prefix then some (ip.drop 12)
  else none

/-- `net.IP.Equal`. Go's net/ip.go; used at addr.go:22. -/
def ipEqual (a b : IP) : Bool :=
  if a.length = b.length then a == b
  else if a.length = 4 ∧ b.length = 16 then b.take 12 == v4InV6Prefix && a == b.drop 12
  else if a.length = 16 ∧ b.length = 4 then a.take 12 == v4InV6Prefix && a.drop 12 == b
  else false

/-- `net.IPv6loopback`. Go's net/ip.go; used at addr.go:22. -/
def ipv6loopback : IP := [0, 0, 0, 0, 0, 0, 0, 0, 0, 0, 0, 0, 0, 0, 0, 1]
/-- `net.IPv6unspecified`. Go's net/ip.go; used at addr.go:22. -/
def ipv6unspecified : IP := List.replicate 16 0
/-- `net.IPv4zero` (16-byte form, as built by `net.IPv4(0,0,0,0)`). Go's net/ip.go; used at addr.go:22. -/
def ipv4zero : IP := v4InV6Prefix ++ [0, 0, 0, 0]

/-- `net.IP.IsLoopback`. addr.go:22. -/
def isLoopback (ip : IP) : Bool :=
  match to4 ip with
  | some ip4 => ip4.head? == some 127
  | none => ipEqual ip ipv6loopback

/-- `net.IP.IsUnspecified`. addr.go:22. -/
def isUnspecified (ip : IP) : Bool := ipEqual ip ipv4zero || ipEqual ip ipv6unspecified

/-- Texts joined by a separator character. Not in the code: part of `net.IP.String`, addr.go:32. -/
def joinWith (c : Char) : List Text → Text
  | [] => []
  | [t] => t
  | t :: ts => t ++ c :: joinWith c ts

/-- The eight 16-bit groups of a 16-byte address: `(uint32(p[i])<<8)|uint32(p[i+1])`. Go's net/ip.go; used at addr.go:32. -/
def groups : Bytes → List Nat
  | a :: b :: r => (a.toNat * 256 + b.toNat) :: groups r
  | _ => []

/-- First index `≥ j` whose group is not zero (inner loop of `IP.String` that finds a run of zeros). Go's net/ip.go; used at addr.go:32. -/
def runEnd (g : List Nat) (j : Nat) : Nat := j + ((g.drop j).takeWhile (· == 0)).length

/-- The loop of `IP.String` that finds the longest run of zero groups; `r` is `(e0, e1)`, `none` for `(-1, -1)`. Go's net/ip.go; used at addr.go:32. -/
def scanRuns (g : List Nat) : Nat → Nat → Option (Nat × Nat) → Option (Nat × Nat)
  | 0, _, r => r
  | fuel + 1, i, r =>
    if i < g.length then
      let j := runEnd g i
      let w := match r with | none => 0 | some (a, b) => b - a
      if i < j ∧ w < j - i then scanRuns g fuel (j + 1) (some (i, j)) else scanRuns g fuel (i + 1) r
    else r

/-- `(e0, e1)` after "The symbol '::' MUST NOT be used to shorten just one 16 bit 0 field". Go's net/ip.go; used at addr.go:32. -/
def zeroRun (g : List Nat) : Option (Nat × Nat) :=
  match scanRuns g (g.length + 1) 0 none with
  | some (a, b) => if b - a ≤ 1 then none else some (a, b)
  | none => none

/-- The 16-byte branch of `net.IP.String`. The printing loop emits the groups before the run joined by ':', then "::", then the
groups after the run joined by ':' (simplification: written as a closed form instead of the index loop). Go's net/ip.go; used at addr.go:32. -/
def ipv6Text (ip : Bytes) : Text :=
  let g := groups ip
  match zeroRun g with
  | none => joinWith ':' (g.map hexNat)
  | some (a, b) => joinWith ':' ((g.take a).map hexNat) ++ [':', ':'] ++ joinWith ':' ((g.drop b).map hexNat)

/-- `net.IP.String`. addr.go:32. -/
def ipString (ip : IP) : Text :=
  if ip.length = 0 then "<nil>".toList
  else match to4 ip with
    | some p4 => joinWith '.' (p4.map fun x => dec x.toNat)
    | none => if ip.length ≠ 16 then '?' :: Spec.hex ip else ipv6Text ip

/-- addr.go:21-27 `resolveIP`. -/
def resolveIP (ip : IP) : IP := if isLoopback ip || isUnspecified ip then [] else ip

/-- addr.go:29-38 `normalizeIP`. -/
def normalizeIP (ip : IP) : Text :=
  let str := ipString (resolveIP ip)
  if str = "<nil>".toList then [] else str

/-- `net.JoinHostPort`: brackets are added when the host contains a colon or a percent sign. id.go:31, node.go:122, 137. -/
def joinHostPort (host port : Text) : Text :=
  if ':' ∈ host ∨ '%' ∈ host then '[' :: host ++ [']', ':'] ++ port else host ++ ':' :: port

end Noise
