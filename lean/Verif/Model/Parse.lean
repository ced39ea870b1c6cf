import Verif.Model.Ident
import Verif.Model.Keys
/-!
# Parsing of addresses: `net.SplitHostPort`, `net.ParseIP`, `strconv.ParseUint`

Used by node.go:131-176 and, implicitly, by every dial of an address. The functions follow Go 1.13 (`net/ipsock.go`, `net/ip.go`, `net/parse.go`,
`strconv/atoi.go`). Errors are collapsed to `none`; strings are lists of characters (bytes in Go; all separators and digits are ASCII).
-/
namespace Noise

/-- The decimal digit values of `net.dtoi`. Go's net/parse.go; used at node.go:152. -/
def fromDecChar (c : Char) : Option Nat := if '0' ≤ c ∧ c ≤ '9' then some (c.toNat - '0'.toNat) else none

/-- The loop of `net.dtoi` / `net.xtoi`: read digits while they last; `none` when the number reaches `big = 0xFFFFFF`. Go's net/parse.go; used at node.go:152. -/
def toiLoop (val : Char → Option Nat) (b : Nat) : Nat → Text → Option (Nat × Text)
  | n, [] => some (n, [])
  | n, c :: cs => match val c with
    | none => some (n, c :: cs)
    | some d => if n * b + d ≥ 0xFFFFFF then none else toiLoop val b (n * b + d) cs

/-- `net.dtoi` / `net.xtoi`: the number and the rest of the text; at least one digit. Go's net/parse.go; used at node.go:152. -/
def toi (val : Char → Option Nat) (b : Nat) (s : Text) : Option (Nat × Text) :=
  match s with
  | [] => none
  | c :: _ => if (val c).isSome then toiLoop val b 0 s else none

/-- Go's `net.dtoi`; used at node.go:152. -/
def dtoi : Text → Option (Nat × Text) := toi fromDecChar 10
/-- `net.xtoi` accepts digits of both cases, as `hex.fromHexChar` does. Go's net/parse.go; used at node.go:152. -/
def xtoi : Text → Option (Nat × Text) := toi fromHexChar 16

/-- The loop of `net.parseIPv4` for the `k` bytes that remain, `first` telling whether no dot is expected. Go's net/ip.go; used at node.go:152. -/
def v4Loop : Nat → Bool → Text → Option Bytes
  | 0, _, s => if s = [] then some [] else none
  | k + 1, first, s =>
    match (if first then some s else match s with | '.' :: r => some r | _ => none) with
    | none => none
    | some s => match dtoi s with
      | none => none
      | some (n, r) => if n > 0xFF then none else (v4Loop k false r).map (UInt8.ofNat n :: ·)

/-- `net.parseIPv4`: the four bytes (the code returns them in 16-byte form). Go's net/ip.go; used at node.go:152. -/
def parseIPv4 (s : Text) : Option Bytes := v4Loop 4 true s

/-- The loop of `net.parseIPv6`; the first argument is the number of groups for which there is still room. Returns the bytes read, the position of the
ellipsis and the rest of the text. Go's net/ip.go; used at node.go:152. -/
def v6Loop : Nat → Bytes → Option Nat → Text → Option (Bytes × Option Nat × Text)
  | 0, acc, e, s => some (acc, e, s)
  | k + 1, acc, e, s =>
    match xtoi s with
    | none => none
    | some (n, r) =>
      if n > 0xFFFF then none
      else match r with
        | [] => some (acc ++ [UInt8.ofNat (n / 256), UInt8.ofNat n], e, [])
        | '.' :: _ =>
          if e = none ∧ acc.length ≠ 12 then none
          else if acc.length + 4 > 16 then none
          else (parseIPv4 s).map fun p4 => (acc ++ p4, e, [])
        | ':' :: [] => none
        | ':' :: ':' :: r =>
          if e.isSome then none
          else if r = [] then some (acc ++ [UInt8.ofNat (n / 256), UInt8.ofNat n], some (acc.length + 2), [])
          else v6Loop k (acc ++ [UInt8.ofNat (n / 256), UInt8.ofNat n]) (some (acc.length + 2)) r
        | ':' :: r => v6Loop k (acc ++ [UInt8.ofNat (n / 256), UInt8.ofNat n]) e r
        | _ => none

/-- The end of `net.parseIPv6`: the whole text was used; the ellipsis is expanded. Go's net/ip.go; used at node.go:152. -/
def v6Finish : Bytes × Option Nat × Text → Option Bytes
  | (acc, e, s) =>
    if s ≠ [] then none
    else if acc.length < 16 then match e with
      | none => none
      | some i => some (acc.take i ++ List.replicate (16 - acc.length) 0 ++ acc.drop i)
    else if e.isSome then none
    else some acc

/-- `net.parseIPv6`. Go's net/ip.go; used at node.go:152. -/
def parseIPv6 : Text → Option Bytes
  | ':' :: ':' :: [] => some (List.replicate 16 0)
  | ':' :: ':' :: s => (v6Loop 8 [] (some 0) s).bind v6Finish
  | s => (v6Loop 8 [] none s).bind v6Finish

/-- `net.ParseIP`: the first dot or colon decides. The result is in 16-byte form. node.go:152. -/
def parseIP (s : Text) : Option IP :=
  match s.find? (fun c => c = '.' || c = ':') with
  | some '.' => (parseIPv4 s).map (v4InV6Prefix ++ ·)
  | some _ => parseIPv6 s
  | none => none

/-- Split at the first occurrence of `c`. Not in the code: part of `net.SplitHostPort`, node.go:146. -/
def cutFirst (c : Char) : Text → Option (Text × Text)
  | [] => none
  | x :: xs => if x = c then some ([], xs) else (cutFirst c xs).map fun p => (x :: p.1, p.2)

/-- Split at the last occurrence of `c`. Not in the code: part of `net.SplitHostPort`, node.go:146. -/
def cutLast (c : Char) : Text → Option (Text × Text)
  | [] => none
  | x :: xs => match cutLast c xs with
    | some (a, b) => some (x :: a, b)
    | none => if x = c then some ([], xs) else none

/-- `net.SplitHostPort`. node.go:146. -/
def splitHostPort (s : Text) : Option (Text × Text) :=
  match cutLast ':' s with
  | none => none
  | some (pre, port) =>
    if s.head? = some '[' then
      match cutFirst ']' s with
      | none => none
      | some (br, after) =>
        if after = [] then none
        else if br.length + 1 ≠ pre.length then none
        else if '[' ∈ s.drop 1 then none
        else if ']' ∈ after then none
        else some (br.drop 1, port)
    else if ':' ∈ pre then none
    else if '[' ∈ s then none
    else if ']' ∈ s then none
    else some (pre, port)

/-- One round of the loop of `strconv.ParseUint` in base 10. node.go:158. -/
def decStep : Option Nat → Char → Option Nat
  | some n, c => (fromDecChar c).map (n * 10 + ·)
  | none, _ => none

/-- `strconv.ParseUint(s, 10, 16)`. node.go:158. -/
def parseUint16 (s : Text) : Option UInt16 :=
  if s = [] then none
  else match s.foldl decStep (some 0) with
    | some n => if n ≤ 65535 then some (UInt16.ofNat n) else none
    | none => none

end Noise
