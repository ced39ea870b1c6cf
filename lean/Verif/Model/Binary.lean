import Verif.Model.Ident
/-! # kademlia/binary.go -/
namespace Noise

/-- kademlia/binary.go:11-23 `XOR`: the first argument itself if the lengths differ. -/
def xorBytes (a b : Bytes) : Bytes := if a.length ≠ b.length then a else List.zipWith (· ^^^ ·) a b

/-- `bits.LeadingZeros8`: 8 minus the number of significant bits. kademlia/binary.go:46-54. -/
def leadingZeros8 (b : UInt8) : Nat := 8 - (if b = 0 then 0 else Nat.log2 b.toNat + 1)

/-- `bits.OnesCount8`. kademlia/binary.go:26-43. -/
def onesCount8 (b : UInt8) : Nat := ((List.range 8).filter fun i => b.toNat.testBit i).length

/-- kademlia/binary.go:29-40, the loop of `PrefixDiff` from index `i`. -/
def prefixDiffLoop (n : Int) : Nat → Bytes → Nat → Nat
  | _, [], total => total
  | i, b :: rest, total =>
    if 8 * (i : Int) ≥ n then total
    else
      let b := if n > 8 * (i : Int) ∧ n < 8 * ((i : Int) + 1) then b >>> UInt8.ofNat (8 - (n % 8).toNat) else b
      prefixDiffLoop n (i + 1) rest (total + onesCount8 b)

/-- kademlia/binary.go:26-43 `PrefixDiff`. -/
def prefixDiff (a b : Bytes) (n : Int) : Nat := prefixDiffLoop n 0 (xorBytes a b) 0

/-- kademlia/binary.go:47-51, the loop of `PrefixLen` from index `i`; `none`: the loop ended. -/
def prefixLenLoop : Nat → Bytes → Option Nat
  | _, [] => none
  | i, b :: rest => if b ≠ 0 then some (i * 8 + leadingZeros8 b) else prefixLenLoop (i + 1) rest

/-- kademlia/binary.go:46-54 `PrefixLen`. -/
def prefixLen (a : Bytes) : Nat := (prefixLenLoop 0 a).getD (a.length * 8)

/-- `bytes.Compare(a, b) == -1`: lexicographic order, a proper prefix being smaller. kademlia/binary.go:57-63. -/
def bytesLt : Bytes → Bytes → Bool
  | [], [] => false
  | [], _ :: _ => true
  | _ :: _, [] => false
  | x :: a, y :: b => if x < y then true else if y < x then false else bytesLt a b

/-- What is assumed about `sort.Slice`: the result is a permutation, and it is ordered if the comparison is a strict weak order (that is what the documentation of the
package `sort` promises; the order of equivalent elements is not specified). -/
structure Sorter where
  sort : (ID → ID → Bool) → List ID → List ID
  perm : ∀ less l, (sort less l).Perm l
  sorted : ∀ less l, (∀ x, less x x = false) → (∀ x y z, less x y = true → less y z = true → less x z = true) →
    (∀ x y z, less x y = false → less y z = false → less x z = false) → (sort less l).Pairwise fun x y => less y x = false

/-- kademlia/binary.go:58-60: the comparison of `SortByDistance`. -/
def closer (id : PublicKey) (x y : ID) : Bool := bytesLt (xorBytes x.id.1 id.1) (xorBytes y.id.1 id.1)

/-- kademlia/binary.go:57-63 `SortByDistance`. -/
def sortByDistance (S : Sorter) (id : PublicKey) (ids : List ID) : List ID := S.sort (closer id) ids

end Noise
