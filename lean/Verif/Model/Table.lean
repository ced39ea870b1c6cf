import Verif.Model.Binary
/-!
# kademlia/table.go

Every method of `Table` holds the table's mutex for its whole duration, so a table is a value and its methods are functions. `container/list` is modelled by lists
(front first).
-/
namespace Noise

/-- kademlia/protocol.go:15 `BucketSize`. -/
def bucketSize : Nat := 16

/-- kademlia/table.go:11-17 `Table`. `entries` is an array of 256 buckets; a bucket index is below 256 by `Table.bucketIndex_lt`, so reading it never panics; entries of this
function at 256 and above are not used. -/
structure Table where
  entries : Nat → List ID
  self : ID
  size : Int

/-- kademlia/table.go:222-229 `getBucketIndex`. -/
def Table.bucketIndex (t : Table) (target : PublicKey) : Nat :=
  let l := prefixLen (xorBytes target.1 t.self.id.1)
  if l = 32 * 8 then l - 1 else l

/-- Assignment to one bucket. kademlia/table.go:67-151. -/
def Table.setBucket (t : Table) (i : Nat) (b : List ID) : Table := { t with entries := fun j => if j = i then b else t.entries j }

/-- kademlia/protocol.go:18 `ErrBucketFull`. -/
inductive BucketFull where
  | bucketFull
  deriving DecidableEq

/-- kademlia/table.go:67-93 `Update`. -/
def Table.update (t : Table) (target : ID) : Table × Except BucketFull Bool :=
  if target.id = zeroPublicKey then (t, .ok false)
  else
    let i := t.bucketIndex target.id
    let bucket := t.entries i
    match bucket.find? (fun e => e.id = target.id) with
    | some e => (t.setBucket i (e :: bucket.eraseP fun e => e.id = target.id), .ok false)
    | none =>
      if bucket.length < bucketSize then ({ t.setBucket i (target :: bucket) with size := t.size + 1 }, .ok true)
      else (t, .error .bucketFull)

/-- kademlia/table.go:21-33 `NewTable`; the panic at line 29 is `none`. -/
def newTable (self : ID) : Option Table :=
  match (Table.mk (fun _ => []) self 0).update self with
  | (t, .ok _) => some t
  | (_, .error _) => none

/-- kademlia/table.go:41-46 `Last`: `Back()` of an empty list is nil, and reading its value panics. -/
def Table.last (t : Table) (target : PublicKey) : Res ID :=
  match (t.entries (t.bucketIndex target)).getLast? with
  | some e => .ok e
  | none => .panic

/-- kademlia/table.go:48-61 `Bucket`. -/
def Table.bucket (t : Table) (target : PublicKey) : List ID := t.entries (t.bucketIndex target)

/-- kademlia/table.go:96-109 `Recorded`. -/
def Table.recorded (t : Table) (target : PublicKey) : Bool := (t.entries (t.bucketIndex target)).any fun e => e.id = target

/-- kademlia/table.go:113-130 `Delete`. -/
def Table.delete (t : Table) (target : PublicKey) : Table × ID × Bool :=
  let i := t.bucketIndex target
  let bucket := t.entries i
  match bucket.find? (fun e => e.id = target) with
  | some e => ({ t.setBucket i (bucket.eraseP fun e => e.id = target) with size := t.size - 1 }, e, true)
  | none => (t, ID.zero, false)

/-- kademlia/table.go:138-148: the loop of `DeleteByAddress` over the buckets from `i`, `n` of them left. -/
def Table.deleteByAddressLoop (t : Table) (target : Text) : Nat → Nat → Table × ID × Bool
  | _, 0 => (t, ID.zero, false)
  | i, n + 1 =>
    match (t.entries i).find? (fun e => e.address = target) with
    | some e => ({ t.setBucket i ((t.entries i).eraseP fun e => e.address = target) with size := t.size - 1 }, e, true)
    | none => t.deleteByAddressLoop target (i + 1) n

/-- kademlia/table.go:134-151 `DeleteByAddress`. -/
def Table.deleteByAddress (t : Table) (target : Text) : Table × ID × Bool := t.deleteByAddressLoop target 0 256

/-- kademlia/table.go:162-170: the function `f`. -/
def Table.others (t : Table) (target : PublicKey) (i : Nat) : List ID := (t.entries i).filter fun e => e.id ≠ target

/-- kademlia/table.go:179-187: the loop of `FindClosest`, from `i` with `closest` collected; at most `fuel` more rounds. It ends before `i` exceeds 256, so 256 rounds suffice. -/
def Table.findLoop (t : Table) (target : PublicKey) (k : Int) (idx : Nat) : Nat → Nat → List ID → List ID
  | 0, _, closest => closest
  | fuel + 1, i, closest =>
    if (closest.length : Int) < k ∧ (i ≤ idx ∨ idx + i < 256) then
      let closest := if i ≤ idx then closest ++ t.others target (idx - i) else closest
      let closest := if idx + i < 256 then closest ++ t.others target (idx + i) else closest
      t.findLoop target k idx fuel (i + 1) closest
    else closest

/-- kademlia/table.go:159-196 `FindClosest`. -/
def Table.findClosest (S : Sorter) (t : Table) (target : PublicKey) (k : Int) : Res (List ID) :=
  let idx := t.bucketIndex target
  let closest := sortByDistance S target (t.findLoop target k idx 256 1 (t.others target idx))
  if (closest.length : Int) > k then
    if k < 0 then .panic else .ok (closest.take k.toNat)
  else .ok closest

/-- kademlia/table.go:154-156 `Peers`. -/
def Table.peers (S : Sorter) (t : Table) : Res (List ID) := t.findClosest S t.self.id bucketSize

/-- kademlia/table.go:199-212 `Entries`. -/
def Table.all (t : Table) : List ID := (List.range 256).flatMap t.entries

/-- kademlia/table.go:215-220 `NumEntries`. -/
def Table.numEntries (t : Table) : Int := t.size

/-- A call of one of the methods that change a table. kademlia/table.go:67-151. -/
inductive TableOp where
  | update (e : ID)
  | delete (k : PublicKey)
  | deleteByAddress (a : Text)

/-- kademlia/table.go:67-151: the effect of a call. -/
def Table.apply (t : Table) : TableOp → Table
  | .update e => (t.update e).1
  | .delete k => (t.delete k).1
  | .deleteByAddress a => (t.deleteByAddress a).1

/-- Tables that can arise from `NewTable(self)`. kademlia/table.go:21-33. -/
def Table.Reachable (self : ID) (t : Table) : Prop := ∃ t0 ops, newTable self = some t0 ∧ t = List.foldl Table.apply t0 ops

end Noise
