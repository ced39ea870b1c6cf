import Verif.Model.RW
import Verif.Model.Codec
import Verif.Model.Table
import Verif.Model.Requests
/-!
# The methods of the codec, the routing table and the request map, access by access

Programs (`Model/RW.lean`) for codec.go, kademlia/table.go and map.go:99-158, with the mutex operations that the code has. Simplified: reading or changing one bucket of the table is one access, and so is emptying the
request map.
-/
namespace Noise
open RW

/-! ## codec.go -/

/-- codec.go:33-102: a call of a method of the codec. -/
inductive CodecOp where
  | register (t : GoType) (d : Decoder)
  | encode (v : Val)
  | decode (data : Bytes)

/-- What a call returns. codec.go:33-102. -/
inductive CodecRes where
  | opcode (o : UInt16)
  | panicked
  | bytes (r : Res Bytes)
  | value (r : Res Val)

/-- codec.go:33-56 `register`; `defer c.Unlock()` also unlocks when the method panics. -/
def registerProg (t : GoType) (d : Decoder) : Prog Codec CodecRes :=
  .guarded .w (
    .get fun c => match c.ser t with
      | some _ => .ret .panicked
      | none => if d.ret ≠ some t then .ret .panicked else
        .get fun c => .set (fun s => { s with ser := fun u => if u = t then some c.counter else s.ser u }) (
        .get fun c => .set (fun s => { s with de := fun o => if o = c.counter then some d else s.de o }) (
        .set (fun s => { s with counter := s.counter + 1 }) (
        .get fun c => .ret (.opcode (c.counter - 1))))))

/-- codec.go:58-77 `encode`; `marshal` is what the method `Marshal` of the message does. -/
def encodeProg (marshal : Prog Codec Bytes) (v : Val) : Prog Codec (Res Bytes) :=
  let t := match v.ty with
    | .ptr t => t
    | t => t
  .guarded .r (
    .get fun c => match c.ser t with
      | none => .ret (.err .notRegistered)
      | some opcode => marshal.bind fun b => .ret (.ok (put16 opcode ++ b)))

/-- codec.go:79-102 `decode`; short data is refused before the mutex is taken. -/
def decodeProg (data : Bytes) : Prog Codec CodecRes :=
  if data.length < 2 then .ret (.value (.err .unexpectedEOF))
  else match slice data 0 2 >>= get16, slice data 2 data.length with
    | .ok opcode, .ok rest => .guarded .r (
        .get fun c => match c.de opcode with
          | none => .ret (.value (.err .notRegistered))
          | some d => .ret (.value (d.run rest)))
    | _, _ => .ret (.value .panic)

/-- node.go:250-278; `marshal v` is what `Marshal` of `v` does. -/
def codecImpl (marshal : Val → Prog Codec Bytes) : CodecOp → Prog Codec CodecRes
  | .register t d => registerProg t d
  | .encode v => (encodeProg (marshal v) v).bind fun r => .ret (.bytes r)
  | .decode data => decodeProg data

/-- `Marshal` computes its result without using the node. codec.go:14, 58-77. -/
def plainMarshal (v : Val) : Prog Codec Bytes := .ret v.marshalled

/-- `Marshal` of a message of type `t` that contains another message and calls `EncodeMessage` for it. codec.go:14, 58-77. -/
def nestedMarshal (t : GoType) (inner : Val) (v : Val) : Prog Codec Bytes :=
  if v.ty = t then (encodeProg (plainMarshal inner) inner).bind fun r => .ret (match r with
    | .ok b => b
    | _ => [])
  else plainMarshal v

/-- The calls, one after the other (`Model/Codec.lean`). codec.go:33-102. -/
def codecApply (op : CodecOp) (c : Codec) : Codec × CodecRes :=
  match op with
  | .register t d => match c.register t d with
    | some (c', o) => (c', .opcode o)
    | none => (c, .panicked)
  | .encode v => (c, .bytes (c.encode v))
  | .decode data => (c, .value (c.decode data))

/-! ## kademlia/table.go -/

/-- kademlia/table.go:36-229: a call of a method of the table. -/
inductive TabOp where
  | update (e : ID)
  | last (k : PublicKey)
  | bucket (k : PublicKey)
  | recorded (k : PublicKey)
  | delete (k : PublicKey)
  | deleteByAddress (a : Text)
  | findClosest (target : PublicKey) (k : Int)
  | entries
  | numEntries

/-- kademlia/table.go:36-229: what a call returns. -/
inductive TabRes where
  | updated (r : Except BucketFull Bool)
  | peer (r : Res ID)
  | list (l : List ID)
  | flag (b : Bool)
  | deleted (e : ID) (b : Bool)
  | closest (r : Res (List ID))
  | num (n : Int)

/-- kademlia/table.go:67-93 `Update`. -/
def updateProg (target : ID) : Prog Table TabRes :=
  if target.id = zeroPublicKey then .ret (.updated (.ok false))
  else .guarded .w (
    .get fun t =>
      let i := t.bucketIndex target.id
      .get fun t => match (t.entries i).find? (fun e => e.id = target.id) with
        | some e => .set (fun t => t.setBucket i (e :: (t.entries i).eraseP fun e => e.id = target.id)) (.ret (.updated (.ok false)))
        | none => .get fun t =>
          if (t.entries i).length < bucketSize then
            .set (fun t => t.setBucket i (target :: t.entries i)) (.set (fun t => { t with size := t.size + 1 }) (.ret (.updated (.ok true))))
          else .ret (.updated (.error .bucketFull)))

/-- kademlia/table.go:41-46 `Last`. -/
def lastProg (target : PublicKey) : Prog Table TabRes :=
  .guarded .r (.get fun t => let i := t.bucketIndex target
    .get fun t => .ret (.peer (match (t.entries i).getLast? with
      | some e => .ok e
      | none => .panic)))

/-- kademlia/table.go:48-61 `Bucket`. -/
def bucketProg (target : PublicKey) : Prog Table TabRes := .guarded .r (.get fun t => let i := t.bucketIndex target
  .get fun t => .ret (.list (t.entries i)))

/-- kademlia/table.go:96-109 `Recorded`. -/
def recordedProg (target : PublicKey) : Prog Table TabRes := .guarded .r (.get fun t => let i := t.bucketIndex target
  .get fun t => .ret (.flag ((t.entries i).any fun e => e.id = target)))

/-- kademlia/table.go:113-130 `Delete`. -/
def deleteProg (target : PublicKey) : Prog Table TabRes :=
  .guarded .w (.get fun t => let i := t.bucketIndex target
    .get fun t => match (t.entries i).find? (fun e => e.id = target) with
      | some e => .set (fun t => t.setBucket i ((t.entries i).eraseP fun e => e.id = target)) (.set (fun t => { t with size := t.size - 1 }) (.ret (.deleted e true)))
      | none => .ret (.deleted ID.zero false))

/-- kademlia/table.go:138-148: from bucket `i`, `n` of them left. -/
def deleteByAddressBody (target : Text) : Nat → Nat → Prog Table TabRes
  | _, 0 => .ret (.deleted ID.zero false)
  | i, n + 1 => .get fun t => match (t.entries i).find? (fun e => e.address = target) with
    | some e => .set (fun t => t.setBucket i ((t.entries i).eraseP fun e => e.address = target)) (.set (fun t => { t with size := t.size - 1 }) (.ret (.deleted e true)))
    | none => deleteByAddressBody target (i + 1) n

/-- kademlia/table.go:134-151 `DeleteByAddress`. -/
def deleteByAddressProg (target : Text) : Prog Table TabRes := .guarded .w (deleteByAddressBody target 0 256)

/-- kademlia/table.go:179-187. -/
def findLoopProg (target : PublicKey) (k : Int) (idx : Nat) (done : List ID → Prog Table TabRes) : Nat → Nat → List ID → Prog Table TabRes
  | 0, _, closest => done closest
  | fuel + 1, i, closest =>
    if (closest.length : Int) < k ∧ (i ≤ idx ∨ idx + i < 256) then
      .get fun t => let closest := if i ≤ idx then closest ++ t.others target (idx - i) else closest
        .get fun t => let closest := if idx + i < 256 then closest ++ t.others target (idx + i) else closest
          findLoopProg target k idx done fuel (i + 1) closest
    else done closest

/-- kademlia/table.go:159-196 `FindClosest`. -/
def findClosestProg (S : Sorter) (target : PublicKey) (k : Int) : Prog Table TabRes :=
  .guarded .r (.get fun t => let idx := t.bucketIndex target
    .get fun t => findLoopProg target k idx (fun l =>
      let closest := sortByDistance S target l
      .ret (.closest (if (closest.length : Int) > k then if k < 0 then .panic else .ok (closest.take k.toNat) else .ok closest))) 256 1 (t.others target idx))

/-- kademlia/table.go:205-209: from bucket `i`, `n` of them left. -/
def entriesBody : Nat → Nat → List ID → Prog Table TabRes
  | _, 0, acc => .ret (.list acc)
  | i, n + 1, acc => .get fun t => entriesBody (i + 1) n (acc ++ t.entries i)

/-- kademlia/table.go:199-212 `Entries`. -/
def entriesProg : Prog Table TabRes := .guarded .r (.get fun _ => entriesBody 0 256 [])

/-- kademlia/table.go:215-220 `NumEntries`. -/
def numEntriesProg : Prog Table TabRes := .guarded .r (.get fun t => .ret (.num t.size))

/-- kademlia/table.go:36-229: the programs of the methods. -/
def tableImpl (S : Sorter) : TabOp → Prog Table TabRes
  | .update e => updateProg e
  | .last k => lastProg k
  | .bucket k => bucketProg k
  | .recorded k => recordedProg k
  | .delete k => deleteProg k
  | .deleteByAddress a => deleteByAddressProg a
  | .findClosest target k => findClosestProg S target k
  | .entries => entriesProg
  | .numEntries => numEntriesProg

/-- The calls, one after the other (`Model/Table.lean`). kademlia/table.go:36-229. -/
def tableApply (S : Sorter) (op : TabOp) (t : Table) : Table × TabRes :=
  match op with
  | .update e => ((t.update e).1, .updated (t.update e).2)
  | .last k => (t, .peer (t.last k))
  | .bucket k => (t, .list (t.bucket k))
  | .recorded k => (t, .flag (t.recorded k))
  | .delete k => ((t.delete k).1, .deleted (t.delete k).2.1 (t.delete k).2.2)
  | .deleteByAddress a => ((t.deleteByAddress a).1, .deleted (t.deleteByAddress a).2.1 (t.deleteByAddress a).2.2)
  | .findClosest target k => (t, .closest (t.findClosest S target k))
  | .entries => (t, .list t.all)
  | .numEntries => (t, .num t.numEntries)

/-! ## map.go: `requestMap` -/

/-- map.go:109-128 `nextNonce`. -/
def nextNonceProg (ch : Nat) : Prog RequestMap ReqObs :=
  .guarded .w (.get fun r =>
    let rest : Prog RequestMap ReqObs :=
      .set (fun r => { r with nonce := r.nonce + 1 }) (.get fun r => let nonce := r.nonce
        .get fun r => match r.entries nonce with
          | some _ => .ret .refused
          | none => .set (fun r => { r with entries := fun n => if n = nonce then some ch else r.entries n }) (.ret (.issued nonce)))
    if r.nonce = 18446744073709551615 then .set (fun r => { r with nonce := 0 }) rest else rest)

/-- map.go:138-148 `findRequest`. -/
def findRequestProg (nonce : UInt64) : Prog RequestMap ReqObs :=
  .guarded .w (.get fun r => match r.entries nonce with
    | some _ => .set (fun r => { r with entries := fun n => if n = nonce then none else r.entries n }) (.ret (.resolved nonce))
    | none => .ret (.unknown nonce))

/-- map.go:130-136 `markRequestFailed`. -/
def markFailedProg (nonce : UInt64) : Prog RequestMap ReqObs :=
  .guarded .w (.get fun r => match r.entries nonce with
    | some _ => .set (fun r => { r with entries := fun n => if n = nonce then none else r.entries n }) (.ret (.resolved nonce))
    | none => .ret .panicked)

/-- map.go:150-158 `close`. -/
def closeAllProg : Prog RequestMap ReqObs := .guarded .w (.set RequestMap.close (.ret .closedAll))

/-- The calls; the number identifies the channel of a new request. map.go:109-158. -/
def requestsImpl : Nat × ReqOp → Prog RequestMap ReqObs
  | (k, .register) => nextNonceProg k
  | (_, .find n) => findRequestProg n
  | (_, .fail n) => markFailedProg n
  | (_, .closeAll) => closeAllProg

/-- The calls, one after the other (`Model/Requests.lean`). map.go:109-158. -/
def requestsApply (op : Nat × ReqOp) (r : RequestMap) : RequestMap × ReqObs := r.exec op.1 op.2

end Noise
