import Verif.Model.Ident
/-! # kademlia/msg.go -/
namespace Noise

/-- kademlia/msg.go:13,22: `Ping.Marshal` and `Pong.Marshal` return nil. -/
def marshalPing : Bytes := []

/-- kademlia/msg.go:29-31, 35-37 `FindNodeRequest` and its `Marshal`. -/
def marshalFindNodeRequest (target : PublicKey) : Bytes := target.1

/-- kademlia/msg.go:41-52 `UnmarshalFindNodeRequest`. -/
def unmarshalFindNodeRequest (buf : Bytes) : Res PublicKey :=
  if buf.length ≠ 32 then .err .unexpectedEOF else .ok (keyOf buf)

/-- kademlia/msg.go:65-67: the loop of `FindNodeResponse.Marshal`. -/
def appendResults : List ID → Bytes → Bytes
  | [], buf => buf
  | e :: l, buf => appendResults l (buf ++ e.marshal)

/-- kademlia/msg.go:62-70 `FindNodeResponse.Marshal`: `byte(len(r.Results))` keeps the low 8 bits. -/
def marshalFindNodeResponse (results : List ID) : Bytes := appendResults results [UInt8.ofNat results.length]

/-- kademlia/msg.go:86-94: the loop of `UnmarshalFindNodeResponse`, `n` rounds left. -/
def readResults : Nat → Bytes → List ID → Res (List ID)
  | 0, _, results => .ok results
  | n + 1, buf, results =>
    match unmarshalID buf with
    | .err _ => .err .unexpectedEOF
    | .panic => .panic
    | .ok e =>
      match slice buf e.size buf.length with
      | .ok rest => readResults n rest (results ++ [e])
      | .err x => .err x
      | .panic => .panic

/-- kademlia/msg.go:74-99 `UnmarshalFindNodeResponse`. -/
def unmarshalFindNodeResponse (buf : Bytes) : Res (List ID) :=
  match buf with
  | [] => .err .unexpectedEOF
  | size :: buf => readResults size.toNat buf []

end Noise
