import Verif.Model.Link
import Verif.Model.Codec
import Verif.Model.KadMsg
/-!
# Typed messages between two nodes

`Model/Link.lean` with the codecs of the two nodes (codec.go, node.go:238-312, msg.go:84-117): A calls `RequestMessage`, B's handlers call `DecodeMessage` and `SendMessage` on their contexts, and both nodes register types
whenever they like. A may use the untyped calls as well; B's handlers answer on this connection with `SendMessage` only, as msg.go:101-103 recommends.
-/
namespace Noise.Typed
variable {ε : Type}

/-- node.go:276-305, msg.go:88-108 at both ends of a connection: typed requests. -/
structure State (ε : Type) where
  l : Link.State ε
  codecA : Codec
  codecB : Codec
  /-- the calls of `RegisterMessage` so far -/
  regA : List (GoType × Decoder)
  regB : List (GoType × Decoder)
  /-- request `i` of A's connection is a call `RequestMessage(v)` -/
  asked : List (Nat × Val)
  /-- what `RequestMessage` made of the response to request `i` -/
  got : List (Nat × Res Val)
  /-- `DecodeMessage` on a context of B's item `k` -/
  seen : List (Nat × Res Val)
  /-- calls `SendMessage(u)` by handler `h` on its context of B's item `k` -/
  answers : List (Nat × Nat × Val)

/-- node.go:276-305: nothing sent yet. -/
def State.new (numWorkers numHandlers : Nat) : State ε := ⟨Link.State.new numWorkers numHandlers, .new, .new, [], [], [], [], [], []⟩

/-- node.go:276-305, msg.go:72-108, and the steps of the connection. -/
inductive Action (ε : Type) where
  /-- node.go:252 `RegisterMessage` on A (B) -/
  | registerA (t : GoType) (d : Decoder)
  | registerB (t : GoType) (d : Decoder)
  /-- node.go:288-294: `RequestMessage` encodes and starts the request -/
  | ask (v : Val)
  /-- node.go:299-303: request `i` has returned, and its response is decoded -/
  | result (i : Nat)
  /-- msg.go:92-94: a handler that was called for B's item `k` calls `DecodeMessage` -/
  | look (k : Nat)
  /-- msg.go:106-113: handler `h` calls `SendMessage` on its context of item `k` -/
  | answer (k h : Nat) (u : Val)
  /-- everything else -/
  | link (act : Link.Action ε)

/-- A register that panics changes nothing (codec.go:40-48). -/
def registered (c : Codec) (t : GoType) (d : Decoder) : Codec := match c.register t d with
  | some (c', _) => c'
  | none => c

/-- B's handlers do not use the untyped `Send`. msg.go:72-78. -/
def allowed (s : State ε) : Link.Action ε → Bool
  | .w (.send k _ _) => match s.l.w.items[k]? with
    | some it => it.client ≠ 0
    | none => false
  | _ => true

/-- node.go:276-305, msg.go:72-108: one step; `none`: not enabled. -/
def step (s : State ε) : Action ε → Option (State ε)
  | .registerA t d => some { s with codecA := registered s.codecA t d, regA := s.regA ++ [(t, d)] }
  | .registerB t d => some { s with codecB := registered s.codecB t d, regB := s.regB ++ [(t, d)] }
  | .ask v => match s.codecA.encode v with
    | .ok data => (Link.step s.l (.a (.reqStart data))).map fun l =>
      -- no request is started when no nonce is left (client.go:352-357)
      if s.l.a.calls.length < l.a.calls.length then { s with l := l, asked := s.asked ++ [(s.l.a.calls.length, v)] } else { s with l := l }
    | _ => none
  | .result i => match s.l.a.calls[i]? with
    | some c => match c.st with
      | .returned m => if i ∈ s.asked.map Prod.fst then some { s with got := s.got ++ [(i, s.codecA.decode m.data)] } else none
      | _ => none
    | none => none
  | .look k => match s.l.w.items[k]? with
    | some it => some { s with seen := s.seen ++ [(k, s.codecB.decode it.msg.data)] }
    | none => none
  | .answer k h u => match s.l.w.items[k]?, s.codecB.encode u with
    | some it, .ok data =>
      if it.client = 0 then (Link.step s.l (.w (.send k h data))).map fun l => { s with l := l, answers := s.answers ++ [(k, h, u)] } else none
    | _, _ => none
  | .link act => if allowed s act then (Link.step s.l act).map fun l => { s with l := l } else none

/-- Not in the code: the states that any finite schedule can lead to, for the theorems. -/
abbrev Reachable (numWorkers numHandlers : Nat) (s : State ε) : Prop := ReachFrom step (State.new numWorkers numHandlers) s

/-- A decoder that never fails. codec.go:79-102 calls it. -/
def total (t : GoType) (f : Bytes → Bytes × Nat) : Decoder where
  ret := some t
  run b := .ok ⟨t, (f b).1, (f b).2⟩
  typed := by intro b v h; injection h with h; subst h; rfl

/-- A decoder that checks its input. codec.go:79-102 calls it. -/
def checked {α : Type} (t : GoType) (f : Bytes → Res α) : Decoder where
  ret := some t
  run b := match f b with
    | .ok _ => .ok ⟨t, b, 0⟩
    | .err e => .err e
    | .panic => .panic
  typed := by
    intro b v h
    split at h
    · injection h with h; subst h; rfl
    · cases h
    · cases h

/-- kademlia/protocol.go:176-179 with kademlia/msg.go; the contents of decoded values are left out except that they come from these bytes. -/
def kademliaTypes : List (GoType × Decoder) :=
  [(.named 0, total (.named 0) fun _ => ([], 0)), (.named 1, total (.named 1) fun _ => ([], 0)),
   (.named 2, checked (.named 2) Noise.unmarshalFindNodeRequest), (.named 3, checked (.named 3) Noise.unmarshalFindNodeResponse)]

/-- gossip/protocol.go:51 with gossip/msg.go. -/
def gossipTypes : List (GoType × Decoder) := [(.named 4, total (.named 4) fun b => (b, 0))]

end Noise.Typed
