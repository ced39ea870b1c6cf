import Verif.Model.Link
/-!
# Two nodes joined by one connection that carries bytes

The composition of `Model/Link.lean` with the assumption about the connection brought down to the level of TCP: what the writers hand to the connection are the bytes of `frameMsg` (`Model/Frame.lean`, client.go:599-631), the
network delivers these bytes in order, any number at a time, and a receive loop reads whatever `readFrame` and `unmarshalMessage` make of the bytes that have arrived and that it has not consumed yet (client.go:282-313, 521-539).
`P` is the AEAD that both ends hold after the handshake (C66). The bytes of the handshake itself are in `Model/Handshake.lean` and not part of the streams here; executions in which A's handshake fails are left out
(`hsFail`; A would go on to read without a key, C30).
-/
namespace Noise.ByteLink
variable {ε : Type}

/-- One direction of the connection: all bytes that the writer handed over, how many of them have arrived, how many of those have been consumed. client.go:289-301 reads, 615-634 writes; in between is TCP. Simplified: the buffers of `bufio` are part of the connection. -/
structure Chan where
  sent : Bytes
  arrived : Nat
  used : Nat

/-- client.go:62, 97-98: what is waiting in the reader's buffer. -/
def Chan.unread (c : Chan) : Bytes := (c.sent.take c.arrived).drop c.used

/-- client.go:47-86 at both ends, without the messages in between: two clients and the bytes under way. Simplified as the head of this file says. -/
structure State (ε : Type) where
  l : Link.State ε
  /-- from A to B -/
  ab : Chan
  /-- from B to A -/
  ba : Chan

/-- The AEAD of the session and the receive limits of the two nodes (node_options.go:54). -/
structure Params where
  P : AEAD
  maxA : UInt32
  maxB : UInt32

/-- node.go:178-197, client.go:88-108: nothing sent yet. -/
def State.new (numWorkers numHandlers : Nat) : State ε := ⟨Link.State.new numWorkers numHandlers, ⟨[], 0, 0⟩, ⟨[], 0, 0⟩⟩

/-- client.go:282-347, 517-651: the steps of the two ends, and those of the network. -/
inductive Action (ε : Type) where
  /-- as in `Link`, where no bytes are written or read -/
  | a (act : Cl.Action ε)
  | b (act : Cl.Action ε)
  | w (act : Wk.Action ε)
  /-- client.go:600-631: A's (B's) writer encrypts the next message, with these random bytes, and hands it to the connection -/
  | writeA (rnd : Bytes)
  | writeB (rnd : Bytes)
  /-- `n` more bytes arrive at A (B) -/
  | arriveA (n : Nat)
  | arriveB (n : Nat)
  /-- client.go:521-539: A's (B's) receive loop reads a message -/
  | readA
  | readB

/-- client.go:521-539 on the bytes at hand: a message, and how many bytes it took. -/
def parse (P : AEAD) (max : UInt32) (s : Bytes) : Option (Message × Nat) :=
  match readFrame max (some P) s .eof with
  | .ok (p, r) => match unmarshalMessage p with
    | .ok m => some (m, s.length - r.length)
    | _ => none
  | _ => none

/-- The number of complete messages in these bytes. client.go:289-301: what `read` can get out of them. -/
def complete (P : AEAD) (max : UInt32) (s : Bytes) : Nat := (recvAll max (some P) s .eof).1.length

/-- client.go:600-631: the writer's next message, if it is writing. -/
def writing (c : Cl.State ε) : Option Message := match c.writer with
  | .batch (m :: _) => some m
  | _ => none

/-- Actions that are about bytes, or are left out; the others are those of `Link`. `n` complete messages are waiting in the reader's buffer. client.go:282-347, 517-651. -/
def plain (c : Cl.State ε) (n : Nat) : Cl.Action ε → Bool
  | .hsFail _ => false
  | .readMsg _ => false
  -- frames of the handshake arrive as a whole
  | .arrive => c.main = .hs
  | .hsKey => n < c.rbuf
  | .hsOK _ => n < c.rbuf
  | .writer => writing c = none
  | _ => true

/-- client.go:282-347, 517-651: one step; bytes come out of and go into the two directions. -/
def step (p : Params) (s : State ε) : Action ε → Option (State ε)
  | .a act => if plain s.l.a (complete p.P p.maxA s.ba.unread) act then (Link.stepA s.l act).map fun l => { s with l := l } else none
  | .b act => if plain s.l.b (complete p.P p.maxB s.ab.unread) act then (Link.stepB s.l act).map fun l => { s with l := l } else none
  | .w act => (Link.stepW s.l act).map fun l => { s with l := l }
  | .writeA rnd => match writing s.l.a with
    | some m =>
      -- `rand.Read` fills the nonce; slices of 4 GiB are left out
      if rnd.length = p.P.nonceSize ∧ m.data.length < 2 ^ 31 then
        (Cl.step s.l.a .writer).map fun a => { s with l := { s.l with a := a }, ab := { s.ab with sent := s.ab.sent ++ frameMsg (some p.P) rnd m } }
      else none
    | none => none
  | .writeB rnd => match writing s.l.b with
    | some m =>
      if rnd.length = p.P.nonceSize ∧ m.data.length < 2 ^ 31 then
        (Cl.step s.l.b .writer).map fun b => { s with l := { s.l with b := b }, ba := { s.ba with sent := s.ba.sent ++ frameMsg (some p.P) rnd m } }
      else none
    | none => none
  | .arriveA n =>
    if s.l.a.conn = .open ∧ s.ba.arrived + n ≤ s.ba.sent.length then
      let ba := { s.ba with arrived := s.ba.arrived + n }
      some { s with ba := ba, l := { s.l with a := { s.l.a with rbuf := s.l.a.rbuf + (complete p.P p.maxA ba.unread - complete p.P p.maxA s.ba.unread) } } }
    else none
  | .arriveB n =>
    if s.l.b.conn = .open ∧ s.ab.arrived + n ≤ s.ab.sent.length then
      let ab := { s.ab with arrived := s.ab.arrived + n }
      some { s with ab := ab, l := { s.l with b := { s.l.b with rbuf := s.l.b.rbuf + (complete p.P p.maxB ab.unread - complete p.P p.maxB s.ab.unread) } } }
    else none
  | .readA => match parse p.P p.maxA s.ba.unread with
    | some (m, n) => (Cl.step s.l.a (.readMsg m)).map fun a => { s with l := { s.l with a := a, readA := s.l.readA + 1 }, ba := { s.ba with used := s.ba.used + n } }
    | none => none
  | .readB => match parse p.P p.maxB s.ab.unread with
    | some (m, n) => (Cl.step s.l.b (.readMsg m)).map fun b => { s with l := { s.l with b := b, readB := s.l.readB + 1 }, ab := { s.ab with used := s.ab.used + n } }
    | none => none

/-- Not in the code: the states that any finite schedule can lead to, for the theorems. -/
abbrev Reachable (p : Params) (numWorkers numHandlers : Nat) (s : State ε) : Prop := ReachFrom (step p) (State.new numWorkers numHandlers) s

end Noise.ByteLink
