/-! # client.go:380-514 `handshake`, 516-560 `recvLoop` and 562-652 `writeLoop` against a network attacker

A symbolic (Dolev-Yao) model: messages are terms, cryptography is perfect, and the network is the attacker, who sees everything that is sent and
delivers whatever can be computed from it. Any number of sessions of any number of nodes run interleaved; long-term and ephemeral private
keys may leak at any time. `Model/Handshake.lean` is the same code on bytes, with the attacker replaced by an arbitrary input.

Simplifications: a public key stands for the private key it belongs to (so the attacker presents only keys for which some private key
exists, and the two Ed25519 keys with the same y-coordinate are not identified); encryption is perfect, which the code does not quite
achieve because its nonces come from math/rand (C15); application data cannot be mistaken for the second handshake message (data of a
message sent without a request starts with eight zero bytes, msg.go:16-22). Failed handshakes are sessions that do not take another step;
what an outbound client does after a failed handshake is the subject of C30 (`Model/Client.lean`).
-/
namespace Noise.Sym

/-- Private keys: long-term keys of nodes (node.go:72-80), ephemeral keys (client.go:385; session `n` draws `eph n`), keys of the attacker. -/
inductive Sec where
  | overlay (n : Nat)
  | eph (n : Nat)
  | att (n : Nat)
  deriving DecidableEq, Repr

/-- A numbering of private keys, used only to write a Diffie-Hellman value independently of the order of its arguments. Not in the code. -/
def Sec.code : Sec → Nat
  | overlay n => 3 * n
  | eph n => 3 * n + 1
  | att n => 3 * n + 2

/-- Messages. client.go:391-495: what the handshake sends and computes. -/
inductive Term where
  /-- constants and application data -/
  | data (n : Nat)
  | sec (s : Sec)
  /-- the public key of `s` -/
  | pub (s : Sec)
  /-- id.go:13-27 `ID`: the public key of `s` with an address -/
  | id (s : Sec) (addr : Nat)
  /-- keys.go:97-99 `Sign` -/
  | sig (s : Sec) (t : Term)
  /-- ecdh.go:52-59 `ECDH`; only used through `share` -/
  | dh (a b : Sec)
  | pair (t u : Term)
  /-- aead.go:28-39 `encryptAEAD` with key `k` and nonce `r` -/
  | enc (k : Term) (r : Nat) (t : Term)
  deriving DecidableEq, Repr

/-- ecdh.go:52-59: the key that the owner of private key `a` shares with the owner of private key `b`. -/
def share (a b : Sec) : Term := if a.code ≤ b.code then .dh a b else .dh b a

/-- client.go:393: the constant `.__noise_handshake`. -/
def label : Term := .data 0

/-- client.go:393-395: first message of the ephemeral key `s`. -/
def msg1 (s : Sec) : Term := .pair (.pub s) (.sig s label)

/-- client.go:455-457: second message, before encryption, of the owner of key `s` with address `a` in the session with key `k`. -/
def msg2 (s : Sec) (a : Nat) (k : Term) : Term := .pair (.id s a) (.sig s (.pair (.id s a) k))

/-- One end of one connection. client.go:380-515. -/
structure Session where
  /-- the node whose end this is: its long-term key is `Sec.overlay owner` -/
  owner : Nat
  /-- the address in its ID -/
  addr : Nat
  /-- the ephemeral key in the first message that it accepted -/
  peer : Option Sec := none
  /-- client.go:497 `c.id` -/
  done : Option (Sec × Nat) := none
  /-- application data that `writeLoop` has written -/
  sent : List Nat := []
  /-- plaintexts that `recvLoop` has accepted -/
  rcvd : List Term := []
  deriving DecidableEq, Repr

/-- client.go:380-515 at all ends of all connections, and what the attacker has seen. -/
structure State where
  sessions : List Session := []
  /-- everything that was ever sent -/
  net : List Term := []
  /-- private keys that have leaked -/
  leaked : List Sec := []

/-- The private keys that the attacker has. Not in the code: the attacker. -/
def Known (s : State) : Sec → Prop
  | .att _ => True
  | x => x ∈ s.leaked

/-- What the attacker can compute. Signatures give away what was signed. Not in the code: the attacker. -/
inductive Derive (s : State) : Term → Prop
  | seen {t} : t ∈ s.net → Derive s t
  | sec {x} : Known s x → Derive s (.sec x)
  | data {n} : Derive s (.data n)
  | pub {x} : Derive s (.pub x)
  | id {x a} : Derive s (.id x a)
  | pair {t u} : Derive s t → Derive s u → Derive s (.pair t u)
  | fst {t u} : Derive s (.pair t u) → Derive s t
  | snd {t u} : Derive s (.pair t u) → Derive s u
  | sign {x t} : Derive s (.sec x) → Derive s t → Derive s (.sig x t)
  | signed {x t} : Derive s (.sig x t) → Derive s t
  | share {x y} : Derive s (.sec x) → Derive s (share x y)
  | enc {k r t} : Derive s k → Derive s t → Derive s (.enc k r t)
  | dec {k r t} : Derive s (.enc k r t) → Derive s k → Derive s t

/-- What can happen. client.go:380-515, 315-338. -/
inductive Action where
  | start (owner addr : Nat)
  | recv1 (i : Nat) (p : Sec) (r : Nat)
  | recv2 (i : Nat) (x : Sec) (a r : Nat)
  | send (i m r : Nat)
  | recv (i : Nat) (t : Term) (r : Nat)
  | leak (x : Sec)

/-- The session key of end `i` once it has accepted the ephemeral key `p`. client.go:430-451. -/
def key (i : Nat) (p : Sec) : Term := share (.eph i) p

/-- One step. client.go:380-515. -/
inductive Step : State → Action → State → Prop
  /-- client.go:385-400: draw an ephemeral key and send the first message -/
  | start {s : State} (o a : Nat) :
      Step s (.start o a) { s with sessions := s.sessions ++ [{ owner := o, addr := a }], net := s.net ++ [msg1 (.eph s.sessions.length)] }
  /-- client.go:402-463: accept a first message and send the second one, encrypted -/
  | recv1 {s : State} {i : Nat} {e : Session} {p : Sec} {r : Nat} (he : s.sessions[i]? = some e) (hp : e.peer = none)
      (hd : Derive s (msg1 p)) :
      Step s (.recv1 i p r) { s with sessions := s.sessions.set i { e with peer := some p }, net := s.net ++ [.enc (key i p) r (msg2 (.overlay e.owner) e.addr (key i p))] }
  /-- client.go:465-497: accept a second message and record the ID in it -/
  | recv2 {s : State} {i : Nat} {e : Session} {p x : Sec} {a r : Nat} (he : s.sessions[i]? = some e) (hp : e.peer = some p)
      (hn : e.done = none) (hd : Derive s (.enc (key i p) r (msg2 x a (key i p)))) :
      Step s (.recv2 i x a r) { s with sessions := s.sessions.set i { e with done := some (x, a) } }
  /-- client.go:599-631: encrypt and send data once the handshake is over -/
  | send {s : State} {i : Nat} {e : Session} {p : Sec} {m r : Nat} (he : s.sessions[i]? = some e) (hp : e.peer = some p)
      (hn : e.done ≠ none) :
      Step s (.send i m r) { s with sessions := s.sessions.set i { e with sent := e.sent ++ [m] }, net := s.net ++ [.enc (key i p) r (.data m)] }
  /-- client.go:519-540: decrypt whatever arrives and hand it to the handlers once the handshake is over -/
  | recv {s : State} {i : Nat} {e : Session} {p : Sec} {t : Term} {r : Nat} (he : s.sessions[i]? = some e) (hp : e.peer = some p)
      (hn : e.done ≠ none) (hd : Derive s (.enc (key i p) r t)) :
      Step s (.recv i t r) { s with sessions := s.sessions.set i { e with rcvd := e.rcvd ++ [t] } }
  /-- the environment: a private key leaks -/
  | leak {s : State} (x : Sec) : Step s (.leak x) { s with leaked := x :: s.leaked }

/-- States that can follow `s`. Not in the code. -/
inductive Reach (s : State) : State → Prop
  | refl : Reach s s
  | step {t u a} : Reach s t → Step t a u → Reach s u

/-- States of the whole system. Not in the code. -/
def Reachable (s : State) : Prop := Reach {} s

end Noise.Sym
