import Verif.Model.Codec
import Verif.Model.Table
import Verif.Spec.Chat
/-!
# cmd/chat/main.go

The example program: lines from standard input are sent to the peers of the routing table; messages that arrive are printed. The standard library's `bufio.Reader` and `strings.ToValidUTF8` are modelled from their documentation and
source; standard input is a list of bytes that ends. Left out: flags, signals, the texts printed by `help`, `discover` and `peers`, and read errors other than the end of the input (the program panics).
-/
namespace Noise.Chat
open Spec (utf8)

/-! ## Standard input -/

/-- `bufio.NewReader`: the size of the buffer. cmd/chat/main.go:113-133. -/
def bufSize : Nat := 4096

/-- `(*bufio.Reader).ReadLine` drops `\r` in front of `\n`. cmd/chat/main.go:113-133. -/
def dropCR (l : Bytes) : Bytes := if l.getLast? = some 13 then l.dropLast else l

/-- `(*bufio.Reader).ReadLine` if `s` has not been read yet: the line, or as much of it as fits into the buffer, and what remains unread; `none` at the end of the input. Whether it is the whole line (`isPrefix`) is ignored by the caller. cmd/chat/main.go:113-133. -/
def readLine (s : Bytes) : Option (Bytes × Bytes) :=
  match (s.take bufSize).findIdx? (· = 10) with
  | some i => some (dropCR (s.take i), s.drop (i + 1))
  | none =>
    if bufSize ≤ s.length then
      /- the buffer is full; a `\r` at its end is put back, since `\n` may follow -/
      if (s.take bufSize).getLast? = some 13 then some (s.take (bufSize - 1), s.drop (bufSize - 1)) else some (s.take bufSize, s.drop bufSize)
    else if s = [] then none else some (s, [])

/-- cmd/chat/main.go:116-132: the loop of `input`; at most `fuel` more rounds. -/
def inputLoop : Nat → Bytes → List Bytes
  | 0, _ => []
  | fuel + 1, s => match readLine s with
    | none => []
    | some (line, r) => if line.length = 0 then inputLoop fuel r else line :: inputLoop fuel r

/-- cmd/chat/main.go:113-133 `input`: the arguments of the calls of `callback`. Every round but the last reads at least one byte. -/
def input (s : Bytes) : List Bytes := inputLoop (s.length + 1) s

/-! ## Messages -/

/-- `utf8.DecodeRuneInString`: the number of bytes of the character at the front, if it is a valid one. cmd/chat/main.go:33. -/
def runeWidth : Bytes → Option Nat
  | [] => none
  | b0 :: r =>
    let n := b0.toNat
    let cont (lo hi : Nat) (b : UInt8) : Bool := lo ≤ b.toNat && b.toNat ≤ hi
    if n < 0x80 then some 1
    else if 0xc2 ≤ n ∧ n ≤ 0xdf then match r with
      | b1 :: _ => if cont 0x80 0xbf b1 then some 2 else none
      | _ => none
    else if 0xe0 ≤ n ∧ n ≤ 0xef then match r with
      | b1 :: b2 :: _ => if cont (if n = 0xe0 then 0xa0 else 0x80) (if n = 0xed then 0x9f else 0xbf) b1 && cont 0x80 0xbf b2 then some 3 else none
      | _ => none
    else if 0xf0 ≤ n ∧ n ≤ 0xf4 then match r with
      | b1 :: b2 :: b3 :: _ => if cont (if n = 0xf0 then 0x90 else 0x80) (if n = 0xf4 then 0x8f else 0xbf) b1 && cont 0x80 0xbf b2 && cont 0x80 0xbf b3 then some 4 else none
      | _ => none
    else none

/-- The loop of `strings.ToValidUTF8`; `k` more bytes belong to a valid character. cmd/chat/main.go:33. -/
def toValidLoop : Nat → Bytes → Bytes
  | _, [] => []
  | k + 1, b :: r => b :: toValidLoop k r
  | 0, b :: r => match runeWidth (b :: r) with
    | some w => b :: toValidLoop (w - 1) r
    | none => toValidLoop 0 r

/-- `strings.ToValidUTF8(s, "")`: invalid bytes are dropped. cmd/chat/main.go:33. -/
def toValid (s : Bytes) : Bytes := toValidLoop 0 s

/-- cmd/chat/main.go:24-26: the type `chatMessage`. -/
def chatType : GoType := .named 0

/-- cmd/chat/main.go:24-30: a `chatMessage` marshals to its contents. -/
def message (contents : Bytes) : Val := ⟨chatType, contents, 0⟩

/-- cmd/chat/main.go:32-34 `unmarshalChatMessage`. -/
def decoder : Decoder where
  ret := some chatType
  run b := .ok (message (toValid b))
  typed b v h := by cases h; rfl

/-- cmd/chat/main.go:63, kademlia/protocol.go:177-180: the codec of the program: its own message is registered first, those of the overlay when the node listens. -/
def codec (overlay : List (GoType × Decoder)) : Codec := (Codec.new.runAll ((chatType, decoder) :: overlay)).1

/-! ## What the program does -/

/-- What the program does on account of a line. cmd/chat/main.go:212-242. -/
inductive Did where
  | discover
  | peers
  | help
  /-- node.go:319-334: `Send` to an address -/
  | send (address : Text) (data : Bytes)
  deriving DecidableEq

/-- cmd/chat/main.go:211-242 `chat`; `ps` is what `Table().Peers()` returns. Whether a message is sent successfully does not matter to those that follow. -/
def chat (c : Codec) (ps : List ID) (line : Bytes) : List Did :=
  if line = utf8 "/discover".toList then [.discover]
  else if line = utf8 "/peers".toList then [.peers]
  else if (utf8 ['/']).isPrefixOf line then [.help]
  else ps.flatMap fun p => match c.encode (message line) with
    | .ok data => [.send p.address data]
    | _ => []

/-- cmd/chat/main.go:96-98: the input goroutine; `peersAt i` is what `Table().Peers()` returns when the `i`-th line is handled. -/
def program (c : Codec) (peersAt : Nat → List ID) (stdin : Bytes) : List Did :=
  (input stdin).zipIdx.flatMap fun x => chat c (peersAt x.2) x.1

/-- cmd/chat/main.go:44 `printedLength`. -/
def printedLength : Nat := 8

/-- cmd/chat/main.go:155: the arguments of `Printf`. -/
def line (e : ID) (contents : Bytes) : Bytes :=
  utf8 (e.address ++ ['('] ++ (hexEncode e.id.1).take printedLength ++ [')', '>', ' ']) ++ contents ++ [10]

/-- cmd/chat/main.go:136-158 `handle`: what it prints. -/
def handle (c : Codec) (isRequest : Bool) (sender : ID) (data : Bytes) : Bytes :=
  if isRequest then [] else
  match c.decode data with
  | .ok v => if v.ty ≠ chatType then [] else if v.marshalled.length = 0 then [] else line sender v.marshalled
  | _ => []

/-- What is printed on account of messages that arrive one after another. cmd/chat/main.go:136-158. -/
def shown (c : Codec) (l : List (Bool × ID × Bytes)) : Bytes := l.flatMap fun x => handle c x.1 x.2.1 x.2.2

end Noise.Chat
