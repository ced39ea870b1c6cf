import Verif.Model.Ident
/-!
# What a user of the chat program expects to see

`utf8` is the standard encoding of characters, from Lean's library.
-/
namespace Noise.Spec

/-- The bytes of a text. -/
def utf8 (t : List Char) : List UInt8 := t.flatMap String.utf8EncodeChar

namespace Chat

/-- How a line ends: `\n` or `\r\n`. -/
inductive Eol where
  | lf
  | crlf

def Eol.bytes : Eol → List UInt8
  | .lf => [10]
  | .crlf => [13, 10]

/-- The bytes that somebody produces who types these lines. -/
def typing (ls : List (List UInt8 × Eol)) : List UInt8 := ls.flatMap fun x => x.1 ++ x.2.bytes

/-- A byte stream without the ends of its lines. -/
def joined : List UInt8 → List UInt8
  | [] => []
  | 10 :: r => joined r
  | 13 :: 10 :: r => joined r
  | b :: r => b :: joined r

/-- `l` is one of the lines that somebody sees who gets `out` printed. -/
def IsLine (l out : List UInt8) : Prop :=
  10 ∉ l ∧ ∃ before after, out = before ++ l ++ 10 :: after ∧ (before = [] ∨ ∃ b, before = b ++ [10])

/-- A line that shows that somebody said something: their address and the first eight digits of their key, `127.0.0.1:9000(00010203)> hello`. -/
def said (who : ID) (what : List UInt8) : List UInt8 :=
  utf8 (who.address ++ ['('] ++ (hex who.id.1).take 8 ++ [')', '>', ' ']) ++ what

end Chat
end Noise.Spec
