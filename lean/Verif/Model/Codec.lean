import Verif.Model.Basic
/-!
# codec.go

Go types are named types or pointers to types; `reflect` is modelled by tagging values with their dynamic type. The RWMutex makes each of the
three operations atomic, so a concurrent execution is a sequence of them.
-/
namespace Noise

/-- A Go type, as seen by `reflect.TypeOf`. codec.go:33-77. -/
inductive GoType where
  | named (n : Nat)
  | ptr (t : GoType)
  deriving DecidableEq, Repr

/-- A `Serializable` value: its dynamic type, what `Marshal` returns, and its further contents. codec.go:13-16. -/
structure Val where
  ty : GoType
  marshalled : Bytes
  payload : Nat
  deriving DecidableEq

/-- The decoder argument of `RegisterMessage`. `ret = some T` means that its type is exactly `func([]byte) (T, error)`; `none` stands for
every other Go value. `typed` is Go's static typing of the function. -/
structure Decoder where
  ret : Option GoType
  run : Bytes → Res Val
  typed : ∀ b v, run b = .ok v → ret = some v.ty

/-- codec.go:18-24 `codec`. -/
structure Codec where
  counter : UInt16
  ser : GoType → Option UInt16
  de : UInt16 → Option Decoder

/-- codec.go:26-31 `newCodec`. -/
def Codec.new : Codec := ⟨0, fun _ => none, fun _ => none⟩

/-- codec.go:33-56 `register`: the new state and the returned opcode; `none` when the call panics (before any write). -/
def Codec.register (c : Codec) (t : GoType) (d : Decoder) : Option (Codec × UInt16) :=
  match c.ser t with
  | some _ => none
  | none =>
    if d.ret ≠ some t then none
    else
      let c' : Codec :=
        { counter := c.counter + 1
          ser := fun u => if u = t then some c.counter else c.ser u
          de := fun o => if o = c.counter then some d else c.de o }
      some (c', c'.counter - 1)

/-- codec.go:58-77 `encode`. -/
def Codec.encode (c : Codec) (v : Val) : Res Bytes :=
  let t := match v.ty with
    | .ptr t => t
    | t => t
  match c.ser t with
  | none => .err .notRegistered
  | some opcode => .ok (put16 opcode ++ v.marshalled)

/-- codec.go:79-102 `decode`. -/
def Codec.decode (c : Codec) (data : Bytes) : Res Val :=
  if data.length < 2 then .err .unexpectedEOF
  else do
    let hd ← slice data 0 2
    let opcode ← get16 hd
    let data ← slice data 2 data.length
    match c.de opcode with
    | none => .err .notRegistered
    | some d => d.run data

/-- A history of `RegisterMessage` calls on one codec (node.go `RegisterMessage`); a panicking call leaves the state as it was. The list holds the
returned opcodes (`none`: the call panicked). node.go:252-254, codec.go:33-56. -/
def Codec.runAll : Codec → List (GoType × Decoder) → Codec × List (Option UInt16)
  | c, [] => (c, [])
  | c, (t, d) :: r =>
    match c.register t d with
    | none => let (c', os) := c.runAll r; (c', none :: os)
    | some (c1, o) => let (c', os) := c1.runAll r; (c', some o :: os)

end Noise
