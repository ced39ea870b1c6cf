/-!
# Basic vocabulary of the model: byte slices, outcomes of Go calls, big-endian integers
-/
namespace Noise

/-- A Go byte slice without its capacity and aliasing (those are modelled in `Model/Mem.lean`). Used for every `[]byte` that crosses a function boundary, e.g. client.go:282, msg.go:16. -/
abbrev Bytes := List UInt8

/-- Error values that the code distinguishes (`io.EOF`, `io.ErrUnexpectedEOF`, `ErrMessageTooLarge` of error.go:8, hex
decoding errors, an AEAD authentication failure, and every other error, identified by a number). -/
inductive Err where
  | eof
  | unexpectedEOF
  | messageTooLarge
  | hexDecode
  | aead
  | notRegistered
  | bucketFull
  | decoder (n : Nat)
  | other (n : Nat)
  deriving DecidableEq, Repr

/-- Outcome of a Go call that returns `(T, error)` and may panic. E.g. id.go:64, codec.go:79, client.go:282. -/
inductive Res (α : Type u) where
  | ok (a : α)
  | err (e : Err)
  | panic
  deriving DecidableEq, Repr

namespace Res
/-- Sequencing: an error is returned at once (`if err != nil { return err }`), a panic unwinds. E.g. id.go:64-90, client.go:282-313. -/
def bind {α : Type u} {β : Type v} : Res α → (α → Res β) → Res β
  | ok a, f => f a
  | err e, _ => err e
  | panic, _ => panic

instance : Monad Res where
  pure := Res.ok
  bind := Res.bind

@[simp] theorem bind_ok {α : Type u} {β : Type u} (a : α) (f : α → Res β) : (Res.ok a >>= f) = f a := rfl
@[simp] theorem bind_err {α : Type u} {β : Type u} (e : Err) (f : α → Res β) : ((Res.err e : Res α) >>= f) = Res.err e := rfl
@[simp] theorem bind_panic {α : Type u} {β : Type u} (f : α → Res β) : ((Res.panic : Res α) >>= f) = Res.panic := rfl
@[simp] theorem pure_eq {α : Type u} (a : α) : (pure a : Res α) = Res.ok a := rfl

/-- The call completed without panicking. Not in the code: a predicate for the theorems. -/
def NoPanic {α : Type u} : Res α → Prop
  | panic => False
  | _ => True
end Res

/-- Go slice expression `b[lo:hi]` on a slice with `cap = len`: panics when the bounds are out of range. E.g. id.go:64-90, msg.go:24-33, client.go:299. -/
def slice (b : Bytes) (lo hi : Nat) : Res Bytes :=
  if lo ≤ hi ∧ hi ≤ b.length then .ok ((b.drop lo).take (hi - lo)) else .panic

/-- `binary.BigEndian.PutUint16`. codec.go:58-77, id.go:57. -/
def put16 (v : UInt16) : Bytes := [(v >>> 8).toUInt8, v.toUInt8]

/-- `binary.BigEndian.Uint16`: panics (bounds check) on fewer than 2 bytes. codec.go:84, id.go:64-90. -/
def get16 : Bytes → Res UInt16
  | b0 :: b1 :: _ => .ok (b1.toUInt16 ||| (b0.toUInt16 <<< 8))
  | _ => .panic

/-- `binary.BigEndian.PutUint32`. client.go:331, 613. -/
def put32 (v : UInt32) : Bytes := [(v >>> 24).toUInt8, (v >>> 16).toUInt8, (v >>> 8).toUInt8, v.toUInt8]

/-- `binary.BigEndian.Uint32`. client.go:293. -/
def get32 : Bytes → Res UInt32
  | b0 :: b1 :: b2 :: b3 :: _ =>
    .ok (b3.toUInt32 ||| (b2.toUInt32 <<< 8) ||| (b1.toUInt32 <<< 16) ||| (b0.toUInt32 <<< 24))
  | _ => .panic

/-- `binary.BigEndian.PutUint64`. msg.go:18. -/
def put64 (v : UInt64) : Bytes :=
  [(v >>> 56).toUInt8, (v >>> 48).toUInt8, (v >>> 40).toUInt8, (v >>> 32).toUInt8,
   (v >>> 24).toUInt8, (v >>> 16).toUInt8, (v >>> 8).toUInt8, v.toUInt8]

/-- `binary.BigEndian.Uint64`. msg.go:24-33. -/
def get64 : Bytes → Res UInt64
  | b0 :: b1 :: b2 :: b3 :: b4 :: b5 :: b6 :: b7 :: _ =>
    .ok (b7.toUInt64 ||| (b6.toUInt64 <<< 8) ||| (b5.toUInt64 <<< 16) ||| (b4.toUInt64 <<< 24) |||
      (b3.toUInt64 <<< 32) ||| (b2.toUInt64 <<< 40) ||| (b1.toUInt64 <<< 48) ||| (b0.toUInt64 <<< 56))
  | _ => .panic

/-- keys.go:13-27: `PublicKey [32]byte`. -/
abbrev PublicKey := { l : Bytes // l.length = 32 }

/-- keys.go:13-29: `PrivateKey [64]byte`. -/
abbrev PrivateKey := { l : Bytes // l.length = 64 }

/-- keys.go:13-32: `Signature [64]byte`. -/
abbrev Signature := { l : Bytes // l.length = 64 }

/-- keys.go:35-37: `ZeroPublicKey`. -/
def zeroPublicKey : PublicKey := ⟨List.replicate 32 0, by simp⟩

/-- keys.go:39-40: `ZeroPrivateKey`. -/
def zeroPrivateKey : PrivateKey := ⟨List.replicate 64 0, by simp⟩

end Noise
