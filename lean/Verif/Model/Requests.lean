import Verif.Model.Frame
/-! # map.go: `requestMap`, the table of outstanding requests of one connection -/
namespace Noise

/-- map.go:99-103 `requestMap`. A channel is identified by the number of the `Request` call that created it. -/
structure RequestMap where
  entries : UInt64 → Option Nat
  nonce : UInt64

/-- map.go:105-107 `newRequestMap`. -/
def RequestMap.new : RequestMap := ⟨fun _ => none, 0⟩

/-- map.go:113-118: the candidate nonce. -/
def RequestMap.candidate (r : RequestMap) : UInt64 :=
  let nonce := if r.nonce = 18446744073709551615 then 0 else r.nonce
  nonce + 1

/-- map.go:109-128 `nextNonce` for call number `ch`; the counter advances even when the call fails. -/
def RequestMap.nextNonce (r : RequestMap) (ch : Nat) : RequestMap × Option UInt64 :=
  let nonce := r.candidate
  match r.entries nonce with
  | some _ => ({ r with nonce := nonce }, none)
  | none => ({ entries := fun n => if n = nonce then some ch else r.entries n, nonce := nonce }, some nonce)

/-- map.go:138-148 `findRequest`. -/
def RequestMap.findRequest (r : RequestMap) (nonce : UInt64) : RequestMap × Option Nat :=
  match r.entries nonce with
  | some ch => ({ r with entries := fun n => if n = nonce then none else r.entries n }, some ch)
  | none => (r, none)

/-- map.go:130-136 `markRequestFailed`: closing the nil channel of an unknown nonce panics (`none`). -/
def RequestMap.markRequestFailed (r : RequestMap) (nonce : UInt64) : Option RequestMap :=
  match r.entries nonce with
  | some _ => some { r with entries := fun n => if n = nonce then none else r.entries n }
  | none => none

/-- map.go:150-158 `close`. -/
def RequestMap.close (r : RequestMap) : RequestMap := { r with entries := fun _ => none }

/-- One call on the table. map.go:109-158. -/
inductive ReqOp where
  | register
  | find (nonce : UInt64)
  | fail (nonce : UInt64)
  | closeAll

/-- What one call on the table shows to the outside. map.go:109-158. -/
inductive ReqObs where
  | issued (nonce : UInt64)
  | refused
  | resolved (nonce : UInt64)
  | unknown (nonce : UInt64)
  | closedAll
  | panicked
  deriving DecidableEq

/-- One call; `k` numbers the calls. map.go:109-158. -/
def RequestMap.exec (r : RequestMap) (k : Nat) : ReqOp → RequestMap × ReqObs
  | .register => match r.nextNonce k with
    | (r', some n) => (r', .issued n)
    | (r', none) => (r', .refused)
  | .find n => match r.findRequest n with
    | (r', some _) => (r', .resolved n)
    | (r', none) => (r', .unknown n)
  | .fail n => match r.markRequestFailed n with
    | some r' => (r', .resolved n)
    | none => (r, .panicked)
  | .closeAll => (r.close, .closedAll)

/-- A history of calls: final table and observations, oldest first. map.go:109-158. -/
def RequestMap.run : RequestMap → Nat → List ReqOp → RequestMap × List ReqObs
  | r, _, [] => (r, [])
  | r, k, op :: ops =>
    let (r', o) := r.exec k op
    let (r'', os) := r'.run (k + 1) ops
    (r'', o :: os)

end Noise
