import Verif.Model.TS
/-!
# `Bind` and `Handle` from several goroutines

Both methods (node.go:449-455, 463-469) check `listening`, read the slice, and store the result of `append`. Each of the three is a step here. One list stands for either slice; its elements are the values registered.
Simplification: `append` yields a new list (in Go it may write into the spare capacity of the old array, which makes overlapping calls overwrite each other's elements, too).
-/
namespace Noise.Register

/-- node.go:449-455, 463-469: where a call of `Bind` or `Handle` is. -/
inductive Pc (α : Type) where
  | start
  /-- `listening` was false -/
  | checked
  /-- the slice has been read -/
  | read (old : List α)
  | done

/-- node.go:449-455, 463-469: a call of `Bind` or `Handle`. -/
structure Call (α : Type) where
  arg : List α
  pc : Pc α

/-- node.go:45, 51-52 and the calls under way. -/
structure State (α : Type) where
  listening : Bool
  list : List α
  calls : List (Call α)

/-- node.go:62-77. -/
def State.new (α : Type) : State α := ⟨false, [], []⟩

/-- node.go:449-455, 463-469: a call begins or takes a step. -/
inductive Action (α : Type) where
  /-- a goroutine calls `Bind` or `Handle` with these values -/
  | call (arg : List α)
  /-- node.go:450, 464 -/
  | check (i : Nat)
  /-- node.go:454, 468: the slice is read -/
  | read (i : Nat)
  /-- node.go:454, 468: the slice is stored -/
  | store (i : Nat)
  /-- node.go:200 -/
  | listen

variable {α : Type}

/-- Not in the code: where call `k` is now. -/
def State.setPc (s : State α) (i : Nat) (c : Call α) (pc : Pc α) : State α := { s with calls := s.calls.set i { c with pc := pc } }

/-- node.go:449-455, 463-469: one step; `none`: not enabled. -/
def step (s : State α) : Action α → Option (State α)
  | .call arg => some { s with calls := s.calls ++ [⟨arg, .start⟩] }
  | .check i => match s.calls[i]? with
    | some c => match c.pc with
      | .start => some (s.setPc i c (if s.listening then .done else .checked))
      | _ => none
    | none => none
  | .read i => match s.calls[i]? with
    | some c => match c.pc with
      | .checked => some (s.setPc i c (.read s.list))
      | _ => none
    | none => none
  | .store i => match s.calls[i]? with
    | some c => match c.pc with
      | .read old => some { s.setPc i c .done with list := old ++ c.arg }
      | _ => none
    | none => none
  | .listen => some { s with listening := true }

end Noise.Register
