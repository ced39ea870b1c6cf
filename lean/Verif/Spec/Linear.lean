/-! # Specification vocabulary: linearizability of concurrent calls -/
namespace Noise.Spec
variable {Op Ret S : Type}

/-- What can be seen of concurrent calls from outside: call number `k` begins, and it returns. -/
inductive CallEv (Op Ret : Type) where
  | inv (k : Nat) (op : Op)
  | ret (k : Nat) (r : Ret)

/-- The calls, made one after the other starting in state `s`, return these results. -/
def Sequential (apply : Op → S → S × Ret) : S → List (Nat × Op × Ret) → Prop
  | _, [] => True
  | s, (_, op, r) :: l => (apply op s).2 = r ∧ Sequential apply (apply op s).1 l

/-- `x` occurs before `y`. -/
def Before {α : Type} (l : List α) (x y : α) : Prop := ∃ l1 l2 l3, l = l1 ++ x :: l2 ++ y :: l3

/-- Concurrent calls on an object are *linearizable* if they can be put in an order such that: no call occurs twice; all of them have been made; every call that has returned occurs, with
the result it returned; made one after the other in this order they have these results; and a call that had returned before another one began comes before it. -/
def Linearizable (apply : Op → S → S × Ret) (init : S) (log : List (CallEv Op Ret)) : Prop :=
  ∃ order : List (Nat × Op × Ret),
    (order.map (·.1)).Nodup ∧
    (∀ k op r, (k, op, r) ∈ order → .inv k op ∈ log) ∧
    (∀ k r, .ret k r ∈ log → ∃ op, (k, op, r) ∈ order) ∧
    Sequential apply init order ∧
    (∀ a r b op, Before log (.ret a r) (.inv b op) → b ∈ order.map (·.1) → Before (order.map (·.1)) a b)

end Noise.Spec
