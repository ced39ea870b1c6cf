import Verif.Model.Reent
import Verif.Props.Kad
import Verif.Proofs.TS
/-! # C91: calls return after their context has ended -/
namespace Noise
namespace Reent

/-! ## The pool -/

structure PoolInv (s : State) : Prop where
  own : ∀ i c, s.conns[i]? = some c → c.pc ≠ .ended → s.pool c.addr = some i
  lt : ∀ a i, s.pool a = some i → i < s.conns.length

theorem PoolInv.new (t : Table) : PoolInv (State.new t) := ⟨by simp [State.new], by simp [State.new]⟩

/-- A connection moves on without ending. -/
theorem PoolInv.set {s : State} (h : PoolInv s) {i : Nat} {c : Conn} (hc : s.conns[i]? = some c) (hne : c.pc ≠ .ended) (pc : CPc) : PoolInv (s.setConn i c pc) := by
  constructor
  · intro j d hj hd
    simp only [State.setConn] at hj ⊢
    by_cases hij : i = j
    · subst hij
      rw [List.getElem?_set_self (List.getElem?_eq_some_iff.1 hc).1] at hj
      injection hj with hj; subst hj
      exact h.own _ c hc hne
    · rw [List.getElem?_set_ne hij] at hj
      exact h.own _ _ hj hd
  · intro a j hj
    simp only [State.setConn, List.length_set] at hj ⊢
    exact h.lt a j hj

/-- A connection ends. -/
theorem PoolInv.ended {s : State} (h : PoolInv s) {i : Nat} {c : Conn} (hc : s.conns[i]? = some c) (hne : c.pc ≠ .ended) :
    PoolInv { s.setConn i c .ended with pool := fun a => if a = c.addr then none else s.pool a } := by
  constructor
  · intro j d hj hd
    simp only [State.setConn] at hj ⊢
    by_cases hij : i = j
    · subst hij
      rw [List.getElem?_set_self (List.getElem?_eq_some_iff.1 hc).1] at hj
      injection hj with hj; subst hj
      exact absurd rfl hd
    · rw [List.getElem?_set_ne hij] at hj
      have h1 := h.own _ _ hj hd
      have h2 := h.own _ _ hc hne
      rw [if_neg]
      · exact h1
      · intro e; rw [e, h2] at h1; injection h1 with h1; exact hij h1
  · intro a j hj
    simp only [State.setConn, List.length_set] at hj ⊢
    split at hj
    · cases hj
    · exact h.lt a j hj

theorem PoolInv.get {s : State} (h : PoolInv s) (addr : Text) : PoolInv (s.get addr).1 := by
  unfold State.get
  cases hp : s.pool addr with
  | some j => exact h
  | none =>
    constructor
    · intro j d hj hd
      dsimp only at hj ⊢
      by_cases hlt : j < s.conns.length
      · rw [List.getElem?_append_left hlt] at hj
        have := h.own _ _ hj hd
        rw [if_neg]
        · exact this
        · intro e; rw [e, hp] at this; cases this
      · rw [List.getElem?_append_right (by omega)] at hj
        have : j - s.conns.length = 0 := by
          have := (List.getElem?_eq_some_iff.1 hj).1
          simp at this; omega
        rw [this] at hj
        simp at hj
        subst hj
        simp; omega
    · intro a j hj
      dsimp only at hj ⊢
      rw [List.length_append]
      split at hj
      · injection hj with hj; simp; omega
      · have := h.lt a j hj; omega

/-- What `get` keeps. -/
theorem get_conns (s : State) (addr : Text) {i : Nat} {c : Conn} (hc : s.conns[i]? = some c) : (s.get addr).1.conns[i]? = some c := by
  unfold State.get
  cases s.pool addr with
  | some j => exact hc
  | none => dsimp only; rw [List.getElem?_append_left (List.getElem?_eq_some_iff.1 hc).1]; exact hc

theorem dialStep_conns {s s' : State} {addr : Text} {q : DPc} {r : DRes} (hs : s.dialStep addr q = some (s', r)) {i : Nat} {c : Conn} (hc : s.conns[i]? = some c) :
    s'.conns[i]? = some c ∧ s'.users = s.users ∧ s'.table = s.table := by
  unfold State.dialStep at hs
  cases q with
  | get n =>
    simp only [Option.some.injEq, Prod.mk.injEq] at hs
    rw [← hs.1]
    refine ⟨get_conns s addr hc, ?_, ?_⟩ <;> (unfold State.get; cases s.pool addr <;> rfl)
  | select n j =>
    simp only at hs
    repeat' split at hs
    all_goals first
      | (cases hs; done)
      | (cases hs; exact ⟨hc, rfl, rfl⟩)
  | wait n j ctx =>
    simp only at hs
    repeat' split at hs
    all_goals first
      | (cases hs; done)
      | (cases hs; exact ⟨hc, rfl, rfl⟩)

theorem dialStep_pool {s s' : State} {addr : Text} {q : DPc} {r : DRes} (hs : s.dialStep addr q = some (s', r)) (h : PoolInv s) : PoolInv s' := by
  unfold State.dialStep at hs
  cases q with
  | get n =>
    simp only [Option.some.injEq, Prod.mk.injEq] at hs
    rw [← hs.1]; exact h.get addr
  | select n j =>
    simp only at hs
    repeat' split at hs
    all_goals first
      | (cases hs; done)
      | (cases hs; exact h)
  | wait n j ctx =>
    simp only at hs
    repeat' split at hs
    all_goals first
      | (cases hs; done)
      | (cases hs; exact h)

theorem PoolInv.table {s : State} (h : PoolInv s) (t : Table) : PoolInv { s with table := t } := ⟨h.own, h.lt⟩

theorem PoolInv.set' {s : State} (h : PoolInv s) (t : Table) {i : Nat} {c : Conn} (hc : s.conns[i]? = some c) (hne : c.pc ≠ .ended) (pc : CPc) :
    PoolInv ({ s with table := t }.setConn i c pc) := PoolInv.set (h.table t) hc hne pc

theorem PoolInv.users {s : State} (h : PoolInv s) (us : List User) : PoolInv { s with users := us } := ⟨h.own, h.lt⟩

theorem PoolInv.step {p : Params} {s s' : State} {a : Action} (h : PoolInv s) (hs : step p s a = some s') : PoolInv s' := by
  cases a with
  | call addr => cases hs; exact h.users _
  | fail i =>
    simp only [Reent.step] at hs
    split at hs
    · rename_i c hc
      split at hs
      · rename_i hpc; cases hs; exact h.ended hc (by simp [hpc])
      · cases hs
    · cases hs
  | handshake i e =>
    simp only [Reent.step] at hs
    split at hs
    · rename_i c hc
      split at hs
      · rename_i hpc; cases hs; exact h.set hc (by simp [hpc]) _
      · cases hs
    · cases hs
  | ack i =>
    simp only [Reent.step] at hs
    split at hs
    · rename_i c hc
      split at hs
      · rename_i e q hpc
        have hne : c.pc ≠ .ended := by simp [hpc]
        cases q <;> simp only [State.ackStep] at hs
        · split at hs <;> (cases hs; exact h.set' _ hc hne _)
        · split at hs
          · cases hs; exact h.set hc hne _
          · cases hs
        · cases hs
        · cases hs
        · cases hs; exact h.set' _ hc hne _
        · cases hs; exact h.set' _ hc hne _
      · cases hs
    · cases hs
  | pong i =>
    simp only [Reent.step] at hs
    split at hs
    · rename_i c hc
      split at hs
      · rename_i hpc; cases hs; exact h.set hc (by simp [hpc]) _
      · cases hs
    · cases hs
  | lost i =>
    simp only [Reent.step] at hs
    split at hs
    · rename_i c hc
      split at hs
      · rename_i hpc; cases hs; exact h.set hc (by simp [hpc]) _
      · cases hs
    · cases hs
  | dial w =>
    cases w with
    | conn i =>
      simp only [Reent.step] at hs
      split at hs
      · rename_i c hc
        split at hs
        · rename_i e x q hpc
          cases hd : s.dialStep x.address q with
          | none => simp [hd] at hs
          | some r =>
            simp only [hd, Option.map_some, Option.some.injEq] at hs
            rw [← hs]
            exact (dialStep_pool hd h).set (dialStep_conns hd hc).1 (by simp [hpc]) _
        · cases hs
      · cases hs
    | user u =>
      simp only [Reent.step] at hs
      split at hs
      · rename_i addr q hu
        cases hd : s.dialStep addr q with
        | none => simp [hd] at hs
        | some r =>
          obtain ⟨s1, r⟩ := r
          have h1 := dialStep_pool hd h
          simp only [hd, Option.map_some, Option.some.injEq] at hs
          rw [← hs]
          cases r with
          | more q => exact h1.users _
          | conn j => exact h1.users _
          | failed => exact ⟨h1.own, h1.lt⟩
      · cases hs
  | expire w =>
    cases w with
    | conn i =>
      simp only [Reent.step] at hs
      split at hs
      · rename_i c hc
        split at hs
        · rename_i e x q hpc
          cases hd : expired q with
          | none => simp [hd] at hs
          | some r =>
            simp only [hd, Option.map_some, Option.some.injEq] at hs
            rw [← hs]
            exact h.set hc (by simp [hpc]) _
        · cases hs
      · cases hs
    | user u =>
      simp only [Reent.step] at hs
      split at hs
      · rename_i addr q hu
        cases hd : expired q with
        | none => simp [hd] at hs
        | some r =>
          simp only [hd, Option.map_some, Option.some.injEq] at hs
          rw [← hs]
          exact h.users _
      · cases hs
  | close i =>
    simp only [Reent.step] at hs
    split at hs
    · rename_i c hc
      split at hs
      · rename_i hpc; cases hs; exact h.ended hc (by simp [hpc])
      · cases hs
    · cases hs

theorem PoolInv.reach {p : Params} {t : Table} {s : State} (h : Reachable p t s) : PoolInv s :=
  h.inv (fun _ _ _ h hs => PoolInv.step h hs) (PoolInv.new t)

/-! ## Connections that wait for each other -/

/-- The callback of connection `i` waits for the end of connection `j`. -/
def WaitsFor (s : State) (i j : Nat) : Prop := ∃ addr e x n b, s.conns[i]? = some ⟨addr, .callback e (.dial x (.wait n j b))⟩

/-- The connections in `S` wait for each other. -/
def Stuck (S : Nat → Prop) (s : State) : Prop := ∀ i, S i → ∃ j, S j ∧ WaitsFor s i j

theorem set_other {l : List Conn} {i k : Nat} {c d e : Conn} (hk : l[k]? = some d) (hi : l[i]? = some c) (hne : c ≠ d) : (l.set i e)[k]? = some d := by
  rw [List.getElem?_set_ne]
  · exact hk
  · intro e; subst e; rw [hk] at hi; exact hne (by injection hi with hi; exact hi.symm)

/-- A connection that waits for one that is in its callback stays as it is. -/
theorem frozen_step {p : Params} {s s' : State} {a : Action} (hs : step p s a = some s') {k j : Nat} {addr : Text} {e : ID} {x : ID} {n : Nat} {b : Bool}
    (hk : s.conns[k]? = some ⟨addr, .callback e (.dial x (.wait n j b))⟩) {d : Conn} (hj : s.conns[j]? = some d) (hd : d.pc ≠ .ended) :
    s'.conns[k]? = some ⟨addr, .callback e (.dial x (.wait n j b))⟩ := by
  cases a with
  | call addr => cases hs; exact hk
  | fail i =>
    simp only [step] at hs
    split at hs
    · rename_i c hc
      split at hs
      · rename_i hpc; cases hs; exact set_other hk hc (by intro h; rw [h] at hpc; cases hpc)
      · cases hs
    · cases hs
  | handshake i e =>
    simp only [step] at hs
    split at hs
    · rename_i c hc
      split at hs
      · rename_i hpc; cases hs; exact set_other hk hc (by intro h; rw [h] at hpc; cases hpc)
      · cases hs
    · cases hs
  | ack i =>
    simp only [step] at hs
    split at hs
    · rename_i c hc
      split at hs
      · rename_i e' q hpc
        cases q <;> simp only [State.ackStep] at hs
        · split at hs <;> (cases hs; exact set_other hk hc (by intro h; rw [h] at hpc; cases hpc))
        · split at hs
          · cases hs; exact set_other hk hc (by intro h; rw [h] at hpc; cases hpc)
          · cases hs
        · cases hs
        · cases hs
        · cases hs; exact set_other hk hc (by intro h; rw [h] at hpc; cases hpc)
        · cases hs; exact set_other hk hc (by intro h; rw [h] at hpc; cases hpc)
      · cases hs
    · cases hs
  | pong i =>
    simp only [step] at hs
    split at hs
    · rename_i c hc
      split at hs
      · rename_i hpc; cases hs; exact set_other hk hc (by intro h; rw [h] at hpc; cases hpc)
      · cases hs
    · cases hs
  | lost i =>
    simp only [step] at hs
    split at hs
    · rename_i c hc
      split at hs
      · rename_i hpc; cases hs; exact set_other hk hc (by intro h; rw [h] at hpc; cases hpc)
      · cases hs
    · cases hs
  | dial w =>
    cases w with
    | conn i =>
      simp only [step] at hs
      split at hs
      · rename_i c hc
        split at hs
        · rename_i e' x' q hpc
          cases hd' : s.dialStep x'.address q with
          | none => simp [hd'] at hs
          | some r =>
            obtain ⟨s1, r⟩ := r
            simp only [hd', Option.map_some, Option.some.injEq] at hs
            have hk1 := (dialStep_conns hd' hk).1
            have hc1 := (dialStep_conns hd' hc).1
            rw [← hs]
            refine set_other hk1 hc1 ?_
            intro h
            rw [h] at hpc
            cases hpc
            obtain ⟨da, dp⟩ := d
            cases dp <;> simp [State.dialStep, hj] at hd' hd
        · cases hs
      · cases hs
    | user u =>
      simp only [step] at hs
      split at hs
      · rename_i addr q hu
        cases hd' : s.dialStep addr q with
        | none => simp [hd'] at hs
        | some r =>
          obtain ⟨s1, r⟩ := r
          have h1 := (dialStep_conns hd' hk).1
          simp only [hd', Option.map_some, Option.some.injEq] at hs
          rw [← hs]
          cases r <;> exact h1
      · cases hs
  | expire w =>
    cases w with
    | conn i =>
      simp only [step] at hs
      split at hs
      · rename_i c hc
        split at hs
        · rename_i e' x' q hpc
          cases hd' : expired q with
          | none => simp [hd'] at hs
          | some r =>
            simp only [hd', Option.map_some, Option.some.injEq] at hs
            rw [← hs]
            refine set_other hk hc ?_
            intro h
            rw [h] at hpc
            cases hpc
            cases hd'
        · cases hs
      · cases hs
    | user u =>
      simp only [step] at hs
      split at hs
      · rename_i addr q hu
        cases hd' : expired q with
        | none => simp [hd'] at hs
        | some r =>
          simp only [hd', Option.map_some, Option.some.injEq] at hs
          rw [← hs]; exact hk
      · cases hs
  | close i =>
    simp only [step] at hs
    split at hs
    · rename_i c hc
      split at hs
      · rename_i hpc; cases hs; exact set_other hk hc (by intro h; rw [h] at hpc; cases hpc)
      · cases hs
    · cases hs

/-- Connections that wait for each other do so for ever. -/
theorem stuck_for_ever {p : Params} {S : Nat → Prop} {s s' : State} (h : Stuck S s) (hr : ReachFrom (step p) s s') :
    Stuck S s' ∧ ∀ i, S i → s'.conns[i]? = s.conns[i]? := by
  refine hr.inv (P := fun s' => Stuck S s' ∧ ∀ i, S i → s'.conns[i]? = s.conns[i]?) ?_ ⟨h, fun _ _ => rfl⟩
  rintro s1 a s2 ⟨h1, h2⟩ hs
  have key : ∀ i, S i → s2.conns[i]? = s1.conns[i]? := by
    intro i hi
    obtain ⟨j, hj, addr, e, x, n, b, hk⟩ := h1 i hi
    obtain ⟨j', -, addr', e', x', n', b', hk'⟩ := h1 j hj
    rw [hk]
    exact frozen_step hs hk hk' (by simp)
  refine ⟨?_, fun i hi => (key i hi).trans (h2 i hi)⟩
  intro i hi
  obtain ⟨j, hj, addr, e, x, n, b, hk⟩ := h1 i hi
  exact ⟨j, hj, addr, e, x, n, b, (key i hi).trans hk⟩

/-! ## The calls -/

/-- Every step leaves the calls as they are, except those of the application and of its calls. -/
theorem users_step {p : Params} {s s' : State} {a : Action} (hs : step p s a = some s') (h1 : ∀ addr, a ≠ .call addr) (h2 : ∀ u, a ≠ .dial (.user u)) (h3 : ∀ u, a ≠ .expire (.user u)) :
    s'.users = s.users := by
  cases a with
  | call addr => exact absurd rfl (h1 addr)
  | dial w =>
    cases w with
    | user u => exact absurd rfl (h2 u)
    | conn i =>
      simp only [step] at hs
      split at hs
      · rename_i c hc
        split at hs
        · rename_i e' x' q hpc
          cases hd' : s.dialStep x'.address q with
          | none => simp [hd'] at hs
          | some r =>
            obtain ⟨s1, r⟩ := r
            simp only [hd', Option.map_some, Option.some.injEq] at hs
            rw [← hs]
            exact (dialStep_conns hd' hc).2.1
        · cases hs
      · cases hs
  | expire w =>
    cases w with
    | user u => exact absurd rfl (h3 u)
    | conn i =>
      simp only [step] at hs
      split at hs
      · rename_i c hc
        split at hs
        · rename_i e' x' q hpc
          cases hd' : expired q with
          | none => simp [hd'] at hs
          | some r =>
            simp only [hd', Option.map_some, Option.some.injEq] at hs
            rw [← hs]; rfl
        · cases hs
      · cases hs
  | ack i =>
    simp only [step] at hs
    split at hs
    · split at hs
      · rename_i e' q hpc
        cases q <;> simp only [State.ackStep] at hs <;> (try split at hs) <;> cases hs <;> rfl
      · cases hs
    · cases hs
  | _ =>
    simp only [step] at hs
    split at hs
    · split at hs
      · cases hs; rfl
      · cases hs
    · cases hs

/-- Where the call is after this result. -/
def DRes.next : DRes → Option DPc
  | .more q => some q
  | _ => none

/-- The calls for the address `a` are on their way to connection `k`, or wait for it. -/
def UsersAt (a : Text) (k : Nat) (s : State) : Prop :=
  ∀ (u : Nat) (pc : Option DPc), s.users[u]? = some (User.mk a pc) → (∃ n, pc = some (.get n)) ∨ (∃ n, pc = some (.select n k)) ∨ ∃ n b, pc = some (.wait n k b)

theorem UsersAt.step {p : Params} {s s' : State} {act : Action} {a : Text} {k : Nat} {e : ID} {q : APc} (h : UsersAt a k s) (hs : step p s act = some s')
    (hp : s.pool a = some k) (hk : s.conns[k]? = some ⟨a, .callback e q⟩) : UsersAt a k s' := by
  by_cases hcall : ∃ addr, act = .call addr
  · obtain ⟨addr, rfl⟩ := hcall
    cases hs
    intro u pc hu
    simp only at hu
    by_cases hlt : u < s.users.length
    · rw [List.getElem?_append_left hlt] at hu; exact h u pc hu
    · rw [List.getElem?_append_right (by omega)] at hu
      have : u - s.users.length = 0 := by
        have := (List.getElem?_eq_some_iff.1 hu).1
        simp at this; omega
      rw [this] at hu
      simp at hu
      exact .inl ⟨_, hu.2.symm⟩
  by_cases hdial : ∃ u, act = .dial (.user u)
  · obtain ⟨v, rfl⟩ := hdial
    simp only [Reent.step] at hs
    split at hs
    · rename_i addr q' hv
      cases hd : s.dialStep addr q' with
      | none => simp [hd] at hs
      | some r =>
        obtain ⟨s1, r⟩ := r
        have hus := (dialStep_conns hd hk).2.1
        simp only [hd, Option.map_some, Option.some.injEq] at hs
        intro u pc hu
        have hu' : (s.users.set v ⟨addr, r.next⟩)[u]? = some ⟨a, pc⟩ := by
          rw [← hus, ← hu, ← hs]; cases r <;> rfl
        by_cases huv : v = u
        · subst huv
          rw [List.getElem?_set_self (List.getElem?_eq_some_iff.1 hv).1] at hu'
          simp only [Option.some.injEq, User.mk.injEq] at hu'
          obtain ⟨rfl, hpc⟩ := hu'
          rcases h v _ hv with ⟨n, hq⟩ | ⟨n, hq⟩ | ⟨n, b, hq⟩ <;> (injection hq with hq; subst hq)
          · simp only [State.dialStep, State.get, hp, Option.some.injEq, Prod.mk.injEq] at hd
            rw [← hd.2] at hpc
            exact .inr (.inl ⟨n, hpc.symm⟩)
          · simp [State.dialStep, hk] at hd
          · simp [State.dialStep, hk] at hd
        · rw [List.getElem?_set_ne huv] at hu'; exact h u pc hu'
    · cases hs
  by_cases hexp : ∃ u, act = .expire (.user u)
  · obtain ⟨v, rfl⟩ := hexp
    simp only [Reent.step] at hs
    split at hs
    · rename_i addr q' hv
      cases hd : expired q' with
      | none => simp [hd] at hs
      | some r =>
        simp only [hd, Option.map_some, Option.some.injEq] at hs
        intro u pc hu
        rw [← hs] at hu
        simp only at hu
        by_cases huv : v = u
        · subst huv
          rw [List.getElem?_set_self (List.getElem?_eq_some_iff.1 hv).1] at hu
          simp only [Option.some.injEq, User.mk.injEq] at hu
          obtain ⟨rfl, hpc⟩ := hu
          rcases h v _ hv with ⟨n, hq⟩ | ⟨n, hq⟩ | ⟨n, b, hq⟩ <;> (injection hq with hq; subst hq)
          · cases hd
          · simp only [expired, Option.some.injEq] at hd
            rw [← hd] at hpc
            exact .inr (.inr ⟨n, true, hpc.symm⟩)
          · cases hd
        · rw [List.getElem?_set_ne huv] at hu; exact h u pc hu
    · cases hs
  intro u pc hu
  rw [users_step hs (fun x e => hcall ⟨x, e⟩) (fun x e => hdial ⟨x, e⟩) (fun x e => hexp ⟨x, e⟩)] at hu
  exact h u pc hu

end Reent

open Reent

/-- **C91, refuted.** With the kademlia protocol bound, a call of `Ping`, `Send` or `Request` may never return, whatever its context: for every routing table, address `a` and identity `e` such that the table has
no room for `e` and the last peer `x` of that bucket has the address `a` too (a peer that came back with a new key), a call for `a` which finds `e` there leads to a state from which the
connection to `a` never gets out of its callback (it waits for its own end), and in which no call for `a` made before or later has returned or will ever return, also when its context has ended. -/
theorem C91_calls_return_refuted (p : Params) (t : Table) (e x : ID) (he : e.id ≠ zeroPublicKey) (hnew : t.recorded e.id = false) (hfull : bucketSize ≤ (t.bucket e.id).length) (hx : (t.bucket e.id).getLast? = some x) :
    ∃ s, Reachable p t s ∧ s.users ≠ [] ∧
      ∀ s', ReachFrom (step p) s s' →
        s'.conns[0]? = some ⟨x.address, .callback e (.dial x (.wait p.retries 0 true))⟩ ∧
        ∀ u ∈ s'.users, u.addr = x.address → u.pc ≠ none := by
  have hfull : t.update e = (t, .error .bucketFull) := by
    simp only [Table.recorded] at hnew
    have hf : (t.entries (t.bucketIndex e.id)).find? (fun y => y.id = e.id) = none := by
      rw [List.find?_eq_none]
      intro y hy h
      rw [List.any_eq_false] at hnew
      exact hnew y hy h
    unfold Table.update
    rw [if_neg he]
    simp only [hf]
    rw [if_neg (by simpa [Table.bucket] using hfull)]
  have hlast : t.last e.id = .ok x := by
    simp only [Table.bucket] at hx
    simp [Table.last, hx]
  let s : State := ⟨t, [⟨x.address, .callback e (.dial x (.wait p.retries 0 true))⟩], fun a => if a = x.address then some 0 else none, [⟨x.address, some (.select p.retries 0)⟩]⟩
  have hreach : Reachable p t s := by
    refine ⟨[.call x.address, .dial (.user 0), .handshake 0 e, .ack 0, .ack 0, .dial (.conn 0), .expire (.conn 0)], ?_⟩
    simp [runs, step, State.new, State.dialStep, State.get, State.setConn, State.ackStep, hfull, hlast, expired, s]
  refine ⟨s, hreach, by simp [s], ?_⟩
  intro s' hr
  have hst : Stuck (· = 0) s := by
    rintro i rfl
    exact ⟨0, rfl, x.address, e, x, p.retries, true, rfl⟩
  have hfr := fun {s'} (hr : ReachFrom (step p) s s') => (stuck_for_ever hst hr).2 0 rfl
  have hpool : ∀ {s'}, ReachFrom (step p) s s' → s'.pool x.address = some 0 := by
    intro s' hr
    exact (PoolInv.reach (hreach.trans hr)).own 0 _ (hfr hr) (by simp)
  have husers : UsersAt x.address 0 s' := by
    refine ReachFrom.ind (P := UsersAt x.address 0) ?_ ?_ hr
    · intro u pc hu
      have : u = 0 := by
        have := (List.getElem?_eq_some_iff.1 hu).1
        simp [s] at this; omega
      subst this
      simp [s] at hu
      exact .inr (.inl ⟨_, hu.symm⟩)
    · intro s1 a s2 hr1 h1 hs
      exact h1.step hs (hpool hr1) (hfr hr1)
  refine ⟨hfr hr, ?_⟩
  intro u hu ha hn
  obtain ⟨i, hi, rfl⟩ := List.mem_iff_getElem.1 hu
  have := husers i none (by rw [List.getElem?_eq_getElem hi, ← ha, ← hn])
  rcases this with ⟨n, h⟩ | ⟨n, h⟩ | ⟨n, b, h⟩ <;> cases h

/-- **C91, partial.** A call whose context ends while it waits for a connection returns once that connection's own goroutine has made at most one step, if the connection is not in a callback: the connection
has not completed its handshake (and fails, since it has been closed), or it is in use (and its loops end), or it has ended. Missing: connections in their `OnPeerConnected` callback, see `C91_calls_return_refuted`. -/
theorem C91_calls_return_partial (p : Params) (t : Table) (s : State) (_hr : Reachable p t s) (u : Nat) (addr : Text) (n j : Nat) (hu : s.users[u]? = some ⟨addr, some (.select n j)⟩)
    (c : Conn) (hj : s.conns[j]? = some c) (hc : ∀ e q, c.pc ≠ .callback e q) :
    ∃ as s', (∀ a ∈ as, a = .fail j ∨ a = .close j) ∧ as.length ≤ 1 ∧
      runs (step p) s (.expire (.user u) :: as ++ [.dial (.user u)]) = some s' ∧ s'.users[u]? = some ⟨addr, none⟩ := by
  have hul := (List.getElem?_eq_some_iff.1 hu).1
  have hjl := (List.getElem?_eq_some_iff.1 hj).1
  have key : ∀ as : List Action, (∀ a ∈ as, a = .fail j ∨ a = .close j) → as.length ≤ 1 →
      (runs (step p) s (.expire (.user u) :: as ++ [.dial (.user u)])).map (fun s' => s'.users[u]?) = some (some ⟨addr, none⟩) →
      ∃ as s', (∀ a ∈ as, a = .fail j ∨ a = .close j) ∧ as.length ≤ 1 ∧
        runs (step p) s (.expire (.user u) :: as ++ [.dial (.user u)]) = some s' ∧ s'.users[u]? = some ⟨addr, none⟩ := by
    intro as h1 h2 h3
    obtain ⟨s', h4, h5⟩ := Option.map_eq_some_iff.1 h3
    exact ⟨as, s', h1, h2, h4, h5⟩
  obtain ⟨ca, cp⟩ := c
  cases cp with
  | callback e q => exact absurd rfl (hc e q)
  | dialing =>
    refine key [.fail j] (by simp) (by simp) ?_
    simp [runs, step, hu, hj, expired, State.setConn, List.getElem?_set_self hul, State.dialStep, List.getElem?_set_self hjl]
  | live =>
    refine key [.close j] (by simp) (by simp) ?_
    simp [runs, step, hu, hj, expired, State.setConn, List.getElem?_set_self hul, State.dialStep, List.getElem?_set_self hjl]
  | ended =>
    refine key [] (by simp) (by simp) ?_
    simp [runs, step, hu, hj, expired, List.getElem?_set_self hul, State.dialStep]

/-- The hypotheses of `C91_calls_return_refuted` are met by a table of a node that has been told of 16 peers: the first of them, at port 100, comes back with the key `17`. -/
example : ∃ x, (newID (keyOf [17]) [] 100).id ≠ zeroPublicKey ∧ exDistinct.recorded (newID (keyOf [17]) [] 100).id = false ∧
    bucketSize ≤ (exDistinct.bucket (newID (keyOf [17]) [] 100).id).length ∧ (exDistinct.bucket (newID (keyOf [17]) [] 100).id).getLast? = some x ∧
    x.address = (newID (keyOf [17]) [] 100).address := ⟨newID (keyOf [1]) [] 100, by decide +kernel⟩

/-- The hypotheses of `C91_calls_return_partial` are met: a call waits for a connection that is being dialled. -/
example : ∃ s, Reachable ⟨2⟩ exDistinct s ∧ s.users[0]? = some ⟨[], some (.select 2 0)⟩ ∧ s.conns[0]? = some ⟨[], .dialing⟩ :=
  ⟨_, ⟨[.call [], .dial (.user 0)], rfl⟩, rfl, rfl⟩

end Noise
