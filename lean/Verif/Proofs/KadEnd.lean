import Verif.Proofs.KadNode
import Verif.Props.Kad
/-! # All calls of `Ack` end: a measure that every step decreases -/
set_option linter.unusedSimpArgs false
namespace Noise.KadEnd
open Kad

open Classical in
/-- What a thread may still do, if at most `N` more entries can be removed from the table. -/
noncomputable def weight (N : Nat) (t : Table) : Pc → Nat
  | .update => 6 * N + 5
  | .last => 6 * N + 4
  | .ping x => if ∃ e ∈ t.all, e.id = x.id then 6 * N + 3 else 6 * N + 9
  | .delete x => if ∃ e ∈ t.all, e.id = x.id then 6 * N + 2 else 6 * N + 8
  | .emit _ true => 6 * N + 6
  | .emit _ false => 1
  | .deleteAddress _ => 2
  | .done => 0

/-- 1 for a thread that may still insert an entry. -/
def act : Pc → Nat
  | .update | .last | .ping _ | .delete _ | .emit _ true => 1
  | _ => 0

theorem act_le (pc : Pc) : act pc ≤ 1 := by unfold act; split <;> omega

theorem weight_le (N : Nat) (t : Table) (pc : Pc) : weight N t pc ≤ 6 * N + 9 := by
  unfold weight
  split <;> (try split) <;> omega

theorem weight_mono {N N' : Nat} {t t' : Table} (hN : N' ≤ N) (h : ∀ k, (∃ e ∈ t.all, e.id = k) → (∃ e ∈ t'.all, e.id = k) ∨ N' + 1 ≤ N) (pc : Pc) : weight N' t' pc ≤ weight N t pc := by
  cases pc with
  | ping x =>
    have := h x.id
    simp only [weight]
    split <;> split <;> rename_i h1 h2
    · omega
    · omega
    · have := (this h2).resolve_left h1; omega
    · omega
  | delete x =>
    have := h x.id
    simp only [weight]
    split <;> split <;> rename_i h1 h2
    · omega
    · omega
    · have := (this h2).resolve_left h1; omega
    · omega
  | emit ev b => cases b <;> simp only [weight] <;> omega
  | _ => simp only [weight]; omega

theorem sum_set_eq (f : Thread → Nat) (l : List Thread) (i : Nat) (th th' : Thread) (h : l[i]? = some th) : ((l.set i th').map f).sum + f th = (l.map f).sum + f th' := by
  induction l generalizing i with
  | nil => simp at h
  | cons x l ih =>
    cases i with
    | zero => simp at h; subst h; simp; omega
    | succ i => simp at h; have := ih i h; simp only [List.set_cons_succ, List.map_cons, List.sum_cons]; omega

theorem sum_le {f g : Thread → Nat} (h : ∀ x, f x ≤ g x) (l : List Thread) : (l.map f).sum ≤ (l.map g).sum := by
  induction l with
  | nil => simp
  | cons x l ih => have := h x; simp; omega

theorem sum_bound {f : Thread → Nat} {b : Nat} (h : ∀ x, f x ≤ b) (l : List Thread) : (l.map f).sum ≤ l.length * b := by
  induction l with
  | nil => simp
  | cons x l ih => have := h x; simp [Nat.add_mul]; omega

/-- How many more entries can be removed, if `k` more calls of `Ack` and `u` more calls of methods of the table come. -/
def room (k u : Nat) (s : Kad.State) : Nat := s.table.all.length + (s.threads.map fun th => act th.pc).sum + k + u

/-- 1 unless the process has crashed. -/
def alive (crashed : Bool) : Nat := if crashed then 0 else 1

/-- The measure. -/
noncomputable def measure (k f u : Nat) (s : Kad.State) : Nat :=
  (s.threads.map fun th => weight (room k u s) s.table th.pc).sum + k * (6 * room k u s + 6) + 3 * f + u + alive s.crashed

theorem last_mem {t : Table} {k : PublicKey} {x : ID} (h : t.last k = .ok x) : x ∈ t.all := by
  unfold Table.last at h
  split at h
  · rename_i hg
    cases h
    exact (Table.mem_all t x).2 ⟨_, Table.bucketIndex_lt t k, List.mem_of_getLast? hg⟩
  · cases h

/-- A step of a thread. -/
theorem measure_set {k f u : Nat} {s : Kad.State} {i : Nat} {id : ID} {pc pc' : Pc} (hi : s.threads[i]? = some ⟨id, pc⟩) (t' : Table) (log : List Event)
    (hN : t'.all.length + act pc' ≤ s.table.all.length + act pc)
    (hp : ∀ key, (∃ e ∈ s.table.all, e.id = key) → (∃ e ∈ t'.all, e.id = key) ∨ t'.all.length + act pc' + 1 ≤ s.table.all.length + act pc)
    (hw : ∀ N N', N' + (s.table.all.length + act pc) = N + (t'.all.length + act pc') → weight N' t' pc' + 1 ≤ weight N s.table pc) :
    measure k f u ({ s with table := t', log := log }.set i id pc') + 1 ≤ measure k f u s := by
  have h1 := sum_set_eq (fun th => act th.pc) s.threads i ⟨id, pc⟩ ⟨id, pc'⟩ hi
  have hroom : room k u ({ s with table := t', log := log }.set i id pc') + (s.table.all.length + act pc) = room k u s + (t'.all.length + act pc') := by
    simp only [room, State.set] at h1 ⊢
    omega
  have h2 := sum_set_eq (fun th => weight (room k u ({ s with table := t', log := log }.set i id pc')) t' th.pc) s.threads i ⟨id, pc⟩ ⟨id, pc'⟩ hi
  have h3 : ∀ th : Thread, weight (room k u ({ s with table := t', log := log }.set i id pc')) t' th.pc ≤ weight (room k u s) s.table th.pc := by
    intro th
    refine weight_mono (by omega) (fun key hk => ?_) _
    rcases hp key hk with h | h
    · exact .inl h
    · exact .inr (by omega)
  have h4 := hw _ _ hroom
  have h5 : k * (6 * room k u ({ s with table := t', log := log }.set i id pc') + 6) ≤ k * (6 * room k u s + 6) := Nat.mul_le_mul_left _ (by omega)
  -- the other threads
  have h6 : ((s.threads.map fun th => weight (room k u ({ s with table := t', log := log }.set i id pc')) t' th.pc).sum + weight (room k u s) s.table pc) ≤
      (s.threads.map fun th => weight (room k u s) s.table th.pc).sum + weight (room k u ({ s with table := t', log := log }.set i id pc')) t' pc := by
    have e1 := sum_set_eq (fun th => weight (room k u ({ s with table := t', log := log }.set i id pc')) t' th.pc) s.threads i ⟨id, pc⟩ ⟨id, .done⟩ hi
    have e2 := sum_set_eq (fun th => weight (room k u s) s.table th.pc) s.threads i ⟨id, pc⟩ ⟨id, .done⟩ hi
    have e3 := sum_le h3 (s.threads.set i ⟨id, .done⟩)
    have e4 : ∀ N t, weight N t .done = 0 := fun _ _ => rfl
    dsimp only at e1 e2 e3
    rw [e4] at e1 e2
    omega
  simp only [measure] at h2 h4 h5 h6 ⊢
  dsimp only [State.set] at h2 h4 h5 h6 ⊢
  omega


theorem length_update (t : Table) (e : ID) : ((t.update e).2 = .ok true ∧ (t.update e).1.all.Perm (e :: t.all)) ∨ ((t.update e).2 ≠ .ok true ∧ (t.update e).1.all.Perm t.all) := by
  rcases Table.update_cases t e with ⟨h1, _⟩ | ⟨y, pre, post, h1, _, h2⟩ | ⟨_, _, _, h2⟩ | ⟨_, _, _, h2⟩
  · rw [h1]; exact .inr ⟨by simp, .refl _⟩
  · rw [h2]; exact .inr ⟨by simp, Table.perm_move (Table.bucketIndex_lt _ _) h1⟩
  · rw [h2]; exact .inl ⟨rfl, Table.perm_add (Table.bucketIndex_lt _ _) e⟩
  · rw [h2]; exact .inr ⟨by simp, .refl _⟩

theorem length_delete {t : Table} (hi : t.Inv) (k : PublicKey) : ((t.delete k).2.2 = true ∧ (∃ e ∈ t.all, e.id = k) ∧ ∃ x, t.all.Perm (x :: (t.delete k).1.all)) ∨
    ((t.delete k).2.2 = false ∧ (t.delete k).1 = t ∧ ¬ ∃ e ∈ t.all, e.id = k) := by
  rcases Table.delete_cases t k with ⟨h1, h2⟩ | ⟨y, pre, post, h1, hy, h2⟩
  · rw [h1]
    refine .inr ⟨rfl, rfl, ?_⟩
    rintro ⟨e, he, rfl⟩
    exact h2 e ((hi.mem_all_iff e).1 he) rfl
  · rw [h2]
    have := Table.perm_remove (Table.bucketIndex_lt t k) h1
    exact .inl ⟨rfl, ⟨y, this.mem_iff.2 (by simp), hy⟩, y, this⟩

theorem length_deleteByAddress (t : Table) (a : Text) : ((t.deleteByAddress a).2.2 = true ∧ ∃ x, t.all.Perm (x :: (t.deleteByAddress a).1.all)) ∨ ((t.deleteByAddress a).2.2 = false ∧ (t.deleteByAddress a).1 = t) := by
  rcases Table.deleteByAddress_cases t a with ⟨h1, _⟩ | ⟨j, y, pre, post, hj, h1, hy, h2⟩
  · rw [h1]; exact .inr ⟨rfl, rfl⟩
  · rw [h2]; exact .inl ⟨rfl, y, Table.perm_remove hj h1⟩

/-- Permuted entries, with one more or one fewer. -/
theorem pres_perm {l l' : List ID} (h : l'.Perm l) (key : PublicKey) : (∃ e ∈ l, e.id = key) → ∃ e ∈ l', e.id = key := fun ⟨e, he, hk⟩ => ⟨e, h.mem_iff.2 he, hk⟩
theorem pres_add {l l' : List ID} {x : ID} (h : l'.Perm (x :: l)) (key : PublicKey) : (∃ e ∈ l, e.id = key) → ∃ e ∈ l', e.id = key := fun ⟨e, he, hk⟩ => ⟨e, h.mem_iff.2 (List.mem_cons_of_mem _ he), hk⟩

/-- What the actions count for. -/
def acks : Kad.Action → Nat | .ack _ => 1 | _ => 0
def fails : Kad.Action → Nat | .pingFailed _ => 1 | _ => 0
def ops : Kad.Action → Nat | .table _ => 1 | _ => 0

theorem measure_step {s s' : Kad.State} {a : Kad.Action} (hi : s.table.Inv) (hs : Kad.step s a = some s') (k f u : Nat) :
    measure k f u s' + 1 ≤ measure (acks a + k) (fails a + f) (ops a + u) s := by
  unfold Kad.step at hs
  split at hs
  · cases hs
  · rename_i hcr
    have hal : alive s.crashed = 1 := by simp [alive, hcr]
    cases a with
    | ack e =>
      cases hs
      have hroom : room k u { s with threads := s.threads ++ [⟨e, .update⟩] } = room (1 + k) u s := by simp [room, act]; omega
      simp only [measure, acks, fails, ops, Nat.zero_add]
      rw [hroom]
      simp only [List.map_append, List.sum_append, List.map_cons, List.map_nil, List.sum_cons, List.sum_nil, weight, Nat.add_mul]
      omega
    | pingFailed a =>
      cases hs
      have hroom : room k u { s with threads := s.threads ++ [⟨ID.zero, .deleteAddress a⟩] } = room k u s := by simp [room, act]
      simp only [measure, acks, fails, ops, Nat.zero_add]
      rw [hroom]
      simp only [List.map_append, List.sum_append, List.map_cons, List.map_nil, List.sum_cons, List.sum_nil, weight]
      omega
    | table op =>
      cases hs
      have key : (s.table.apply op).all.length ≤ s.table.all.length + 1 ∧ ∀ key, (∃ e ∈ s.table.all, e.id = key) → (∃ e ∈ (s.table.apply op).all, e.id = key) ∨ (s.table.apply op).all.length ≤ s.table.all.length := by
        cases op with
        | update e =>
          rcases length_update s.table e with ⟨_, h⟩ | ⟨_, h⟩
          · exact ⟨by rw [Table.apply, h.length_eq]; simp, fun key hk => .inl (pres_add h key hk)⟩
          · exact ⟨by rw [Table.apply, h.length_eq]; simp, fun key hk => .inl (pres_perm h key hk)⟩
        | delete key =>
          rcases length_delete hi key with ⟨_, _, x, h⟩ | ⟨_, h, _⟩
          · have := h.length_eq
            simp only [List.length_cons] at this
            exact ⟨by rw [Table.apply]; omega, fun _ _ => .inr (by rw [Table.apply]; omega)⟩
          · exact ⟨by rw [Table.apply, h]; omega, fun _ hk => .inl (by rw [Table.apply, h]; exact hk)⟩
        | deleteByAddress a =>
          rcases length_deleteByAddress s.table a with ⟨_, x, h⟩ | ⟨_, h⟩
          · have := h.length_eq
            simp only [List.length_cons] at this
            exact ⟨by rw [Table.apply]; omega, fun _ _ => .inr (by rw [Table.apply]; omega)⟩
          · exact ⟨by rw [Table.apply, h]; omega, fun _ hk => .inl (by rw [Table.apply, h]; exact hk)⟩
      have hroom : room k u { s with table := s.table.apply op } + s.table.all.length + 1 = room k (1 + u) s + (s.table.apply op).all.length := by simp [room]; omega
      have h1 : (s.threads.map fun th => weight (room k u { s with table := s.table.apply op }) (s.table.apply op) th.pc).sum ≤ (s.threads.map fun th => weight (room k (1 + u) s) s.table th.pc).sum := by
        refine sum_le (fun th => weight_mono (by omega) (fun key' hk => ?_) _) _
        rcases key.2 key' hk with h | h
        · exact .inl h
        · exact .inr (by omega)
      have h2 : k * (6 * room k u { s with table := s.table.apply op } + 6) ≤ k * (6 * room k (1 + u) s + 6) := Nat.mul_le_mul_left _ (by omega)
      simp only [measure, acks, fails, ops, Nat.zero_add]
      omega
    | pinged i pong =>
      simp only at hs
      split at hs
      · rename_i id x hx
        cases hs
        simp only [acks, fails, ops, Nat.zero_add]
        cases pong with
        | true =>
          refine measure_set hx s.table s.log (by simp [act]) (fun _ h => .inl h) (fun N N' hN => ?_)
          simp only [weight, if_true]
          split <;> omega
        | false =>
          refine measure_set hx s.table s.log (by simp [act]) (fun _ h => .inl h) (fun N N' hN => ?_)
          simp only [Bool.false_eq_true, if_false, act] at hN
          simp only [Bool.false_eq_true, if_false, weight]
          split <;> omega
      · cases hs
    | step i =>
      simp only at hs
      simp only [acks, fails, ops, Nat.zero_add]
      split at hs
      · rename_i id pc hx
        cases pc with
        | update =>
          simp only [threadStep] at hs
          have hl := length_update s.table id
          split at hs <;> rename_i hu <;> rw [hu] at hl <;> cases hs
          · rcases hl with ⟨_, h⟩ | ⟨h, _⟩
            · refine measure_set hx _ s.log (by rw [h.length_eq]; simp [act]) (fun key hk => .inl (pres_add h key hk)) (fun N N' hN => ?_)
              simp only [weight]; omega
            · exact absurd rfl h
          · rcases hl with ⟨h, _⟩ | ⟨_, h⟩
            · cases h
            · refine measure_set hx _ s.log (by rw [h.length_eq]; simp [act]) (fun key hk => .inl (pres_perm h key hk)) (fun N N' hN => ?_)
              simp only [weight]; omega
          · rcases hl with ⟨h, _⟩ | ⟨_, h⟩
            · cases h
            · refine measure_set hx _ s.log (by rw [h.length_eq]; simp [act]) (fun key hk => .inl (pres_perm h key hk)) (fun N N' hN => ?_)
              rw [h.length_eq] at hN
              simp only [weight]; simp only [act] at hN; omega
        | last =>
          simp only [threadStep] at hs
          split at hs <;> cases hs
          · rename_i x hl
            refine measure_set hx s.table s.log (by simp [act]) (fun _ h => .inl h) (fun N N' hN => ?_)
            have : ∃ e ∈ s.table.all, e.id = x.id := ⟨x, last_mem hl, rfl⟩
            simp only [weight, this, if_true]
            simp only [act] at hN
            omega
          · simp only [measure, room]
            have : alive true = 0 := rfl
            omega
        | ping x => cases hs
        | delete x =>
          simp only [threadStep] at hs
          have hl := length_delete hi x.id
          split at hs <;> rename_i hu <;> rw [hu] at hl <;> cases hs
          · rcases hl with ⟨_, hp, y, h⟩ | ⟨h, _⟩
            · have := h.length_eq
              simp only [List.length_cons] at this
              refine measure_set hx _ s.log (by simp only [act]; omega) (fun key hk => .inr (by simp only [act]; omega)) (fun N N' hN => ?_)
              simp only [act] at hN
              simp only [weight, hp, if_true]; omega
            · cases h
          · rcases hl with ⟨h, _⟩ | ⟨_, h, hp⟩
            · cases h
            · dsimp only at h
              subst h
              refine measure_set hx _ s.log (by simp [act]) (fun _ h => .inl h) (fun N N' hN => ?_)
              simp only [act] at hN
              simp only [weight, hp, if_false]; omega
        | emit ev again =>
          simp only [threadStep] at hs
          cases hs
          cases again with
          | true =>
            refine measure_set hx s.table _ (by simp [act]) (fun _ h => .inl h) (fun N N' hN => ?_)
            simp only [act, if_true] at hN
            simp only [weight, if_true]; omega
          | false =>
            refine measure_set hx s.table _ (by simp [act]) (fun _ h => .inl h) (fun N N' hN => ?_)
            simp [weight]
        | deleteAddress a =>
          simp only [threadStep] at hs
          have hl := length_deleteByAddress s.table a
          split at hs <;> rename_i hu <;> rw [hu] at hl <;> cases hs
          · rcases hl with ⟨_, y, h⟩ | ⟨h, _⟩
            · have := h.length_eq
              simp only [List.length_cons] at this
              refine measure_set hx _ s.log (by simp only [act]; omega) (fun key hk => .inr (by simp only [act]; omega)) (fun N N' hN => ?_)
              simp only [weight]; omega
            · cases h
          · rcases hl with ⟨h, _⟩ | ⟨_, h⟩
            · cases h
            · dsimp only at h
              subst h
              refine measure_set hx _ s.log (by simp [act]) (fun _ h => .inl h) (fun N N' hN => ?_)
              simp only [weight]; omega
        | done => cases hs
      · cases hs

end Noise.KadEnd
