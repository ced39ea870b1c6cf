import Verif.Model.KadSync
import Verif.Proofs.KadNode
import Verif.Spec.Moments
/-! # When a connection is ready, its peer has been offered to the routing table -/
namespace Noise.KadSync
open Cl
variable {ε : Type}

/-- Every step is one of `Model/KadNode`. -/
theorem step_node {s s' : State ε} {a : KadNode.Action ε} (hs : step s a = some s') : KadNode.step s.node a = some s'.node := by
  cases a <;> simp only [step] at hs
  case conn i act =>
    split at hs
    · obtain ⟨n, h1, rfl⟩ := Option.map_eq_some_iff.1 hs
      exact h1
    · cases hs
  all_goals
    obtain ⟨n, h1, rfl⟩ := Option.map_eq_some_iff.1 hs
    exact h1

set_option linter.unusedSimpArgs false in
/-- How a connection gets to where it is about to close `ready`, and to where it has. -/
theorem shape {c c' : Cl.State ε} {act : Cl.Action ε} (h1 : CbInv c) (hl : Life c) (hs : Cl.step c act = some c') (e : ID) (hid : c'.id = some e) :
    (c'.main = .hsEnd → (c.main = .hsEnd ∧ c.id = some e ∧ byMain act = false) ∨ (c.main = .hsVerified ∧ byMain act = true ∧ KadNode.acks c c' = [e])) ∧
    (c'.ready = true → (c.ready = true ∧ c.id = some e) ∨ (c.main = .hsEnd ∧ c.id = some e ∧ byMain act = true)) := by
  have h2 := h1.preHs
  have h3 := hl.ready
  cl_cases act hs
  all_goals simp only [State.closeReady, State.closeReaderDone, State.closeWriterDone, State.closeClientDone, State.report, State.send, State.setCall] at hid ⊢
  all_goals first
    | (simp_all [byMain, MainPc.isReady, MainPc.preHs]; done)
    | (simp_all [byMain, MainPc.isReady, MainPc.preHs, KadNode.acks, KadNode.clientID]; done)
    | skip

/-! ## Moments -/
open Spec (Once)

section
variable {S A : Type} {stp : S → A → Option S} {s0 s s' : S} {as : List A} {a : A}

/-- One more step. -/
theorem once_snoc {P Q : S → List A → Prop} (h : Once stp s0 as P) (hr : runs stp s0 as = some s) (hpq : ∀ x ys, runs stp x ys = some s → P x ys → Q x (ys ++ [a])) : Once stp s0 (as ++ [a]) Q := by
  obtain ⟨xs, ys, x, rfl, h1, h2⟩ := h
  refine ⟨xs, ys ++ [a], x, by simp, h1, hpq x ys ?_ h2⟩
  rw [runs_append, h1] at hr
  exact hr

/-- The last moment. -/
theorem once_now {P : S → List A → Prop} (hr : runs stp s0 as = some s) (hp : P s []) : Once stp s0 as P := ⟨as, [], s, by simp, hr, hp⟩

/-- The moment before the last action. -/
theorem once_last {P : S → List A → Prop} (hr : runs stp s0 as = some s) (hp : P s [a]) : Once stp s0 (as ++ [a]) P := ⟨as, [a], s, rfl, hr, hp⟩

theorem runs_snoc (hr : runs stp s0 as = some s) (hs : stp s a = some s') : runs stp s0 (as ++ [a]) = some s' := runs_trans hr (runs_one hs)
end

/-- After `Update` the peer is the first in its bucket. -/
theorem update_first {t : Table} {e : ID} (hz : e.id ≠ zeroPublicKey) {b : Bool} (hb : (t.update e).2 = .ok b) : ((t.update e).1.bucket e.id).head?.map ID.id = some e.id := by
  have hi : (t.update e).1.bucketIndex e.id = t.bucketIndex e.id := Table.bucketIndex_congr (Table.update_self t e) _
  unfold Table.bucket
  rw [hi]
  rcases Table.update_cases t e with ⟨_, hz'⟩ | ⟨x, pre, post, _, hx, hu⟩ | ⟨_, _, _, hu⟩ | ⟨_, _, _, hu⟩
  · exact absurd hz' hz
  · rw [hu]; simp [Table.setBucket, hx]
  · rw [hu]; simp [Table.setBucket]
  · rw [hu] at hb; cases hb

/-- What a call of `Ack` or `OnPingFailed` may do in a step. -/
inductive Moves (k k' : Kad.State) (a : Kad.Action) (j : Nat) (id : ID) : Kad.Pc → Kad.Pc → Prop where
  | stays {pc} : Moves k k' a j id pc pc
  | recorded {ev b} (ht : k'.table = (k.table.update id).1) (hb : (k.table.update id).2 = .ok b) : Moves k k' a j id .update (.emit ev false)
  | full (ht : k'.table = k.table) (h1 : ∀ x ∈ k.table.bucket id.id, x.id ≠ id.id) (h2 : bucketSize ≤ (k.table.bucket id.id).length) : Moves k k' a j id .update .last
  | last {x} (ht : k'.table = k.table) (h : k.table.last id.id = .ok x) : Moves k k' a j id .last (.ping x)
  | pong {x} (ha : a = .pinged j true) : Moves k k' a j id (.ping x) (.emit (.evicted id) false)
  | lost {x} : Moves k k' a j id (.ping x) (.delete x)
  | again {x} : Moves k k' a j id (.delete x) .update
  | evicted {x y} : Moves k k' a j id (.delete x) (.emit (.evicted y) true)
  | emitted {ev b} : Moves k k' a j id (.emit ev b) (if b then .update else .done)
  | address {a' pc} : Moves k k' a j id (.deleteAddress a') pc

theorem moves_set {k : Kad.State} {l : List Kad.Event} {t : Table} {i j : Nat} {id id' : ID} {pc pc' : Kad.Pc} (hj : k.threads[j]? = some ⟨id, pc⟩) (hi : i = j → id' = id) :
    ∃ p, ({ k with table := t, log := l }.set i id' pc').threads[j]? = some ⟨id, p⟩ ∧ (p = if i = j then pc' else pc) := by
  simp only [Kad.State.set]
  by_cases h : i = j
  · subst h
    rw [hi rfl]
    refine ⟨pc', ?_, by simp⟩
    rw [List.getElem?_set_self (by rw [List.getElem?_eq_some_iff] at hj; exact hj.1)]
  · exact ⟨pc, by rw [List.getElem?_set_ne h]; exact hj, by simp [h]⟩

theorem thread_moves {k k' : Kad.State} {a : Kad.Action} (hs : Kad.step k a = some k') {j : Nat} {id : ID} {pc : Kad.Pc} (hj : k.threads[j]? = some ⟨id, pc⟩) :
    ∃ pc', k'.threads[j]? = some ⟨id, pc'⟩ ∧ Moves k k' a j id pc pc' := by
  have hlt : j < k.threads.length := (List.getElem?_eq_some_iff.1 hj).1
  simp only [Kad.step] at hs
  split at hs
  · cases hs
  cases a with
  | ack e => cases hs; exact ⟨pc, by simp only; rw [List.getElem?_append_left hlt]; exact hj, .stays⟩
  | pingFailed b => cases hs; exact ⟨pc, by simp only; rw [List.getElem?_append_left hlt]; exact hj, .stays⟩
  | table op => cases hs; exact ⟨pc, hj, .stays⟩
  | pinged i pong =>
    simp only at hs
    split at hs
    · rename_i id' x hi
      cases hs
      have key := moves_set (l := k.log) (t := k.table) (i := i) (id' := id') (pc' := if pong = true then .emit (.evicted id') false else .delete x) hj (by rintro rfl; rw [hi] at hj; cases hj; rfl)
      obtain ⟨p, h1, h2⟩ := key
      refine ⟨p, h1, ?_⟩
      by_cases hij : i = j
      · subst hij
        rw [hi] at hj; cases hj
        simp only [if_true] at h2
        subst h2
        cases pong
        · exact .lost
        · exact .pong rfl
      · rw [if_neg hij] at h2; subst h2; exact .stays
    · cases hs
  | step i =>
    simp only at hs
    split at hs
    · rename_i id' pc0 hi
      by_cases hij : i = j
      · subst hij
        rw [hi] at hj; cases hj
        cases pc with
        | update =>
          simp only [Kad.threadStep] at hs
          rcases Table.update_cases k.table id with ⟨hu, _⟩ | ⟨x, pre, post, _, _, hu⟩ | ⟨_, _, _, hu⟩ | ⟨h1, _, h2, hu⟩
          all_goals
            rw [hu] at hs
            simp only [Option.some.injEq] at hs
            subst hs
            refine ⟨_, by simp only [Kad.State.set]; rw [List.getElem?_set_self hlt], ?_⟩
          · exact .recorded (b := false) (by rw [hu]; rfl) (by rw [hu])
          · exact .recorded (b := false) (by rw [hu]; rfl) (by rw [hu])
          · exact .recorded (b := true) (by rw [hu]; rfl) (by rw [hu])
          · exact .full rfl h1 h2
        | last =>
          simp only [Kad.threadStep] at hs
          split at hs
          · rename_i x hx
            cases hs
            exact ⟨_, by simp only [Kad.State.set]; rw [List.getElem?_set_self hlt], .last rfl hx⟩
          · cases hs
            exact ⟨_, hi, .stays⟩
        | ping x => cases hs
        | delete x =>
          simp only [Kad.threadStep] at hs
          split at hs <;> cases hs
          · exact ⟨_, by simp only [Kad.State.set]; rw [List.getElem?_set_self hlt], .evicted⟩
          · exact ⟨_, by simp only [Kad.State.set]; rw [List.getElem?_set_self hlt], .again⟩
        | emit ev ag =>
          simp only [Kad.threadStep] at hs
          cases hs
          exact ⟨_, by simp only [Kad.State.set]; rw [List.getElem?_set_self hlt], .emitted⟩
        | deleteAddress b =>
          simp only [Kad.threadStep] at hs
          split at hs <;> cases hs
          · exact ⟨_, by simp only [Kad.State.set]; rw [List.getElem?_set_self hlt], .address⟩
          · exact ⟨_, by simp only [Kad.State.set]; rw [List.getElem?_set_self hlt], .address⟩
        | done => cases hs
      · refine ⟨pc, ?_, .stays⟩
        cases pc0 <;> simp only [Kad.threadStep] at hs
        all_goals (repeat' (split at hs)) <;> (try (cases hs; done)) <;> cases hs <;> simp only [Kad.State.set] <;> first | (rw [List.getElem?_set_ne hij]; exact hj) | exact hj
    · cases hs

/-! ## What has come of the peer of a connection -/

/-- Connection `i`, with the peer `e`, is not ready yet. -/
def Before (s : State ε) (i : Nat) (e : ID) : Prop := ∃ c, s.node.conns[i]? = some c ∧ c.ready = false ∧ c.id = some e

/-- `e` is the first in its bucket. -/
def First (s : State ε) (e : ID) : Prop := (s.node.kad.table.bucket e.id).head?.map ID.id = some e.id

/-- The bucket of `e` is full of others. -/
def Full (s : State ε) (e : ID) : Prop := (∀ x ∈ s.node.kad.table.bucket e.id, x.id ≠ e.id) ∧ bucketSize ≤ (s.node.kad.table.bucket e.id).length

/-- `x` is the last in the bucket of `e`. -/
def LastIs (s : State ε) (e x : ID) : Prop := (s.node.kad.table.bucket e.id).getLast? = some x

/-- A ping of `x` for the sake of `e` is answered next. -/
def Pong (s : State ε) (e x : ID) (ys : List (KadNode.Action ε)) : Prop := ∃ k rest, ys = .pinged k true :: rest ∧ s.node.kad.threads[k]? = some ⟨e, .ping x⟩

/-- The peer has been recorded. -/
def Met (s0 : State ε) (as : List (KadNode.Action ε)) (i : Nat) (e : ID) : Prop := Once step s0 as fun s _ => Before s i e ∧ First s e

/-- The peer has been turned away: its bucket was full, and later the last in it answered a ping. -/
def Turned (s0 : State ε) (as : List (KadNode.Action ε)) (i : Nat) (e : ID) : Prop :=
  Once step s0 as fun s ys => Before s i e ∧ Full s e ∧ ∃ x, Once step s ys fun s ys => LastIs s e x ∧ Once step s ys fun s ys => Before s i e ∧ Pong s e x ys

/-- What has happened when the `Ack` for the peer `e` of connection `i` is here. -/
def Good (s0 : State ε) (as : List (KadNode.Action ε)) (i : Nat) (e : ID) : Kad.Pc → Prop
  | .update | .delete _ => True
  | .last => Once step s0 as fun s _ => Before s i e ∧ Full s e
  | .ping x => Once step s0 as fun s ys => Before s i e ∧ Full s e ∧ Once step s ys fun s _ => LastIs s e x
  | .emit _ again => again = true ∨ Met s0 as i e ∨ Turned s0 as i e
  | .deleteAddress _ => False
  | .done => Met s0 as i e ∨ Turned s0 as i e

section
variable {s0 s s' : State ε} {as : List (KadNode.Action ε)} {a : KadNode.Action ε}

theorem Met.snoc {i : Nat} {e : ID} (h : Met s0 as i e) (hr : runs step s0 as = some s) : Met s0 (as ++ [a]) i e := once_snoc h hr fun _ _ _ h => h

theorem Turned.snoc {i : Nat} {e : ID} (h : Turned s0 as i e) (hr : runs step s0 as = some s) : Turned s0 (as ++ [a]) i e := by
  refine once_snoc h hr fun x ys hx ⟨h1, h2, y, h3⟩ => ⟨h1, h2, y, ?_⟩
  refine once_snoc h3 hx fun x ys hx ⟨h1, h2⟩ => ⟨h1, ?_⟩
  refine once_snoc h2 hx fun x ys hx ⟨h1, k, rest, h2, h3⟩ => ⟨h1, k, rest ++ [a], by simp [h2], h3⟩

theorem Good.snoc {i : Nat} {e : ID} {pc : Kad.Pc} (h : Good s0 as i e pc) (hr : runs step s0 as = some s) : Good s0 (as ++ [a]) i e pc := by
  cases pc with
  | update | delete _ => trivial
  | last => exact once_snoc h hr fun _ _ _ h => h
  | ping x => exact once_snoc h hr fun x ys hx ⟨h1, h2, h3⟩ => ⟨h1, h2, once_snoc h3 hx fun _ _ _ h => h⟩
  | emit ev b => exact h.imp_right (Or.imp (·.snoc hr) (·.snoc hr))
  | deleteAddress _ => exact h
  | done => exact h.imp (·.snoc hr) (·.snoc hr)

/-- The `Ack` for the peer goes on. -/
theorem Good.moves {i : Nat} {e : ID} {j : Nat} {pc pc' : Kad.Pc} {ka : Kad.Action} (h : Good s0 as i e pc) (hr : runs step s0 as = some s) (hs : step s a = some s') (hz : e.id ≠ zeroPublicKey)
    (hj : s.node.kad.threads[j]? = some ⟨e, pc⟩) (ha : ka = .pinged j true → a = .pinged j true) (hm : Moves s.node.kad s'.node.kad ka j e pc pc') (hb : Before s i e) (hb' : Before s' i e) :
    Good s0 (as ++ [a]) i e pc' := by
  have hr' := runs_snoc hr hs
  cases hm with
  | stays => exact h.snoc hr
  | @recorded ev b ht hb2 =>
    refine Or.inr (Or.inl (once_now hr' ⟨hb', ?_⟩))
    unfold First
    rw [ht]
    exact update_first hz hb2
  | full ht h1 h2 => exact once_last hr ⟨hb, h1, h2⟩
  | @last x ht hx =>
    refine once_snoc h hr fun y ys hy ⟨h1, h2⟩ => ⟨h1, h2, ?_⟩
    refine once_now (runs_snoc hy hs) ?_
    unfold LastIs
    rw [ht]
    unfold Table.last at hx
    split at hx
    · rename_i hg; cases hx; exact hg
    · cases hx
  | @pong x hp =>
    have ha' := ha hp
    subst ha'
    refine Or.inr (Or.inr ?_)
    refine once_snoc h hr fun y ys hy ⟨h1, h2, h3⟩ => ⟨h1, h2, x, ?_⟩
    refine once_snoc h3 hy fun y ys hy h4 => ⟨h4, ?_⟩
    exact once_last hy ⟨hb, j, [], rfl, hj⟩
  | lost => trivial
  | again => trivial
  | evicted => exact Or.inl rfl
  | @emitted ev b =>
    cases b with
    | true => trivial
    | false =>
      rcases h with h | h
      · cases h
      · exact h.imp (·.snoc hr) (·.snoc hr)
  | address => exact h.elim
end

structure Inv (s0 : State ε) (as : List (KadNode.Action ε)) (s : State ε) : Prop where
  conns : ∀ c ∈ s.node.conns, ∃ side, Cl.Reachable side c
  len : s.main.length = s.node.conns.length
  wait : ∀ i c e, s.node.conns[i]? = some c → c.main = .hsEnd → c.id = some e → e.id ≠ zeroPublicKey →
    ∃ k pc, s.main[i]? = some (some k) ∧ s.node.kad.threads[k]? = some ⟨e, pc⟩ ∧ Good s0 as i e pc
  ready : ∀ i c e, s.node.conns[i]? = some c → c.ready = true → c.id = some e → e.id ≠ zeroPublicKey → Met s0 as i e ∨ Turned s0 as i e

theorem Inv.before {s0 s : State ε} {as : List (KadNode.Action ε)} (h : Inv s0 as s) {i : Nat} {c : Cl.State ε} {e : ID} (hc : s.node.conns[i]? = some c) (hm : c.main = .hsEnd) (hid : c.id = some e) :
    Before s i e := by
  obtain ⟨side, hr⟩ := h.conns c (List.mem_of_getElem? hc)
  exact ⟨c, hc, by rw [(Life.reach hr).ready, hm]; rfl, hid⟩

/-- A step of the overlay alone. -/
theorem Inv.kad {s0 s s' : State ε} {as : List (KadNode.Action ε)} {a : KadNode.Action ε} (h : Inv s0 as s) (hr : runs step s0 as = some s) (hs : step s a = some s') {ka : Kad.Action}
    (hk : Kad.step s.node.kad ka = some s'.node.kad) (hc : s'.node.conns = s.node.conns) (hm : s'.main = s.main) (ha : ∀ j, ka = .pinged j true → a = .pinged j true) : Inv s0 (as ++ [a]) s' := by
  refine ⟨by rw [hc]; exact h.conns, by rw [hc, hm]; exact h.len, ?_, ?_⟩
  · intro i c e h1 h2 h3 h4
    rw [hc] at h1
    obtain ⟨k, pc, h5, h6, h7⟩ := h.wait i c e h1 h2 h3 h4
    obtain ⟨pc', h8, h9⟩ := thread_moves hk h6
    have hb := h.before h1 h2 h3
    refine ⟨k, pc', by rw [hm]; exact h5, h8, h7.moves hr hs h4 h6 (ha k) h9 hb ?_⟩
    obtain ⟨c0, q1, q2⟩ := hb
    exact ⟨c0, by rw [hc]; exact q1, q2⟩
  · intro i c e h1 h2 h3 h4
    rw [hc] at h1
    exact (h.ready i c e h1 h2 h3 h4).imp (·.snoc hr) (·.snoc hr)

theorem Inv.step {s0 s s' : State ε} {as : List (KadNode.Action ε)} {a : KadNode.Action ε} (h : Inv s0 as s) (hr : runs step s0 as = some s) (hs : step s a = some s') : Inv s0 (as ++ [a]) s' := by
  have hn := step_node hs
  simp only [KadNode.step] at hn
  split at hn
  · cases hn
  cases a with
  | connect side =>
    simp only [Option.some.injEq] at hn
    have hm : s'.main = s.main ++ [none] := by
      simp only [KadSync.step] at hs
      obtain ⟨n, _, rfl⟩ := Option.map_eq_some_iff.1 hs
      rfl
    have hcs : s'.node.conns = s.node.conns ++ [Cl.State.new side] := by rw [← hn]
    have hth : s'.node.kad = s.node.kad := by rw [← hn]
    have hold : ∀ (i : Nat) (c : Cl.State ε), s'.node.conns[i]? = some c → (c.main = .hsEnd ∨ c.ready = true) → s.node.conns[i]? = some c := by
      intro i c hc hx
      rw [hcs] at hc
      rcases Nat.lt_or_ge i s.node.conns.length with hlt | hge
      · rwa [List.getElem?_append_left hlt] at hc
      · rw [List.getElem?_append_right hge] at hc
        have : c = Cl.State.new side := by
          have := List.mem_of_getElem? hc
          simpa using this
        subst this
        rcases hx with hx | hx <;> cases hx
    refine ⟨?_, by rw [hm, hcs]; simp [h.len], ?_, ?_⟩
    · intro c hc
      rw [hcs, List.mem_append, List.mem_singleton] at hc
      rcases hc with hc | rfl
      · exact h.conns c hc
      · exact ⟨side, [], rfl⟩
    · intro i c e h1 h2 h3 h4
      obtain ⟨k, pc, h5, h6, h7⟩ := h.wait i c e (hold i c h1 (Or.inl h2)) h2 h3 h4
      refine ⟨k, pc, ?_, by rw [hth]; exact h6, h7.snoc hr⟩
      rw [hm, List.getElem?_append_left (List.getElem?_eq_some_iff.1 h5).1]
      exact h5
    · intro i c e h1 h2 h3 h4
      exact (h.ready i c e (hold i c h1 (Or.inr h2)) h2 h3 h4).imp (·.snoc hr) (·.snoc hr)
  | conn i act =>
    simp only at hn
    split at hn
    · rename_i c hi
      obtain ⟨c', hst, hn⟩ := Option.map_eq_some_iff.1 hn
      simp only [KadSync.step] at hs
      split at hs
      · rename_i hfree
        obtain ⟨n, hn', rfl⟩ := Option.map_eq_some_iff.1 hs
        simp only at hn
        subst hn
        have hlt : i < s.node.conns.length := (List.getElem?_eq_some_iff.1 hi).1
        obtain ⟨side, hrc⟩ := h.conns c (List.mem_of_getElem? hi)
        have hrc' : Cl.Reachable side c' := by
          obtain ⟨bs, hb⟩ := hrc
          exact ⟨bs ++ [act], by rw [Cl.run_append, hb]; simp [Cl.run, hst]⟩
        have hcs : ∀ (j : Nat) (d : Cl.State ε), (s.node.conns.set i c')[j]? = some d → (j = i ∧ d = c') ∨ (j ≠ i ∧ s.node.conns[j]? = some d) := by
          intro j d hj
          by_cases hji : j = i
          · subst hji; rw [List.getElem?_set_self hlt] at hj; cases hj; exact Or.inl ⟨rfl, rfl⟩
          · rw [List.getElem?_set_ne (Ne.symm hji)] at hj; exact Or.inr ⟨hji, hj⟩
        have hthr : ∀ (k : Nat) (th : Kad.Thread), s.node.kad.threads[k]? = some th → (s.node.kad.threads ++ (KadNode.acks c c').map fun e => (⟨e, .update⟩ : Kad.Thread))[k]? = some th := by
          intro k th hk
          rw [List.getElem?_append_left (List.getElem?_eq_some_iff.1 hk).1]; exact hk
        have hshape := shape (CbInv.reach hrc) (Life.reach hrc) hst
        refine ⟨?_, ?_, ?_, ?_⟩
        · intro d hd
          simp only [KadNode.State.callAcks] at hd
          rcases List.mem_or_eq_of_mem_set hd with hd | rfl
          · exact h.conns d hd
          · exact ⟨side, hrc'⟩
        · simp only [KadNode.State.callAcks, List.length_set]
          split <;> simp [h.len]
        · intro j d e h1 h2 h3 h4
          simp only [KadNode.State.callAcks] at h1 ⊢
          rcases hcs j d h1 with ⟨rfl, rfl⟩ | ⟨hji, h1⟩
          · rcases (hshape e h3).1 h2 with ⟨q1, q2, q3⟩ | ⟨_, q2, q3⟩
            · obtain ⟨k, pc, h5, h6, h7⟩ := h.wait j c e hi q1 q2 h4
              exact ⟨k, pc, by simp [q3]; exact h5, hthr _ _ h6, h7.snoc hr⟩
            · refine ⟨s.node.kad.threads.length, .update, ?_, ?_, trivial⟩
              · simp only [q2, if_true, q3]
                rw [List.getElem?_set_self (by rw [h.len]; exact hlt)]
                simp
              · simp [q3]
          · obtain ⟨k, pc, h5, h6, h7⟩ := h.wait j d e h1 h2 h3 h4
            refine ⟨k, pc, ?_, hthr _ _ h6, h7.snoc hr⟩
            split
            · rw [List.getElem?_set_ne (Ne.symm hji)]; exact h5
            · exact h5
        · intro j d e h1 h2 h3 h4
          simp only [KadNode.State.callAcks] at h1
          rcases hcs j d h1 with ⟨rfl, rfl⟩ | ⟨hji, h1⟩
          · rcases (hshape e h3).2 h2 with ⟨q1, q2⟩ | ⟨q1, q2, q3⟩
            · exact (h.ready j c e hi q1 q2 h4).imp (·.snoc hr) (·.snoc hr)
            · obtain ⟨k, pc, h5, h6, h7⟩ := h.wait j c e hi q1 q2 h4
              simp only [State.free, q3, Bool.not_true, Bool.false_or, Bool.and_eq_true] at hfree
              have hd := hfree.1
              simp only [State.returned, h5, h6, beq_iff_eq] at hd
              subst hd
              exact h7.imp (·.snoc hr) (·.snoc hr)
          · exact (h.ready j d e h1 h2 h3 h4).imp (·.snoc hr) (·.snoc hr)
      · cases hs
    · cases hn
  | dialFailed b | step j | pinged j b | userAck b | userTable b =>
    simp only at hn
    obtain ⟨k, hk, hn⟩ := Option.map_eq_some_iff.1 hn
    have hm : s'.main = s.main := by
      simp only [KadSync.step] at hs
      obtain ⟨n, _, rfl⟩ := Option.map_eq_some_iff.1 hs
      rfl
    exact h.kad hr hs (by rw [← hn]; exact hk) (by rw [← hn]) hm (by intro j hj; cases hj <;> rfl)

theorem Inv.run {t : Table} : ∀ {as : List (KadNode.Action ε)} {s : State ε}, runs KadSync.step (State.new t) as = some s → Inv (State.new t) as s := by
  intro as
  induction as using List.reverseRecOn with
  | nil =>
    intro s hr
    cases hr
    exact ⟨by simp [State.new, KadNode.State.new], rfl, by simp [State.new, KadNode.State.new], by simp [State.new, KadNode.State.new]⟩
  | append_singleton as a ih =>
    intro s hr
    rw [runs_append] at hr
    cases h1 : runs KadSync.step (State.new t) as with
    | none => rw [h1] at hr; cases hr
    | some s1 =>
      rw [h1] at hr
      obtain ⟨s2, h2, h3⟩ := runs_cons hr
      cases h3
      exact (ih h1).step h1 h2

end Noise.KadSync
