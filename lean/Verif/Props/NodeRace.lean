import Verif.Proofs.Sync
/-! # Property C123: data races between methods of a node (node.go) -/
namespace Noise.NodeRace
open Noise.Spec.Sync

/-! ## What programs contain -/

/-- The call configures the node: `Listen`, or `Bind` or `Handle` of a node that does not listen. -/
def Api.configures : Api → Bool
  | .bind false | .handle false | .listen _ => true
  | _ => false

/-- The call starts goroutines: it dials, is the application's own `go` statement, or is a `Listen` that succeeds. -/
def Api.starts : Api → Bool
  | .dial _ _ | .spawn _ | .listen (.ok _ _ _ _) => true
  | _ => false

theorem mem_calls {o : NOp} {l : List Api} : o ∈ calls l ↔ ∃ a ∈ l, o ∈ a.ops := by simp [calls]

theorem wr_api {v : Var} {a : Api} (h : .wr v ∈ a.ops) : a.configures = true := by
  cases a with
  | bind on => cases on <;> simp [Api.ops, Api.configures] at h ⊢
  | handle on => cases on <;> simp [Api.ops, Api.configures] at h ⊢
  | close on r => cases on <;> cases r <;> simp [Api.ops] at h
  | dial as f =>
    simp only [Api.ops, List.mem_append, List.mem_flatMap] at h
    rcases h with ⟨⟨x, y⟩, -, h⟩ | h
    · cases x <;> cases y <;> simp at h
    · cases f <;> simp at h
  | listen p => rfl
  | _ => simp [Api.ops] at h

theorem go_listenOps {t : Nat} {pub : Bool} {binds : List Bool} : .go t ∉ listenOps pub binds := by
  intro h
  simp only [listenOps, List.mem_append, List.mem_map] at h
  rcases h with ((h | h) | h) | ⟨b, -, h⟩
  · simp at h
  · cases pub <;> simp at h
  · simp at h
  · cases b <;> simp at h

theorem go_api {t : Nat} {a : Api} (h : .go t ∈ a.ops) : a.starts = true := by
  cases a with
  | bind on => cases on <;> simp [Api.ops] at h
  | handle on => cases on <;> simp [Api.ops] at h
  | close on r => cases on <;> cases r <;> simp [Api.ops] at h
  | dial as f => rfl
  | spawn t => rfl
  | listen p =>
    cases p with
    | already => simp [Api.ops, Path.ops] at h
    | fail pub binds k c st =>
      simp only [Api.ops, Path.ops, List.mem_append] at h
      rcases h with (h | h) | h
      · exact absurd (List.mem_of_mem_take h) go_listenOps
      · cases c <;> simp at h
      · cases st <;> simp at h
    | ok => rfl
  | _ => simp [Api.ops] at h

/-- Only calls that configure the node write to it. -/
theorem wr_prog {kind : Nat → Kind} {k : Kind} {l : List Api} {p : List NOp} (hp : Prog kind k l p) {v : Var} (h : .wr v ∈ p) : ∃ a ∈ l, a.configures = true ∧ .wr v ∈ a.ops := by
  cases hp with
  | app l =>
    obtain ⟨a, ha, h⟩ := mem_calls.1 h
    exact ⟨a, ha, wr_api h, h⟩
  | worker items drained =>
    simp only [List.mem_append, List.mem_flatMap] at h
    rcases h with ((h | ⟨x, hx, h | h⟩) | h) | h
    · simp at h
    · simp at h
    · obtain ⟨a, ha, h⟩ := mem_calls.1 h
      exact ⟨a, List.mem_flatten.2 ⟨x, hx, ha⟩, wr_api h, h⟩
    · cases drained <;> simp at h
    · simp at h
  | accept conns _ =>
    simp only [List.mem_append, List.mem_flatMap] at h
    rcases h with (h | ⟨c, -, h | h⟩) | h
    · simp at h
    · simp at h
    · cases c <;> simp at h
    · simp at h
  | conn l _ =>
    obtain ⟨x, hx, h⟩ := List.mem_flatMap.1 h
    cases x with
    | callback a => exact ⟨a, List.mem_flatMap.2 ⟨_, hx, by simp [Piece.api]⟩, wr_api h, h⟩
    | _ => simp [Piece.ops] at h

/-- A program of configuration and what comes after it. -/
theorem split_listen (conf rest : List Api) (p : Path) (hc : ∀ a ∈ conf, a.starts = false) (hr : ∀ a ∈ rest, a.configures = false) :
    ∃ A B, calls (conf ++ .listen p :: rest) = A ++ B ∧ (∀ t, .go t ∉ A) ∧ ∀ v, .wr v ∉ B := by
  have h1 : ∀ t, .go t ∉ calls conf := fun t h => by
    obtain ⟨a, ha, h⟩ := mem_calls.1 h
    have := go_api h
    rw [hc a ha] at this; cases this
  have h2 : ∀ v, .wr v ∉ calls rest := fun v h => by
    obtain ⟨a, ha, h⟩ := mem_calls.1 h
    have := wr_api h
    rw [hr a ha] at this; cases this
  have h3 : calls (conf ++ .listen p :: rest) = calls conf ++ p.ops ++ calls rest := by simp [calls, Api.ops]
  by_cases hp : (Api.listen p).starts = true
  · cases p with
    | ok pub binds ws a =>
      refine ⟨calls conf ++ (listenOps pub binds ++ [.wr .work]), ws.map .go ++ [.go a] ++ calls rest, by simp [h3, Path.ops], ?_, ?_⟩
      · intro t h
        rcases List.mem_append.1 h with h | h
        · exact h1 t h
        · rcases List.mem_append.1 h with h | h
          · exact go_listenOps h
          · simp at h
      · intro v h
        rcases List.mem_append.1 h with h | h
        · simp at h
        · exact h2 v h
    | _ => cases hp
  · refine ⟨calls conf ++ p.ops, calls rest, h3, ?_, h2⟩
    intro t h
    rcases List.mem_append.1 h with h | h
    · exact h1 t h
    · exact hp (go_api (a := .listen p) h)

/-- If one of two accesses is a write, and all writes happen before whatever other goroutines do, there is no race. -/
theorem no_race {c : Chan → Nat} {tr : NTrace} {v : Var}
    (h : ∀ i j e f, tr[i]? = some e → tr[j]? = some f → e.op = .wr v → f.op.Accesses v → e.tid ≠ f.tid → HB c tr i j) : ¬ Race c tr v := by
  rintro ⟨i, j, e, f, hi, hj, hlt, hne, he, hf, hw, hn⟩
  rcases hw with hw | hw
  · exact hn (h i j e f hi hj hw hf hne)
  · have := (h j i f e hj hi hw he (Ne.symm hne)).lt
    omega

end NodeRace

open NodeRace Spec.Sync in
/-- **C123, what holds** (missing: methods that are called while, or before, the node is configured). If one goroutine configures the node first, that is calls `Bind` and `Handle` and then `Listen`, without dialling or starting goroutines before,
and nobody calls `Listen`, or `Bind` or `Handle` of a node that does not listen, after that, then there is no data race on any field of the node, whatever methods are called by any number of goroutines that are started from then on, by handlers
and by callbacks of protocols. -/
theorem C123_configure_first_partial (n : Nat) (kind : Nat → Kind) (root : Nat → Bool) (api : Nat → List Api) (tr : NTrace) (h : Execution n kind root api tr) (hroot : ∀ t, root t = true ↔ t = 0) (conf rest : List Api) (p : Path)
    (h0 : api 0 = conf ++ .listen p :: rest) (hconf : ∀ a ∈ conf, a.starts = false) (hrest : ∀ a ∈ rest, a.configures = false) (hothers : ∀ t, t ≠ 0 → ∀ a ∈ api t, a.configures = false) (v : Var) : ¬ Race (cap n) tr v := by
  obtain ⟨s, hs⟩ := h.run
  -- writes are made by goroutine 0, before it starts any other
  have hw : ∀ (i t : Nat) (w : Var), tr[i]? = some (⟨t, .wr w⟩ : NEv) → t = 0 ∧ ∀ (k u : Nat), tr[k]? = some (⟨0, .go u⟩ : NEv) → i < k := by
    intro i t w hi
    have ht : t = 0 := by
      by_contra ht
      obtain ⟨q, hq, hpre⟩ := h.prog t
      obtain ⟨a, ha, hc, -⟩ := wr_prog hq (hpre.subset (mem_opsOf hi))
      rw [hothers t ht a ha] at hc; cases hc
    subst ht
    refine ⟨rfl, fun k u hk => ?_⟩
    obtain ⟨q, hq, hpre⟩ := h.prog 0
    rw [h.roots 0 ((hroot 0).2 rfl), h0] at hq
    cases hq
    obtain ⟨A, B, hAB, hA, hB⟩ := split_listen conf rest p hconf hrest
    rw [hAB] at hpre
    by_contra hki
    have hne : k ≠ i := by rintro rfl; rw [hi] at hk; cases hk
    exact no_pair (hA u) (hB w) hpre (pair_ops hk hi (by omega))
  -- whatever other goroutines do comes after
  have hafter : ∀ (j i t : Nat) (o : NOp) (w : Var), tr[i]? = some (⟨0, .wr w⟩ : NEv) → tr[j]? = some (⟨t, o⟩ : NEv) → t ≠ 0 → HB (cap n) tr i j := by
    intro j
    induction j using Nat.strongRecOn with
    | ind j ih =>
      intro i t o w hi hj ht
      obtain ⟨k, u, hk, hgo⟩ := go_before hs hj (by cases hr : root t with | false => rfl | true => exact absurd ((hroot t).1 hr) ht)
      have hkj : Edge (cap n) tr k j := .go_start hgo hj hk
      by_cases hu : u = 0
      · subst hu
        exact .trans (.edge (.po hi hgo ((hw i 0 w hi).2 k t hgo))) (.edge hkj)
      · exact .trans (ih k hk i u _ w hi hgo hu) (.edge hkj)
  refine no_race fun i j e f hi hj he hf hne => ?_
  obtain ⟨t, o⟩ := e
  obtain ⟨u, q⟩ := f
  simp only at he hne
  subst he
  obtain ⟨rfl, -⟩ := hw i t v hi
  exact hafter j i u q v hi hj (Ne.symm hne)

namespace NodeRace
open Noise.Spec.Sync

theorem Precedes.cons {x y : NOp} {p : List NOp} (h : x ≠ y) : Precedes x y (x :: p) := by
  intro a b hp
  cases a with
  | nil => simp only [List.nil_append, List.cons.injEq] at hp; exact absurd hp.1 h
  | cons z a => simp only [List.cons_append, List.cons.injEq] at hp; simp [hp.1]

def Api.isListen : Api → Bool
  | .listen _ => true
  | _ => false

theorem wr_listener {a : Api} (h : .wr .listener ∈ a.ops) : a.isListen = true := by
  cases a with
  | bind on => cases on <;> simp [Api.ops] at h
  | handle on => cases on <;> simp [Api.ops] at h
  | listen p => rfl
  | _ => have := wr_api h; cases this

/-- Apart from `Listen`, methods of the node look at the listener only when they have found the node listening. -/
theorem listener_api {a : Api} (h : a.isListen = false) : Precedes (.cas () true false) (.rd .listener) a.ops := by
  cases a with
  | close on r => cases on <;> cases r <;> first | exact .cons (by simp) | exact .of_not_mem (by simp [Api.ops])
  | listen p => cases h
  | bind on => cases on <;> exact .of_not_mem (by simp [Api.ops])
  | handle on => cases on <;> exact .of_not_mem (by simp [Api.ops])
  | dial as f =>
    refine .of_not_mem fun h => ?_
    simp only [Api.ops, List.mem_append, List.mem_flatMap] at h
    rcases h with ⟨⟨x, y⟩, -, h⟩ | h
    · cases x <;> cases y <;> simp at h
    · cases f <;> simp at h
  | _ => exact .of_not_mem (by simp [Api.ops])

theorem listener_prog {kind : Nat → Kind} {k : Kind} {l : List Api} {p : List NOp} (hp : Prog kind k l p) (hk : k ≠ .accept) (hl : ∀ a ∈ l, a.isListen = false) : Precedes (.cas () true false) (.rd .listener) p := by
  cases hp with
  | app l => exact .flatMap fun a ha => listener_api (hl a ha)
  | worker items drained =>
    refine .append (.append (.append (.of_not_mem (by simp)) (.flatMap fun x hx => .append (.of_not_mem (by simp)) (.flatMap fun a ha => listener_api (hl a (List.mem_flatten.2 ⟨x, hx, ha⟩))))) ?_) (.of_not_mem (by simp))
    cases drained <;> exact .of_not_mem (by simp)
  | accept => exact absurd rfl hk
  | conn l _ =>
    refine .flatMap fun x hx => ?_
    cases x with
    | callback a => exact listener_api (hl a (List.mem_flatMap.2 ⟨_, hx, by simp [Piece.api]⟩))
    | _ => exact .of_not_mem (by simp [Piece.ops])

/-- Who sets `listening` to true. -/
def setsTrue (o : NOp) : Prop := o = .store () true ∨ ∃ x, o = .cas () x true

theorem sets_listenOps {o : NOp} (ho : setsTrue o) {pub : Bool} {binds : List Bool} : o ∉ listenOps pub binds := by
  intro h
  simp only [listenOps, List.mem_append, List.mem_map] at h
  rcases ho with rfl | ⟨x, rfl⟩ <;>
  · rcases h with ((h | h) | h) | ⟨b, -, h⟩
    · simp at h
    · cases pub <;> simp at h
    · simp at h
    · cases b <;> simp at h

theorem sets_api {o : NOp} (ho : setsTrue o) (a : Api) : o ∉ a.ops := by
  cases a with
  | bind on => rcases ho with rfl | ⟨x, rfl⟩ <;> cases on <;> simp [Api.ops]
  | handle on => rcases ho with rfl | ⟨x, rfl⟩ <;> cases on <;> simp [Api.ops]
  | close on r => rcases ho with rfl | ⟨x, rfl⟩ <;> cases on <;> cases r <;> simp [Api.ops]
  | dial as f =>
    intro h
    simp only [Api.ops, List.mem_append, List.mem_flatMap] at h
    rcases h with ⟨⟨x, y⟩, -, h⟩ | h
    · rcases ho with rfl | ⟨_, rfl⟩ <;> cases x <;> cases y <;> simp at h
    · rcases ho with rfl | ⟨_, rfl⟩ <;> cases f <;> simp at h
  | listen p =>
    intro h
    cases p with
    | already => rcases ho with rfl | ⟨x, rfl⟩ <;> simp [Api.ops, Path.ops] at h
    | fail pub binds k c st =>
      simp only [Api.ops, Path.ops, List.mem_append] at h
      rcases h with (h | h) | h
      · exact absurd (List.mem_of_mem_take h) (sets_listenOps ho)
      · rcases ho with rfl | ⟨x, rfl⟩ <;> cases c <;> simp at h
      · rcases ho with rfl | ⟨x, rfl⟩ <;> cases st <;> simp at h
    | ok pub binds ws a =>
      simp only [Api.ops, Path.ops, List.mem_append] at h
      rcases h with ((h | h) | h) | h
      · exact absurd h (sets_listenOps ho)
      all_goals rcases ho with rfl | ⟨x, rfl⟩ <;> simp at h
  | _ => rcases ho with rfl | ⟨x, rfl⟩ <;> simp [Api.ops]

/-- Only the accept goroutine makes the node listen. -/
theorem sets_prog {kind : Nat → Kind} {k : Kind} {l : List Api} {p : List NOp} (hp : Prog kind k l p) {o : NOp} (ho : setsTrue o) (h : o ∈ p) : k = .accept := by
  cases hp with
  | accept => rfl
  | app l => obtain ⟨a, -, h⟩ := mem_calls.1 h; exact absurd h (sets_api ho a)
  | worker items drained =>
    exfalso
    simp only [List.mem_append, List.mem_flatMap] at h
    rcases h with ((h | ⟨x, hx, h | h⟩) | h) | h
    · rcases ho with rfl | ⟨x, rfl⟩ <;> simp at h
    · rcases ho with rfl | ⟨x, rfl⟩ <;> simp at h
    · obtain ⟨a, -, h⟩ := mem_calls.1 h; exact sets_api ho a h
    · rcases ho with rfl | ⟨x, rfl⟩ <;> cases drained <;> simp at h
    · rcases ho with rfl | ⟨x, rfl⟩ <;> simp at h
  | conn l _ =>
    exfalso
    obtain ⟨x, hx, h⟩ := List.mem_flatMap.1 h
    cases x with
    | callback a => exact sets_api ho a h
    | _ => rcases ho with rfl | ⟨x, rfl⟩ <;> simp [Piece.ops] at h

theorem accept_api {kind : Nat → Kind} {t : Nat} (ht : kind t = .accept) {a : Api} (ha : a.Ok kind) (h : .go t ∈ a.ops) : a.isListen = true := by
  cases a with
  | listen p => rfl
  | dial as f =>
    exfalso
    simp only [Api.ops, List.mem_append, List.mem_flatMap] at h
    rcases h with ⟨⟨x, y⟩, hx, h⟩ | h
    · have := ha _ hx
      cases x with
      | none => cases y <;> simp at h
      | some u =>
        have hu := this u rfl
        cases y <;> simp at h <;> subst h <;> rw [ht] at hu <;> cases hu
    · cases f <;> simp at h
  | spawn u =>
    simp [Api.ops] at h
    subst h
    have : kind t = .app := ha
    rw [ht] at this; cases this
  | _ => have := go_api h; cases this

/-- Only `Listen` starts the accept goroutine. -/
theorem accept_prog {kind : Nat → Kind} {k : Kind} {l : List Api} {p : List NOp} (hp : Prog kind k l p) (hok : ∀ a ∈ l, a.Ok kind) {t : Nat} (ht : kind t = .accept) (h : .go t ∈ p) : ∃ a ∈ l, a.isListen = true := by
  cases hp with
  | app l => obtain ⟨a, ha, h⟩ := mem_calls.1 h; exact ⟨a, ha, accept_api ht (hok a ha) h⟩
  | worker items drained =>
    simp only [List.mem_append, List.mem_flatMap] at h
    rcases h with ((h | ⟨x, hx, h | h⟩) | h) | h
    · simp at h
    · simp at h
    · obtain ⟨a, ha, h⟩ := mem_calls.1 h
      have := List.mem_flatten.2 ⟨x, hx, ha⟩
      exact ⟨a, this, accept_api ht (hok a this) h⟩
    · cases drained <;> simp at h
    · simp at h
  | accept conns hc =>
    exfalso
    simp only [List.mem_append, List.mem_flatMap] at h
    rcases h with (h | ⟨c, hcm, h | h⟩) | h
    · simp at h
    · simp at h
    · cases c with
      | none => simp at h
      | some u => simp at h; subst h; have := hc t hcm; rw [ht] at this; cases this
    · simp at h
  | conn l hc =>
    obtain ⟨x, hx, h⟩ := List.mem_flatMap.1 h
    cases x with
    | callback a =>
      have : a ∈ l.flatMap Piece.api := List.mem_flatMap.2 ⟨_, hx, by simp [Piece.api]⟩
      exact ⟨a, this, accept_api ht (hok a this) h⟩
    | writer u => simp [Piece.ops] at h; subst h; have := hc t hx; rw [ht] at this; cases this
    | _ => simp [Piece.ops] at h

theorem split_listener {kind : Nat → Kind} (l1 l2 : List Api) (p : Path) (h1 : ∀ a ∈ l1, a.isListen = false ∧ a.Ok kind) (h2 : ∀ a ∈ l2, a.isListen = false) :
    ∃ A B, calls (l1 ++ .listen p :: l2) = A ++ B ∧ (∀ t, kind t = .accept → .go t ∉ A) ∧ .wr .listener ∉ B := by
  have g1 : ∀ t, kind t = .accept → .go t ∉ calls l1 := fun t ht h => by
    obtain ⟨a, ha, h⟩ := mem_calls.1 h
    have := accept_api ht (h1 a ha).2 h
    rw [(h1 a ha).1] at this; cases this
  have g2 : .wr .listener ∉ calls l2 := fun h => by
    obtain ⟨a, ha, h⟩ := mem_calls.1 h
    have := wr_listener h
    rw [h2 a ha] at this; cases this
  have g3 : calls (l1 ++ .listen p :: l2) = calls l1 ++ p.ops ++ calls l2 := by simp [calls, Api.ops]
  by_cases hp : (Api.listen p).starts = true
  · cases p with
    | ok pub binds ws a =>
      refine ⟨calls l1 ++ (listenOps pub binds ++ [.wr .work]), ws.map .go ++ [.go a] ++ calls l2, by simp [g3, Path.ops], ?_, ?_⟩
      · intro t ht h
        rcases List.mem_append.1 h with h | h
        · exact g1 t ht h
        · rcases List.mem_append.1 h with h | h
          · exact go_listenOps h
          · simp at h
      · intro h
        rcases List.mem_append.1 h with h | h
        · simp at h
        · exact g2 h
    | _ => cases hp
  · refine ⟨calls l1 ++ p.ops, calls l2, g3, ?_, g2⟩
    intro t ht h
    rcases List.mem_append.1 h with h | h
    · exact g1 t ht h
    · exact hp (go_api (a := .listen p) h)

end NodeRace

open NodeRace Spec.Sync in
/-- **C123, what holds: `Close` may be called at any time** (missing: the other fields). If `Listen` is called once, then there is no data race on the listener, whatever else is done to the node by any number of goroutines, from the beginning on:
`Close` looks at the listener only if it finds the node listening, and the accept goroutine, which makes it so, was started after the listener was set. -/
theorem C123_close_any_time_partial (n : Nat) (kind : Nat → Kind) (root : Nat → Bool) (api : Nat → List Api) (tr : NTrace) (h : Execution n kind root api tr) (happ : kind 0 = .app) (l1 l2 : List Api) (p : Path)
    (h0 : api 0 = l1 ++ .listen p :: l2) (honce : ∀ a ∈ l1 ++ l2, ∀ q, a ≠ .listen q) (hothers : ∀ t, t ≠ 0 → ∀ a ∈ api t, ∀ q, a ≠ .listen q) : ¬ Race (cap n) tr .listener := by
  obtain ⟨s, hs⟩ := h.run
  have hnl : ∀ a : Api, (∀ q, a ≠ .listen q) → a.isListen = false := by
    intro a ha
    cases a <;> first | rfl | exact absurd rfl (ha _)
  have hw : ∀ (i t : Nat), tr[i]? = some (⟨t, .wr .listener⟩ : NEv) → t = 0 := by
    intro i t hi
    by_contra ht
    obtain ⟨q, hq, hpre⟩ := h.prog t
    obtain ⟨a, ha, -, hm⟩ := wr_prog hq (hpre.subset (mem_opsOf hi))
    have := wr_listener hm
    rw [hnl a (hothers t ht a ha)] at this; cases this
  -- whatever the accept goroutine does comes after the listener has been set
  have hacc : ∀ (i j t : Nat) (o : NOp), tr[i]? = some (⟨0, .wr .listener⟩ : NEv) → tr[j]? = some (⟨t, o⟩ : NEv) → kind t = .accept → HB (cap n) tr i j := by
    intro i j t o hi hj ht
    have hr : root t = false := by
      cases hr : root t with
      | false => rfl
      | true => have := h.roots t hr; rw [ht] at this; cases this
    obtain ⟨k, u, hk, hgo⟩ := go_before hs hj hr
    have hu : u = 0 := by
      by_contra hu
      obtain ⟨q, hq, hpre⟩ := h.prog u
      obtain ⟨a, ha, hl⟩ := accept_prog hq (h.ok u) ht (hpre.subset (mem_opsOf hgo))
      rw [hnl a (hothers u hu a ha)] at hl; cases hl
    subst hu
    obtain ⟨q, hq, hpre⟩ := h.prog 0
    rw [happ, h0] at hq
    cases hq
    obtain ⟨A, B, hAB, hA, hB⟩ := split_listener (kind := kind) l1 l2 p
      (fun a ha => ⟨hnl a (honce a (List.mem_append_left _ ha)), h.ok 0 a (by rw [h0]; simp [ha])⟩) (fun a ha => hnl a (honce a (List.mem_append_right _ ha)))
    rw [hAB] at hpre
    have hik : i < k := by
      by_contra hki
      have hne : k ≠ i := by rintro rfl; rw [hi] at hgo; cases hgo
      exact no_pair (hA t ht) hB hpre (pair_ops hgo hi (by omega))
    exact .trans (.edge (.po hi hgo hik)) (.edge (.go_start hgo hj hk))
  refine no_race fun i j e f hi hj he hf hne => ?_
  obtain ⟨t, o⟩ := e
  obtain ⟨u, q⟩ := f
  simp only at he hne hf
  subst he
  have ht := hw i t hi
  subst ht
  rcases hf with rfl | rfl
  · by_cases hu : kind u = .accept
    · exact hacc i j u _ hi hj hu
    · obtain ⟨q, hq, hpre⟩ := h.prog u
      have hl := listener_prog hq hu (fun a ha => hnl a (hothers u (Ne.symm hne) a ha))
      obtain ⟨m, hm, hcas⟩ := hl.before hpre hj
      obtain ⟨k, w, o, hk, ho, hedge⟩ := cas_after hs hcas
      obtain ⟨q', hq', hpre'⟩ := h.prog w
      have hw' := sets_prog hq' ho (hpre'.subset (mem_opsOf hk))
      exact .trans (.trans (hacc i k w o hi hk hw') (.edge hedge)) (.edge (.po hcas hj hm))
  · exact absurd (hw j u hj).symm hne

namespace NodeRace
open Noise.Spec.Sync

/-! ## Races -/

/-- Operations of goroutine `t`. -/
def by' (t : Nat) (l : List NOp) : NTrace := l.map (Ev.mk t)

theorem prog_absent {kind : Nat → Kind} {api : Nat → List Api} {tr : NTrace} {t : Nat} (hk : kind t = .app) (ha : api t = []) (h : tr.all (fun e => e.tid != t) = true) :
    ∃ p, Prog kind (kind t) (api t) p ∧ opsOf t tr <+: p := by
  rw [hk, ha]
  refine ⟨calls [], .app [], ?_⟩
  have : opsOf t tr = [] := by
    unfold opsOf
    rw [List.filter_eq_nil_iff.2 (fun e he => by simpa using List.all_eq_true.1 h e he)]
    rfl
  rw [this]; exact List.nil_prefix

theorem app_prog {kind : Nat → Kind} {api : Nat → List Api} {tr : NTrace} {t : Nat} (hk : kind t = .app) (h : opsOf t tr <+: calls (api t)) : ∃ p, Prog kind (kind t) (api t) p ∧ opsOf t tr <+: p := by
  rw [hk]; exact ⟨_, .app _, h⟩

theorem run_of {n : Nat} {root : Nat → Bool} {tr : NTrace} (h : (runs (exec n) (Sync.init root) tr).isSome = true) : ∃ s, runs (exec n) (Sync.init root) tr = some s := Option.isSome_iff_exists.1 h

/-- Two goroutines of the application; 2 would be the accept goroutine. -/
def twoKinds (t : Nat) : Kind := if t = 2 then .accept else .app

theorem two_execution (api : Nat → List Api) (tr : NTrace) (hrun : (runs (exec 0) (Sync.init fun t => decide (t < 2)) tr).isSome = true) (h0 : opsOf 0 tr <+: calls (api 0)) (h1 : opsOf 1 tr <+: calls (api 1))
    (h2 : ∀ t, 2 ≤ t → api t = []) (hab : ∀ e ∈ tr, e.tid < 2) (hok : ∀ t, ∀ a ∈ api t, a.Ok twoKinds) : Execution 0 twoKinds (fun t => decide (t < 2)) api tr where
  run := run_of hrun
  roots t ht := by simp only [decide_eq_true_eq] at ht; simp only [twoKinds]; rw [if_neg (by omega)]
  ok := hok
  prog t := by
    by_cases ht : t < 2
    · have : t = 0 ∨ t = 1 := by omega
      rcases this with rfl | rfl
      · exact app_prog rfl h0
      · exact app_prog rfl h1
    · have hab' : opsOf t tr = [] := by
        unfold opsOf
        rw [List.filter_eq_nil_iff.2 (fun e he => by have := hab e he; simp; omega)]
        rfl
      rw [h2 t (by omega), hab']
      by_cases h2' : t = 2
      · subst h2'; exact ⟨_, .accept [] (by simp), List.nil_prefix⟩
      · simp only [twoKinds, h2', if_false]; exact ⟨_, .app [], List.nil_prefix⟩

/-- `Listen`, until the node has its ID and address, and then another goroutine asks for one of these. -/
def listenApi (a : Api) : Nat → List Api
  | 0 => [.listen (.ok false [] [] 2)]
  | 1 => [a]
  | _ => []

def listenTrace (o : NOp) : NTrace := by' 0 ((listenOps false []).take 11) ++ by' 1 [o]

/-- Two goroutines make the same call. -/
def bothApi (a : Api) : Nat → List Api
  | 0 => [a]
  | 1 => [a]
  | _ => []

def bothTrace (a : Api) : NTrace := by' 0 a.ops ++ by' 1 a.ops

/-- A node that is dialling or listening: 0 is the application, 1 the worker, 2 the accept goroutine, 3 a connection, 4 another goroutine of the application. -/
def nodeKinds (t : Nat) : Kind := if t = 1 then .worker else if t = 2 then .accept else if t = 3 then .conn else .app

def handleApi : Nat → List Api
  | 0 => [.listen (.ok true [] [1] 2), .dial [(some 3, some 3)] false, .handle false]
  | _ => []

def handleTrace : NTrace :=
  by' 0 (Path.ops (.ok true [] [1] 2) ++ [.go 3]) ++ by' 3 [.rd .id, .close (.ready 3)] ++ by' 0 [.recv (.ready 3)] ++ by' 3 [.rd .work, .send .work] ++ by' 1 [.rd .work, .take .work, .rd .handlers] ++ by' 0 [.load () false, .rd .handlers, .wr .handlers]

def dialApi : Nat → List Api
  | 0 => [.dial [(some 3, some 3)] false, .listen (.ok true [] [1] 2)]
  | _ => []

def dialTrace : NTrace :=
  by' 0 [.go 3] ++ by' 3 [.rd .id, .close (.ready 3)] ++ by' 0 ([.recv (.ready 3)] ++ listenOps true [] ++ [.wr .work]) ++ by' 3 [.rd .work]

theorem node_execution (api : Nat → List Api) (tr : NTrace) (hrun : (runs (exec 1) (Sync.init fun t => decide (t = 0)) tr).isSome = true) (h0 : opsOf 0 tr <+: calls (api 0)) (h1 : opsOf 1 tr <+: [.rd .work, .take .work, .rd .handlers, .done])
    (h2 : opsOf 2 tr <+: [.store () true, .rd .id, .rd .listener, .send .done, .rd .work, .close .work, .wait, .store () false, .close .done]) (h3 : opsOf 3 tr <+: [.rd .id, .close (.ready 3), .rd .work, .send .work])
    (h4 : opsOf 4 tr <+: calls (api 4)) (ha : ∀ t, 1 ≤ t → t ≠ 4 → api t = []) (hab : ∀ e ∈ tr, e.tid < 5) (hok : ∀ t, ∀ a ∈ api t, a.Ok nodeKinds) : Execution 1 nodeKinds (fun t => decide (t = 0)) api tr where
  run := run_of hrun
  roots t ht := by simp only [decide_eq_true_eq] at ht; subst ht; rfl
  ok := hok
  prog t := by
    by_cases ht : t < 5
    · have : t = 0 ∨ t = 1 ∨ t = 2 ∨ t = 3 ∨ t = 4 := by omega
      rcases this with rfl | rfl | rfl | rfl | rfl
      · exact app_prog rfl h0
      · rw [ha 1 (by omega) (by omega)]
        refine ⟨_, .worker [[]] false, ?_⟩
        simpa [calls] using h1
      · rw [ha 2 (by omega) (by omega)]; exact ⟨_, .accept [] (by simp), by simpa using h2⟩
      · rw [ha 3 (by omega) (by omega)]; exact ⟨_, .conn [.id, .ready 3, .work] (by simp), by simpa [Piece.ops] using h3⟩
      · exact app_prog rfl h4
    · have hab' : opsOf t tr = [] := by
        unfold opsOf
        rw [List.filter_eq_nil_iff.2 (fun e he => by have := hab e he; simp; omega)]
        rfl
      rw [ha t (by omega) (by omega), hab']
      have : nodeKinds t = .app := by simp only [nodeKinds]; rw [if_neg (by omega), if_neg (by omega), if_neg (by omega)]
      rw [this]; exact ⟨_, .app [], List.nil_prefix⟩

end NodeRace

open NodeRace Spec.Sync in
/-- **C123 is false of the code**: `ID` and `Addr`, which may be called concurrently, race with `Listen`. -/
theorem C123_id_races_refuted :
    (∃ tr, Execution 0 twoKinds (fun t => decide (t < 2)) (listenApi .id) tr ∧ Race (cap 0) tr .id) ∧
    (∃ tr, Execution 0 twoKinds (fun t => decide (t < 2)) (listenApi .addr) tr ∧ Race (cap 0) tr .addr) := by
  refine ⟨⟨listenTrace (.rd .id), two_execution _ _ (by decide +kernel) (by decide +kernel) (by decide +kernel) ?_ (by decide +kernel) ?_, ?_⟩,
    ⟨listenTrace (.rd .addr), two_execution _ _ (by decide +kernel) (by decide +kernel) (by decide +kernel) ?_ (by decide +kernel) ?_, ?_⟩⟩
  · rintro (_ | _ | t) ht <;> first | omega | rfl
  · rintro (_ | _ | t) a ha <;> simp [listenApi] at ha <;> subst ha <;> simp [Api.Ok, twoKinds]
  · exact ⟨10, 11, ⟨0, .wr .id⟩, ⟨1, .rd .id⟩, by decide +kernel, by decide +kernel, by decide, by decide, .inr rfl, .inl rfl, .inl rfl, not_hb (fun i => decide (i < 11)) (by decide +kernel) (by decide) (by decide)⟩
  · rintro (_ | _ | t) ht <;> first | omega | rfl
  · rintro (_ | _ | t) a ha <;> simp [listenApi] at ha <;> subst ha <;> simp [Api.Ok, twoKinds]
  · exact ⟨8, 11, ⟨0, .wr .addr⟩, ⟨1, .rd .addr⟩, by decide +kernel, by decide +kernel, by decide, by decide, .inr rfl, .inl rfl, .inl rfl, not_hb (fun i => decide (i < 11)) (by decide +kernel) (by decide) (by decide)⟩

open NodeRace Spec.Sync in
/-- **C123 is false of the code**: two calls of `Bind`, or of `Handle`, race with one another: `append` of one of them may be lost. -/
theorem C123_bind_races_refuted :
    (∃ tr, Execution 0 twoKinds (fun t => decide (t < 2)) (bothApi (.bind false)) tr ∧ Race (cap 0) tr .protocols) ∧
    (∃ tr, Execution 0 twoKinds (fun t => decide (t < 2)) (bothApi (.handle false)) tr ∧ Race (cap 0) tr .handlers) := by
  refine ⟨⟨bothTrace (.bind false), two_execution _ _ (by decide +kernel) (by decide +kernel) (by decide +kernel) ?_ (by decide +kernel) ?_, ?_⟩,
    ⟨bothTrace (.handle false), two_execution _ _ (by decide +kernel) (by decide +kernel) (by decide +kernel) ?_ (by decide +kernel) ?_, ?_⟩⟩
  · rintro (_ | _ | t) ht <;> first | omega | rfl
  · rintro (_ | _ | t) a ha <;> simp [bothApi] at ha <;> subst ha <;> simp [Api.Ok]
  · exact ⟨2, 5, ⟨0, .wr .protocols⟩, ⟨1, .wr .protocols⟩, by decide +kernel, by decide +kernel, by decide, by decide, .inr rfl, .inr rfl, .inl rfl, not_hb (fun i => decide (i < 3)) (by decide +kernel) (by decide) (by decide)⟩
  · rintro (_ | _ | t) ht <;> first | omega | rfl
  · rintro (_ | _ | t) a ha <;> simp [bothApi] at ha <;> subst ha <;> simp [Api.Ok]
  · exact ⟨2, 5, ⟨0, .wr .handlers⟩, ⟨1, .wr .handlers⟩, by decide +kernel, by decide +kernel, by decide, by decide, .inr rfl, .inr rfl, .inl rfl, not_hb (fun i => decide (i < 3)) (by decide +kernel) (by decide) (by decide)⟩

open NodeRace Spec.Sync in
/-- **C123 is false of the code**, also with a single goroutine of the application: `Handle` right after `Listen` has returned nil writes the handlers that a worker reads meanwhile for a message from a peer that was dialled - the node counts as listening
only once its accept goroutine has run; and `Listen` after `Ping` sets the work channel that the connection reads. -/
theorem C123_one_goroutine_races_refuted :
    (∃ tr, Execution 1 nodeKinds (fun t => decide (t = 0)) handleApi tr ∧ Race (cap 1) tr .handlers) ∧
    (∃ tr, Execution 1 nodeKinds (fun t => decide (t = 0)) dialApi tr ∧ Race (cap 1) tr .work) := by
  refine ⟨⟨handleTrace, node_execution _ _ (by decide +kernel) (by decide +kernel) (by decide +kernel) (by decide +kernel) (by decide +kernel) (by decide +kernel) ?_ (by decide +kernel) ?_, ?_⟩,
    ⟨dialTrace, node_execution _ _ (by decide +kernel) (by decide +kernel) (by decide +kernel) (by decide +kernel) (by decide +kernel) (by decide +kernel) ?_ (by decide +kernel) ?_, ?_⟩⟩
  · rintro (_ | t) ht _ <;> first | omega | rfl
  · rintro (_ | t) a ha <;> simp [handleApi] at ha; rcases ha with rfl | rfl | rfl <;> simp [Api.Ok, nodeKinds]
  · exact ⟨21, 24, ⟨1, .rd .handlers⟩, ⟨0, .wr .handlers⟩, by decide +kernel, by decide +kernel, by decide, by decide, .inl rfl, .inr rfl, .inr rfl, not_hb (fun i => decide (i = 21)) (by decide +kernel) (by decide) (by decide)⟩
  · rintro (_ | t) ht _ <;> first | omega | rfl
  · rintro (_ | t) a ha <;> simp [dialApi] at ha; rcases ha with rfl | rfl <;> simp [Api.Ok, nodeKinds]
  · exact ⟨14, 15, ⟨0, .wr .work⟩, ⟨3, .rd .work⟩, by decide +kernel, by decide +kernel, by decide, by decide, .inr rfl, .inl rfl, .inl rfl, not_hb (fun i => decide (i = 14)) (by decide +kernel) (by decide) (by decide)⟩

namespace NodeRace
open Noise.Spec.Sync

/-- A node that is configured first. -/
def orderlyApi : Nat → List Api
  | 0 => [.handle false, .bind false, .listen (.ok true [true] [1] 2), .spawn 4, .id, .bind true]
  | 4 => [.addr, .dial [(some 3, some 3)] false, .close true true, .close false false]
  | _ => []

def orderlyTrace : NTrace :=
  by' 0 (calls [.handle false, .bind false, .listen (.ok true [true] [1] 2), .spawn 4]) ++ by' 4 [.rd .addr, .go 3] ++ by' 2 [.store () true] ++ by' 0 [.rd .id, .load () true] ++ by' 3 [.rd .id, .close (.ready 3)] ++
  by' 4 [.recv (.ready 3)] ++ by' 3 [.rd .work, .send .work] ++ by' 2 [.rd .id, .rd .listener] ++ by' 1 [.rd .work, .take .work] ++ by' 4 [.cas () true false, .rd .listener] ++ by' 1 [.rd .handlers] ++ by' 2 [.send .done] ++ by' 4 [.take .done] ++
  by' 2 [.rd .work, .close .work] ++ by' 1 [.done] ++ by' 2 [.wait, .store () false, .close .done] ++ by' 4 [.load () false, .recv .done]

/-- It meets the hypotheses of both theorems: a message is handled, and the node is closed by another goroutine, which calls `Close` again. -/
example : Execution 1 nodeKinds (fun t => decide (t = 0)) orderlyApi orderlyTrace ∧ orderlyApi 0 = [.handle false, .bind false] ++ .listen (.ok true [true] [1] 2) :: [.spawn 4, .id, .bind true] ∧
    (∀ a ∈ [Api.handle false, .bind false], a.starts = false) ∧ (∀ a ∈ [Api.spawn 4, .id, .bind true], a.configures = false) ∧ (∀ t, t ≠ 0 → ∀ a ∈ orderlyApi t, a.configures = false ∧ ∀ q, a ≠ .listen q) ∧ nodeKinds 0 = .app := by
  refine ⟨node_execution _ _ (by decide +kernel) (by decide +kernel) (by decide +kernel) (by decide +kernel) (by decide +kernel) (by decide +kernel) ?_ (by decide +kernel) ?_, rfl, by decide, by decide, ?_, rfl⟩
  · rintro (_ | _ | _ | _ | _ | t) h1 h4 <;> first | omega | rfl
  · rintro (_ | _ | _ | _ | _ | t) a ha <;> simp [orderlyApi] at ha
    · rcases ha with rfl | rfl | rfl | rfl | rfl | rfl <;> simp [Api.Ok, nodeKinds]
    · rcases ha with rfl | rfl | rfl | rfl <;> simp [Api.Ok, nodeKinds]
  · rintro (_ | _ | _ | _ | _ | t) h0 a ha <;> simp [orderlyApi] at ha h0
    rcases ha with rfl | rfl | rfl | rfl <;> simp [Api.configures]

end NodeRace
end Noise
