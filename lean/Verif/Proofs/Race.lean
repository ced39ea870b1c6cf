import Verif.Model.Race
import Verif.Proofs.TS
/-! # Lemmas on happens-before -/
namespace Noise.Race
open Noise.Spec (Op Ev Edge HB)

/-! ## States along an execution -/

/-- The states of a scanner along a list. -/
theorem runs_states {S A : Type} {f : S → A → Option S} : ∀ {l : List A} {s0 s1 : S}, runs f s0 l = some s1 →
    ∃ g : Nat → S, g 0 = s0 ∧ ∀ (n : Nat) (e : A), l[n]? = some e → f (g n) e = some (g (n + 1)) := by
  intro l
  induction l with
  | nil => intro s0 s1 _; exact ⟨fun _ => s0, rfl, by simp⟩
  | cons a l ih =>
    intro s0 s1 h
    obtain ⟨s, h1, h2⟩ := runs_cons h
    obtain ⟨g, hg0, hg⟩ := ih h2
    refine ⟨fun n => match n with
      | 0 => s0
      | n + 1 => g n, rfl, ?_⟩
    intro n e he
    cases n with
    | zero =>
      simp only [List.getElem?_cons_zero, Option.some.injEq] at he
      subst he
      simp only [hg0]; exact h1
    | succ n => simp only [List.getElem?_cons_succ] at he; exact hg n e he

/-- The states of a scanner of one goroutine's program along an execution of all. -/
theorem ghost {S : Type} {f : S → COp → Option S} {t : Nat} {s0 s1 : S} {p : List COp} (hp : runs f s0 p = some s1) : ∀ {tr : CTrace}, opsOf t tr <+: p →
    ∃ g : Nat → S, g 0 = s0 ∧ ∀ (n : Nat) (e : CEv), tr[n]? = some e → if e.tid = t then f (g n) e.op = some (g (n + 1)) else g (n + 1) = g n := by
  intro tr htr
  induction tr generalizing s0 p with
  | nil => exact ⟨fun _ => s0, rfl, by simp⟩
  | cons a tr ih =>
    by_cases ha : a.tid = t
    · have : opsOf t (a :: tr) = a.op :: opsOf t tr := by simp [opsOf, ha]
      rw [this] at htr
      obtain ⟨q, rfl⟩ := htr
      rw [List.cons_append] at hp
      obtain ⟨s, h1, h2⟩ := runs_cons hp
      obtain ⟨g, hg0, hg⟩ := ih h2 ⟨q, rfl⟩
      refine ⟨fun n => match n with
        | 0 => s0
        | n + 1 => g n, rfl, ?_⟩
      intro n e he
      cases n with
      | zero =>
        simp only [List.getElem?_cons_zero, Option.some.injEq] at he
        subst he
        rw [if_pos ha]
        simp only [hg0]; exact h1
      | succ n => simp only [List.getElem?_cons_succ] at he; exact hg n e he
    · have : opsOf t (a :: tr) = opsOf t tr := by simp [opsOf, ha]
      rw [this] at htr
      obtain ⟨g, hg0, hg⟩ := ih hp htr
      refine ⟨fun n => match n with
        | 0 => s0
        | n + 1 => g n, rfl, ?_⟩
      intro n e he
      cases n with
      | zero =>
        simp only [List.getElem?_cons_zero, Option.some.injEq] at he
        subst he
        rw [if_neg ha]
        simp only [hg0]
      | succ n => simp only [List.getElem?_cons_succ] at he; exact hg n e he

/-! ## Locks -/

inductive Mode where
  | none
  | r
  | w
  deriving DecidableEq

/-- How goroutine `t` holds the mutex. -/
def Sync.mode (s : Sync) (m : Mutex) (t : Nat) : Mode := if s.holder m = some t then .w else if t ∈ s.readers m then .r else .none

/-- A program accesses `v` only while it holds `m`. -/
def lockScan (v : Var) (m : Mutex) (x : Mode) : COp → Option Mode
  | .rd u => if u = v ∧ x = .none then .none else some x
  | .wr u => if u = v ∧ x ≠ .w then .none else some x
  | .lock n => if n = m then (if x = .none then some .w else .none) else some x
  | .unlock n => if n = m then (if x = .w then some .none else .none) else some x
  | .rlock n => if n = m then (if x = .none then some .r else .none) else some x
  | .runlock n => if n = m then (if x = .r then some .none else .none) else some x
  | _ => some x

/-- An execution with its states. -/
structure Run (tr : CTrace) (s : Nat → Sync) : Prop where
  zero : s 0 = Sync.init
  step : ∀ (n : Nat) (e : CEv), tr[n]? = some e → exec (s n) e = some (s (n + 1))

theorem Run.of {tr : CTrace} {s1 : Sync} (h : runs exec Sync.init tr = some s1) : ∃ s, Run tr s := by
  obtain ⟨s, h0, h1⟩ := runs_states h
  exact ⟨s, h0, h1⟩

variable {tr : CTrace} {s : Nat → Sync}

/-- What an event does to the way in which goroutine `t` holds a mutex. -/
theorem mode_other {s s' : Sync} {e : CEv} (h : exec s e = some s') {t : Nat} (ht : e.tid ≠ t) (m : Mutex) : s'.mode m t = s.mode m t := by
  unfold exec at h
  split at h
  · cases ho : e.op <;> simp only [ho] at h <;> (try split at h) <;> first
      | (cases h; done)
      | (cases h; rfl)
      | skip
    · rename_i n hn
      cases h
      simp only [Sync.mode]
      by_cases hm : m = n
      · subst hm; simp [hn, ht]
      · simp [hm]
    · rename_i n hn
      cases h
      simp only [Sync.mode]
      by_cases hm : m = n
      · subst hm; simp [hn, ht]
      · simp [hm]
    · rename_i n hn
      cases h
      simp only [Sync.mode]
      by_cases hm : m = n
      · subst hm; simp [Ne.symm ht]
      · simp [hm]
    · rename_i n hn
      cases h
      simp only [Sync.mode]
      by_cases hm : m = n
      · subst hm; simp [Ne.symm ht]
      · simp [hm]
  · cases h

theorem exec_started {s s' : Sync} {e : CEv} (h : exec s e = some s') : s.started e.tid = true := by
  unfold exec at h
  split at h
  · assumption
  · cases h

/-- A mutex is not held by a writer and readers. -/
def Sync.Excl (s : Sync) : Prop := ∀ m, s.holder m ≠ none → s.readers m = []

theorem Excl.step {s s' : Sync} {e : CEv} (h : exec s e = some s') (hx : s.Excl) : s'.Excl := by
  unfold exec at h
  split at h
  · cases ho : e.op <;> simp only [ho] at h <;> (try split at h) <;> first
      | (cases h; done)
      | (cases h; exact hx)
      | skip
    · rename_i n hn
      cases h
      intro m hm
      by_cases e : m = n
      · subst e; exact hn.2
      · simp only [e, if_false] at hm; exact hx m hm
    · rename_i n hn
      cases h
      intro m hm
      by_cases e : m = n
      · subst e; simp at hm
      · simp only [e, if_false] at hm; exact hx m hm
    · rename_i n hn
      cases h
      intro m hm
      by_cases e : m = n
      · subst e; exact absurd hn.1 hm
      · simp only [e, if_false]; exact hx m hm
    · rename_i n hn
      cases h
      intro m hm
      by_cases e : m = n
      · subst e; simp only at hm; rw [hx m hm] at hn; cases hn
      · simp only [e, if_false]; exact hx m hm
  · cases h

theorem Run.excl (hr : Run tr s) : ∀ n, n ≤ tr.length → (s n).Excl := by
  intro n
  induction n with
  | zero => intro _; rw [hr.zero]; intro m h; exact absurd rfl h
  | succ n ih => intro h; exact Excl.step (hr.step n tr[n] (by rw [List.getElem?_eq_getElem])) (ih (by omega))

theorem mode_own {s s' : Sync} {e : CEv} (h : exec s e = some s') (hx : s.Excl) {v : Var} {m : Mutex} {x : Mode} (hs : lockScan v m (s.mode m e.tid) e.op = some x) : s'.mode m e.tid = x := by
  unfold exec at h
  split at h
  · cases ho : e.op <;> simp only [ho] at h hs <;> (try split at h) <;> first
      | (cases h; done)
      | skip
    · cases h
      simp only [lockScan] at hs; split at hs
      · cases hs
      · injection hs
    · cases h
      simp only [lockScan] at hs; split at hs
      · cases hs
      · injection hs
    · rename_i n hn
      cases h
      simp only [lockScan] at hs
      by_cases hm : n = m
      · subst hm; rw [if_pos rfl] at hs
        split at hs
        · injection hs with hs; rw [← hs]; simp [Sync.mode]
        · cases hs
      · rw [if_neg hm] at hs; injection hs with hs; rw [← hs]; simp [Sync.mode, Ne.symm hm]
    · rename_i n hn
      cases h
      simp only [lockScan] at hs
      by_cases hm : n = m
      · subst hm; rw [if_pos rfl] at hs
        split at hs
        · injection hs with hs; rw [← hs]; simp [Sync.mode, hx n (by rw [hn]; simp)]
        · cases hs
      · rw [if_neg hm] at hs; injection hs with hs; rw [← hs]; simp [Sync.mode, Ne.symm hm]
    · rename_i n hn
      cases h
      simp only [lockScan] at hs
      by_cases hm : n = m
      · subst hm; rw [if_pos rfl] at hs
        split at hs
        · injection hs with hs; rw [← hs]; simp [Sync.mode, hn.1]
        · cases hs
      · rw [if_neg hm] at hs; injection hs with hs; rw [← hs]; simp [Sync.mode, Ne.symm hm]
    · rename_i n hn
      cases h
      simp only [lockScan] at hs
      by_cases hm : n = m
      · subst hm; rw [if_pos rfl] at hs
        split at hs
        · rename_i hr
          injection hs with hs; rw [← hs]
          have : s.holder n ≠ some e.tid := by
            intro h; simp [Sync.mode, h] at hr
          simp [Sync.mode, this]
        · cases hs
      · rw [if_neg hm] at hs; injection hs with hs; rw [← hs]; simp [Sync.mode, Ne.symm hm]
    all_goals (cases h; simp only [lockScan, Option.some.injEq] at hs; exact hs)
  · cases h

/-- The event of goroutine `t` acquires the mutex in this mode. -/
def Acq (m : Mutex) (x : Mode) (o : COp) : Prop := (x = .w ∧ o = .lock m) ∨ (x = .r ∧ o = .rlock m)
def Rel (m : Mutex) (x : Mode) (o : COp) : Prop := (x = .w ∧ o = .unlock m) ∨ (x = .r ∧ o = .runlock m)

/-- In this execution, the accesses to `v` are guarded by `m`. -/
def Guarded (tr : CTrace) (v : Var) (m : Mutex) : Prop := ∀ t, ∃ p, opsOf t tr <+: p ∧ ∃ x, runs (lockScan v m) .none p = some x

theorem Guarded.scan (hr : Run tr s) {v : Var} {m : Mutex} (hg : Guarded tr v m) (n : Nat) (e : CEv) (he : tr[n]? = some e) :
    lockScan v m ((s n).mode m e.tid) e.op = some ((s (n + 1)).mode m e.tid) := by
  obtain ⟨p, hp, x, hx⟩ := hg e.tid
  obtain ⟨g, g0, gs⟩ := ghost hx hp
  have key : ∀ k, k ≤ tr.length → (s k).mode m e.tid = g k := by
    intro k
    induction k with
    | zero => intro _; rw [hr.zero, g0]; rfl
    | succ k ih =>
      intro hk
      have ih := ih (by omega)
      have hk' : tr[k]? = some tr[k] := by rw [List.getElem?_eq_getElem]
      have h1 := gs k _ hk'
      have h2 := hr.step k _ hk'
      split at h1
      · rename_i ht
        rw [← ih, ← ht] at h1
        rw [← ht]
        exact mode_own h2 (hr.excl k (by omega)) h1
      · rename_i ht
        rw [h1, ← ih]; exact mode_other h2 ht m
  have hlt := (List.getElem?_eq_some_iff.1 he).1
  rw [key n (by omega), key (n + 1) (by omega)]
  have := gs n e he
  rw [if_pos rfl] at this
  exact this

/-- Change of mode: only by the goroutine's own operations. -/
theorem mode_step (hr : Run tr s) {v : Var} {m : Mutex} (hg : Guarded tr v m) {n : Nat} (hn : n < tr.length) (t : Nat) :
    (s (n + 1)).mode m t = (s n).mode m t ∨
    ((s n).mode m t = .none ∧ (s (n + 1)).mode m t ≠ .none ∧ ∃ o, tr[n]? = some ⟨t, o⟩ ∧ Acq m ((s (n + 1)).mode m t) o) ∨
    ((s (n + 1)).mode m t = .none ∧ (s n).mode m t ≠ .none ∧ ∃ o, tr[n]? = some ⟨t, o⟩ ∧ Rel m ((s n).mode m t) o) := by
  have he : tr[n]? = some tr[n] := by rw [List.getElem?_eq_getElem]
  generalize tr[n] = e at he
  have h2 := hr.step n e he
  by_cases ht : e.tid = t
  · obtain ⟨u, o⟩ := e
    subst ht
    have h1 := hg.scan hr n _ he
    simp only at h1
    cases o <;> simp only [lockScan] at h1 <;> repeat' split at h1
    all_goals first
      | (cases h1)
      | (left; injection h1 with h1; exact h1.symm)
      | (rename_i hm hx; subst hm; injection h1 with h1; right; left; refine ⟨hx, by rw [← h1]; simp, _, he, ?_⟩; rw [← h1]; simp [Acq])
      | (rename_i hm hx; subst hm; injection h1 with h1; right; right; refine ⟨h1.symm, by rw [hx]; simp, _, he, ?_⟩; rw [hx]; simp [Rel])
  · left; exact mode_other h2 ht m

/-- Whoever holds the mutex has acquired it and held it since. -/
theorem acquired (hr : Run tr s) {v : Var} {m : Mutex} (hg : Guarded tr v m) {t : Nat} {x : Mode} (hx : x ≠ .none) : ∀ {n : Nat}, n ≤ tr.length → (s n).mode m t = x →
    ∃ a o, a < n ∧ tr[a]? = some ⟨t, o⟩ ∧ Acq m x o ∧ ∀ k, a < k → k ≤ n → (s k).mode m t = x := by
  intro n
  induction n with
  | zero => intro _ h; rw [hr.zero] at h; exact absurd h.symm hx
  | succ n ih =>
    intro hn h
    rcases mode_step hr hg (n := n) (by omega) t with h1 | ⟨h1, h2, o, h3, h4⟩ | ⟨h1, h2, _⟩
    · obtain ⟨a, o, ha, h2, h3, h4⟩ := ih (by omega) (h1.symm.trans h)
      refine ⟨a, o, by omega, h2, h3, ?_⟩
      intro k hk hk'
      by_cases e : k = n + 1
      · subst e; exact h
      · exact h4 k hk (by omega)
    · refine ⟨n, o, by omega, h3, h ▸ h4, ?_⟩
      intro k hk hk'
      have : k = n + 1 := by omega
      subst this; exact h
    · rw [h1] at h; exact absurd h.symm hx

/-- Whoever held the mutex and does not hold it any more has released it. -/
theorem released (hr : Run tr s) {v : Var} {m : Mutex} (hg : Guarded tr v m) {t : Nat} {x : Mode} (hx : x ≠ .none) {n : Nat} (h0 : (s n).mode m t = x) : ∀ {k : Nat}, n ≤ k → k ≤ tr.length → (s k).mode m t ≠ x →
    ∃ b o, n ≤ b ∧ b < k ∧ tr[b]? = some ⟨t, o⟩ ∧ Rel m x o := by
  have key : ∀ d, n + d ≤ tr.length → (s (n + d)).mode m t = x ∨ ∃ b o, n ≤ b ∧ b < n + d ∧ tr[b]? = some ⟨t, o⟩ ∧ Rel m x o := by
    intro d
    induction d with
    | zero => intro _; exact .inl h0
    | succ d ih =>
      intro hd
      rcases ih (by omega) with h | ⟨b, o, h1, h2, h3, h4⟩
      · rcases mode_step hr hg (n := n + d) (by omega) t with h1 | ⟨h1, -⟩ | ⟨h1, h2, o, h3, h4⟩
        · left; exact h1.trans h
        · rw [h] at h1; exact absurd h1 hx
        · right; exact ⟨n + d, o, by omega, by omega, h3, h ▸ h4⟩
      · exact .inr ⟨b, o, h1, by omega, h3, h4⟩
  intro k hk hkl h
  rcases key (k - n) (by omega) with h1 | ⟨b, o, h1, h2, h3, h4⟩
  · rw [show n + (k - n) = k by omega] at h1; exact absurd h1 h
  · exact ⟨b, o, h1, by omega, h3, h4⟩

/-- Two goroutines do not hold the mutex at once, unless both are readers. -/
theorem mode_excl {s : Sync} (hx : s.Excl) {m : Mutex} {t u : Nat} (htu : t ≠ u) (h : s.mode m t = .w) : s.mode m u = .none := by
  have h1 : s.holder m = some t := by
    unfold Sync.mode at h
    split at h
    · assumption
    · split at h <;> cases h
  have h2 := hx m (by rw [h1]; simp)
  simp [Sync.mode, h1, h2, htu]

/-- Accesses guarded by a mutex are ordered. -/
theorem guarded_ordered (hr : Run tr s) {v : Var} {m : Mutex} (hg : Guarded tr v m) : ¬ Spec.Race tr v := by
  rintro ⟨i, j, e, f, hi, hj, hij, htu, hae, haf, hw, hnot⟩
  apply hnot
  obtain ⟨t, o⟩ := e
  obtain ⟨u, q⟩ := f
  simp only at htu hae haf hw
  have hil := (List.getElem?_eq_some_iff.1 hi).1
  have hjl := (List.getElem?_eq_some_iff.1 hj).1
  have si := hg.scan hr i _ hi
  have sj := hg.scan hr j _ hj
  simp only at si sj
  have mode_of : ∀ {x y : Mode} {o : COp}, o.Accesses v → lockScan v m x o = some y → x ≠ .none ∧ (o = .wr v → x = .w) := by
    intro x y o ho hs
    rcases ho with rfl | rfl
    · simp only [lockScan] at hs
      split at hs
      · cases hs
      · rename_i h; simp at h; exact ⟨h, by simp⟩
    · simp only [lockScan] at hs
      split at hs
      · cases hs
      · rename_i h; simp at h; exact ⟨by simp [h], fun _ => h⟩
  have mi := mode_of hae si
  have mj := mode_of haf sj
  have hxy : (s i).mode m t = .w ∨ (s j).mode m u = .w := hw.elim (fun h => .inl (mi.2 h)) (fun h => .inr (mj.2 h))
  obtain ⟨a, oa, ha, hta, hacq, hsince⟩ := acquired hr hg mj.1 (Nat.le_of_lt hjl) rfl
  have hal := (List.getElem?_eq_some_iff.1 hta).1
  have hia : i < a := by
    apply Classical.byContradiction
    intro hn
    have hne : a ≠ i := by
      rintro rfl; rw [hi] at hta; injection hta with hta; injection hta with h1 h2; exact htu h1
    have hb := hsince i (by omega) (by omega)
    rcases hxy with h | h
    · have := mode_excl (hr.excl i (by omega)) htu h
      rw [hb] at this; exact mj.1 this
    · rw [h] at hb
      have := mode_excl (hr.excl i (by omega)) (Ne.symm htu) hb
      exact mi.1 this
  have hfree : (s a).mode m t ≠ (s i).mode m t := by
    have hstep := hr.step a _ hta
    unfold exec at hstep
    split at hstep
    · rcases hacq with ⟨hx, rfl⟩ | ⟨hx, rfl⟩
      · simp only at hstep
        split at hstep
        · rename_i h
          have : (s a).mode m t = .none := by simp [Sync.mode, h.1, h.2]
          rw [this]; exact Ne.symm mi.1
        · cases hstep
      · have hyw : (s i).mode m t = .w := by
          rcases hxy with h | h
          · exact h
          · rw [h] at hx; cases hx
        simp only at hstep
        split at hstep
        · rename_i h
          rw [hyw]
          simp only [Sync.mode, h.1]
          split
          · rename_i h'; cases h'
          · split <;> simp
        · cases hstep
    · cases hstep
  obtain ⟨b, ob, hib, hba, htb, hrel⟩ := released hr hg mi.1 rfl (Nat.le_of_lt hia) (by omega) hfree
  have hib' : i < b := by
    rcases Nat.lt_or_ge i b with h | h
    · exact h
    · have : i = b := by omega
      subst this
      rw [hi] at htb
      injection htb with htb; injection htb with _ htb; subst htb
      rcases hrel with ⟨_, rfl⟩ | ⟨_, rfl⟩ <;> rcases hae with h | h <;> cases h
  have haj : HB tr a j := .edge (.po hta hj ha)
  have hbi : HB tr i b := .edge (.po hi htb hib')
  refine hbi.trans (.trans (.edge ?_) haj)
  rcases hrel with ⟨h1, rfl⟩ | ⟨h1, rfl⟩ <;> rcases hacq with ⟨h2, rfl⟩ | ⟨h2, rfl⟩
  · exact .unlock_lock htb hta hba
  · exact .unlock_rlock htb hta hba
  · exact .runlock_lock htb hta hba
  · rcases hxy with h | h
    · rw [h] at h1; cases h1
    · rw [h] at h2; cases h2

/-! ## Channels and the `go` statement -/

theorem closed_by (hr : Run tr s) {c : Chan} : ∀ {n : Nat}, n ≤ tr.length → (s n).closed c = true → ∃ b t, b < n ∧ tr[b]? = some ⟨t, .close c⟩ := by
  intro n
  induction n with
  | zero => intro _ h; rw [hr.zero] at h; cases h
  | succ n ih =>
    intro hn h
    have he : tr[n]? = some tr[n] := by rw [List.getElem?_eq_getElem]
    generalize tr[n] = e at he
    have h2 := hr.step n e he
    by_cases hc : e.op = .close c
    · obtain ⟨t, o⟩ := e
      simp only at hc; subst hc
      exact ⟨n, t, by omega, he⟩
    · have : (s n).closed c = true := by
        unfold exec at h2
        split at h2
        · cases ho : e.op <;> simp only [ho] at h2 <;> (try split at h2) <;> first
            | (cases h2)
            | (injection h2 with h2; rw [← h2] at h; exact h)
            | skip
          rename_i d hd
          injection h2 with h2
          rw [← h2] at h
          simp only at h
          split at h
          · rename_i e'; subst e'; exact absurd ho hc
          · exact h
        · cases h2
      obtain ⟨b, t, hb, h3⟩ := ih (by omega) this
      exact ⟨b, t, by omega, h3⟩

theorem started_by (hr : Run tr s) {w : Nat} (hw : w = writer) : ∀ {n : Nat}, n ≤ tr.length → (s n).started w = true → ∃ b t, b < n ∧ tr[b]? = some ⟨t, .go w⟩ := by
  intro n
  induction n with
  | zero => intro _ h; rw [hr.zero, hw] at h; cases h
  | succ n ih =>
    intro hn h
    have he : tr[n]? = some tr[n] := by rw [List.getElem?_eq_getElem]
    generalize tr[n] = e at he
    have h2 := hr.step n e he
    by_cases hc : e.op = .go w
    · obtain ⟨t, o⟩ := e
      simp only at hc; subst hc
      exact ⟨n, t, by omega, he⟩
    · have : (s n).started w = true := by
        unfold exec at h2
        split at h2
        · cases ho : e.op <;> simp only [ho] at h2 <;> (try split at h2) <;> first
            | (cases h2)
            | (injection h2 with h2; rw [← h2] at h; exact h)
            | skip
          rename_i d hd
          injection h2 with h2
          rw [← h2] at h
          simp only at h
          split at h
          · rename_i e'; subst e'; exact absurd ho hc
          · exact h
        · cases h2
      obtain ⟨b, t, hb, h3⟩ := ih (by omega) this
      exact ⟨b, t, by omega, h3⟩

/-- A receive comes after the close. -/
theorem recv_after (hr : Run tr s) {n t : Nat} {c : Chan} (h : tr[n]? = some ⟨t, .recv c⟩) : ∃ b u, b < n ∧ tr[b]? = some ⟨u, .close c⟩ := by
  have h2 := hr.step n _ h
  unfold exec at h2
  split at h2
  · simp only at h2
    split at h2
    · exact closed_by hr (Nat.le_of_lt (List.getElem?_eq_some_iff.1 h).1) (by assumption)
    · cases h2
  · cases h2

/-- `writeLoop` comes after its start. -/
theorem writer_after (hr : Run tr s) {n : Nat} {o : COp} (h : tr[n]? = some ⟨writer, o⟩) : ∃ b u, b < n ∧ tr[b]? = some ⟨u, .go writer⟩ :=
  started_by hr rfl (Nat.le_of_lt (List.getElem?_eq_some_iff.1 h).1) (exec_started (hr.step n _ h))

/-! ## Publication -/

/-- Writes to `v` (or, if `all`, all accesses) come before the first `close` and `go`. -/
def mainScan (all : Bool) (v : Var) (p : Bool) : COp → Option Bool
  | .wr u => if u = v ∧ p = true then none else some p
  | .rd u => if u = v ∧ p = true ∧ all = true then none else some p
  | .close _ => some true
  | .go _ => some true
  | _ => some p

/-- `v` is not written (or, if `all`, not accessed), no channel is closed and no goroutine started. -/
def quietScan (all closes : Bool) (v : Var) (p : Unit) : COp → Option Unit
  | .wr u => if u = v then none else some p
  | .rd u => if u = v ∧ all = true then none else some p
  | .close _ => if closes then some p else none
  | .go _ => none
  | _ => some p

/-- `v` is read after a receive only. -/
def readyScan (v : Var) (p : Bool) : COp → Option Bool
  | .wr u => if u = v then none else some p
  | .rd u => if u = v ∧ p = false then none else some p
  | .recv _ => some true
  | .close _ => none
  | .go _ => none
  | _ => some p

/-- Goroutine `t` passes the scanner. -/
def Passes {S : Type} (f : S → COp → Option S) (s0 : S) (t : Nat) (tr : CTrace) : Prop := ∃ p, opsOf t tr <+: p ∧ ∃ x, runs f s0 p = some x

/-- After a `close` or `go`, the main goroutine does not write `v`. -/
theorem main_early {all : Bool} {v : Var} (h : Passes (mainScan all v) false main tr) {b i : Nat} {o : COp} (hb : tr[b]? = some ⟨main, o⟩) (ho : (∃ c, o = .close c) ∨ ∃ t, o = .go t)
    {q : COp} (hi : tr[i]? = some ⟨main, q⟩) (hq : q = .wr v ∨ (all = true ∧ q = .rd v)) : i < b := by
  apply Classical.byContradiction
  intro hn
  obtain ⟨p, hp, x, hx⟩ := h
  obtain ⟨g, g0, gs⟩ := ghost hx hp
  have hil := (List.getElem?_eq_some_iff.1 hi).1
  have key : ∀ d, b + 1 + d ≤ tr.length → g (b + 1 + d) = true := by
    intro d
    induction d with
    | zero =>
      intro _
      have := gs b _ hb
      rw [if_pos rfl] at this
      rcases ho with ⟨c, rfl⟩ | ⟨c, rfl⟩ <;> (simp only [mainScan, Option.some.injEq] at this; exact this.symm)
    | succ d ih =>
      intro hd
      have ih := ih (by omega)
      have he : tr[b + 1 + d]? = some tr[b + 1 + d] := by rw [List.getElem?_eq_getElem]
      generalize tr[b + 1 + d] = e at he
      have := gs _ _ he
      rw [show b + 1 + (d + 1) = b + 1 + d + 1 by omega]
      split at this
      · rw [ih] at this
        cases ho : e.op <;> simp only [ho, mainScan] at this <;> (try split at this) <;> first
          | (cases this)
          | (injection this with this; exact this.symm)
      · rw [this]; exact ih
  have hne : b ≠ i := by
    rintro rfl
    rw [hb] at hi; injection hi with hi; injection hi with _ hi; subst hi
    rcases ho with ⟨c, rfl⟩ | ⟨c, rfl⟩ <;> rcases hq with h | ⟨_, h⟩ <;> cases h
  have h1 := key (i - (b + 1)) (by omega)
  rw [show b + 1 + (i - (b + 1)) = i by omega] at h1
  have h2 := gs i _ hi
  rw [if_pos rfl, h1] at h2
  rcases hq with rfl | ⟨ha, rfl⟩ <;> simp [mainScan] at h2
  simp [ha] at h2

theorem quiet {all closes : Bool} {v : Var} {t : Nat} (h : Passes (quietScan all closes v) () t tr) {i : Nat} {o : COp} (hi : tr[i]? = some ⟨t, o⟩) :
    o ≠ .wr v ∧ (all = true → o ≠ .rd v) ∧ (closes = false → ∀ c, o ≠ .close c) ∧ ∀ u, o ≠ .go u := by
  obtain ⟨p, hp, x, hx⟩ := h
  obtain ⟨g, g0, gs⟩ := ghost hx hp
  have := gs i _ hi
  rw [if_pos rfl] at this
  refine ⟨?_, ?_, ?_, ?_⟩
  · rintro rfl; simp [quietScan] at this
  · rintro h rfl; simp [quietScan, h] at this
  · rintro h c rfl; simp [quietScan, h] at this
  · rintro c rfl; simp [quietScan] at this

theorem ready {v : Var} {t : Nat} (h : Passes (readyScan v) false t tr) {i : Nat} {o : COp} (hi : tr[i]? = some ⟨t, o⟩) :
    o ≠ .wr v ∧ (∀ c, o ≠ .close c) ∧ (∀ u, o ≠ .go u) ∧ (o = .rd v → ∃ a c, a < i ∧ tr[a]? = some ⟨t, .recv c⟩) := by
  obtain ⟨p, hp, x, hx⟩ := h
  obtain ⟨g, g0, gs⟩ := ghost hx hp
  have := gs i _ hi
  rw [if_pos rfl] at this
  refine ⟨?_, ?_, ?_, ?_⟩
  · rintro rfl; simp [readyScan] at this
  · rintro c rfl; simp [readyScan] at this
  · rintro c rfl; simp [readyScan] at this
  · rintro rfl
    have hg : g i = true := by
      simp only [readyScan] at this
      split at this
      · cases this
      · rename_i h; simpa using h
    have hil := (List.getElem?_eq_some_iff.1 hi).1
    have key : ∀ n, n ≤ i → g n = true → ∃ a c, a < n ∧ tr[a]? = some ⟨t, .recv c⟩ := by
      intro n
      induction n with
      | zero => intro _ h; rw [g0] at h; cases h
      | succ n ih =>
        intro hn h
        have he : tr[n]? = some tr[n] := by rw [List.getElem?_eq_getElem]
        generalize tr[n] = e at he
        have h1 := gs n _ he
        split at h1
        · rename_i ht
          obtain ⟨u, o⟩ := e
          simp only at ht h1; subst ht
          by_cases hc : ∃ c, o = .recv c
          · obtain ⟨c, rfl⟩ := hc
            exact ⟨n, c, by omega, he⟩
          · have : g n = true := by
              cases o <;> simp only [readyScan] at h1 <;> (try split at h1) <;> first
                | (cases h1)
                | (injection h1 with h1; rw [h1]; exact h)
                | skip
              rename_i c
              exact absurd ⟨c, rfl⟩ hc
            obtain ⟨a, c, ha, h3⟩ := ih (by omega) this
            exact ⟨a, c, by omega, h3⟩
        · rw [h1] at h
          obtain ⟨a, c, ha, h3⟩ := ih (by omega) h
          exact ⟨a, c, by omega, h3⟩
    exact key i (by omega) hg

theorem tid_cases (t : Nat) : t = main ∨ t = writer ∨ 2 ≤ t := by
  unfold main writer; omega

/-- A variable that the main goroutine writes before it lets others go on, and that others read after that, has no race. -/
theorem published_ordered (hr : Run tr s) {v : Var} (hm : Passes (mainScan false v) false main tr) (hw : Passes (quietScan false true v) () writer tr) (hu : ∀ t, 2 ≤ t → Passes (readyScan v) false t tr) :
    ¬ Spec.Race tr v := by
  -- who closes a channel, and who starts the writer
  have hgo : ∀ {b t u : Nat}, tr[b]? = some (Ev.mk t (Op.go u)) → t = main := by
    intro b t u hb
    rcases tid_cases t with h | h | h
    · exact h
    · subst h; exact absurd rfl ((quiet hw hb).2.2.2 u)
    · exact absurd rfl ((ready (hu t h) hb).2.2.1 u)
  have hclose : ∀ {b t : Nat} {c : Chan}, tr[b]? = some (Ev.mk t (Op.close c)) → t = main ∨ t = writer := by
    intro b t c hb
    rcases tid_cases t with h | h | h
    · exact .inl h
    · exact .inr h
    · exact absurd rfl ((ready (hu t h) hb).2.1 c)
  -- a point of the main goroutine before every access by another one
  have hpub : ∀ {j t : Nat} {o : COp}, tr[j]? = some (Ev.mk t o) → t ≠ main → o = .rd v → ∃ b q, b < j ∧ tr[b]? = some ⟨main, q⟩ ∧ ((∃ c, q = .close c) ∨ ∃ u, q = .go u) ∧ HB tr b j := by
    intro j t o hj ht ho
    rcases tid_cases t with h | h | h
    · exact absurd h ht
    · subst h
      obtain ⟨b, u, hb, h1⟩ := writer_after hr hj
      have := hgo h1; subst this
      exact ⟨b, _, hb, h1, .inr ⟨_, rfl⟩, .edge (.go_start h1 hj hb)⟩
    · obtain ⟨a, c, ha, h1⟩ := (ready (hu t h) hj).2.2.2 ho
      obtain ⟨b, u, hb, h2⟩ := recv_after hr h1
      have haj : HB tr a j := .edge (.po h1 hj ha)
      rcases hclose h2 with h' | h'
      · subst h'
        exact ⟨b, _, by omega, h2, .inl ⟨c, rfl⟩, .trans (.edge (.close_recv h2 h1 hb)) haj⟩
      · subst h'
        obtain ⟨g, u, hg, h3⟩ := writer_after hr h2
        have := hgo h3; subst this
        exact ⟨g, _, by omega, h3, .inr ⟨_, rfl⟩, .trans (.edge (.go_start h3 h2 hg)) (.trans (.edge (.close_recv h2 h1 hb)) haj)⟩
  have hwr : ∀ {i t : Nat}, tr[i]? = some (Ev.mk t (Op.wr v)) → t = main := by
    intro i t hi
    rcases tid_cases t with h | h | h
    · exact h
    · subst h; exact absurd rfl (quiet hw hi).1
    · exact absurd rfl (ready (hu t h) hi).1
  rintro ⟨i, j, ⟨t, o⟩, ⟨u, q⟩, hi, hj, hij, htu, hae, haf, hwr', hnot⟩
  simp only at htu hae haf hwr'
  by_cases ho : o = .wr v
  · subst ho
    have := hwr hi; subst this
    have hq : q = .rd v := by
      rcases haf with h | h
      · exact h
      · subst h; exact absurd (hwr hj).symm htu
    obtain ⟨b, x, hb, h1, h2, h3⟩ := hpub hj (Ne.symm htu) hq
    have hib := main_early hm h1 h2 hi (.inl rfl)
    exact hnot (.trans (.edge (.po hi h1 hib)) h3)
  · have hq : q = .wr v := hwr'.resolve_left ho
    subst hq
    have := hwr hj; subst this
    have ho' : o = .rd v := hae.resolve_right ho
    obtain ⟨b, x, hb, h1, h2, h3⟩ := hpub hi htu ho'
    have := main_early hm h1 h2 hj (.inl rfl)
    omega

/-- A variable that the main goroutine uses before it starts the writer, and only the writer afterwards, has no race. -/
theorem handed_over (hr : Run tr s) {v : Var} (hm : Passes (mainScan true v) false main tr) (hw : ∀ {b u : Nat} {o : COp}, tr[b]? = some (Ev.mk writer o) → o ≠ .go u) (hu : ∀ t, 2 ≤ t → Passes (quietScan true false v) () t tr) :
    ¬ Spec.Race tr v := by
  have hgo : ∀ {b t u : Nat}, tr[b]? = some (Ev.mk t (Op.go u)) → t = main := by
    intro b t u hb
    rcases tid_cases t with h | h | h
    · exact h
    · subst h; exact absurd rfl (hw hb)
    · exact absurd rfl ((quiet (hu t h) hb).2.2.2 u)
  have hacc : ∀ {i t : Nat} {o : COp}, tr[i]? = some (Ev.mk t o) → Op.Accesses v o → t = main ∨ t = writer := by
    intro i t o hi ho
    rcases tid_cases t with h | h | h
    · exact .inl h
    · exact .inr h
    · rcases ho with rfl | rfl
      · exact absurd rfl ((quiet (hu t h) hi).2.1 rfl)
      · exact absurd rfl (quiet (hu t h) hi).1
  rintro ⟨i, j, ⟨t, o⟩, ⟨u, q⟩, hi, hj, hij, htu, hae, haf, hwr', hnot⟩
  simp only at htu hae haf hwr'
  rcases hacc hi hae with rfl | rfl
  · have hu' : u = writer := (hacc hj haf).resolve_left (Ne.symm htu)
    subst hu'
    obtain ⟨b, x, hb, h1⟩ := writer_after hr hj
    have := hgo h1; subst this
    have hib := main_early hm h1 (.inr ⟨_, rfl⟩) hi (hae.elim (fun h => .inr ⟨rfl, h⟩) .inl)
    exact hnot (.trans (.edge (.po hi h1 hib)) (.edge (.go_start h1 hj hb)))
  · have hu' : u = main := (hacc hj haf).resolve_right (Ne.symm htu)
    subst hu'
    obtain ⟨b, x, hb, h1⟩ := writer_after hr hi
    have := hgo h1; subst this
    have hib := main_early hm h1 (.inr ⟨_, rfl⟩) hj (haf.elim (fun h => .inr ⟨rfl, h⟩) .inl)
    omega

/-- A variable that only the main goroutine uses has no race. -/
theorem main_only {v : Var} (h : ∀ t, t ≠ main → Passes (quietScan true true v) () t tr) : ¬ Spec.Race tr v := by
  rintro ⟨i, j, ⟨t, o⟩, ⟨u, q⟩, hi, hj, hij, htu, hae, haf, hwr', hnot⟩
  simp only at htu hae haf
  have hacc : ∀ {i t : Nat} {o : COp}, tr[i]? = some (Ev.mk t o) → Op.Accesses v o → t = main := by
    intro i t o hi ho
    apply Classical.byContradiction
    intro ht
    rcases ho with rfl | rfl
    · exact absurd rfl ((quiet (h t ht) hi).2.1 rfl)
    · exact absurd rfl (quiet (h t ht) hi).1
  exact htu ((hacc hi hae).trans (hacc hj haf).symm)

end Noise.Race
