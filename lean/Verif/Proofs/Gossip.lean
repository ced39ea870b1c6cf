import Verif.Model.Gossip
import Verif.Proofs.TS
import Verif.Proofs.Iterator
/-! # Invariants of gossip on one node -/
namespace Noise.Gossip

macro "g_cases " a:ident hs:ident : tactic =>
  `(tactic| (cases $a:ident <;> simp only [step, State.setH, State.setP] at $hs:ident <;> (repeat' (split at $hs:ident)) <;> (try (cases $hs:ident))))

theorem countP_set {α : Type} (p : α → Bool) (l : List α) (i : Nat) (x y : α) (h : l[i]? = some x) :
    (l.set i y).countP p + (if p x then 1 else 0) = l.countP p + (if p y then 1 else 0) := by
  induction l generalizing i with
  | nil => cases h
  | cons a l ih =>
    cases i with
    | zero => simp only [List.getElem?_cons_zero, Option.some.injEq] at h; subst h; simp only [List.set_cons_zero, List.countP_cons]; omega
    | succ i => simp only [List.getElem?_cons_succ] at h; have := ih i h; simp only [List.set_cons_succ, List.countP_cons]; omega

theorem mem_cacheSet {l : List Bytes} {k x : Bytes} : x ∈ cacheSet l k ↔ x ∈ l ∨ (x = k ∧ k.length < 65532) := by
  unfold cacheSet; split <;> simp <;> tauto

theorem cacheHas_iff {l : List Bytes} {k : Bytes} : cacheHas l k = true ↔ k ∈ l := by simp [cacheHas]

theorem hash_length (k : PublicKey) (d : Bytes) : (hash k d).length = 32 + d.length := by
  have := k.2; simp only [hash, List.length_append]; omega

theorem hash_inj {k k' : PublicKey} {d d' : Bytes} (h : hash k d = hash k' d') : k = k' ∧ d = d' := by
  have := List.append_inj h (by rw [k.2, k'.2])
  exact ⟨Subtype.ext this.1, this.2⟩

/-- handlers of `d` that found it new and have not reported it -/
def pend (d : Bytes) (l : List Handler) : Nat := l.countP fun h => decide (h.data = d ∧ (h.pc = .mark ∨ h.pc = .callback))
def pendCb (d : Bytes) (l : List Handler) : Nat := l.countP fun h => decide (h.data = d ∧ h.pc = .callback)
def dels (d : Bytes) (l : List (ID × Bytes)) : Nat := l.countP fun e => decide (e.2 = d)

theorem pend_le (d : Bytes) (l : List Handler) : pend d l ≤ running l := by
  unfold pend running
  apply List.countP_mono_left
  intro h _ hh
  simp only [decide_eq_true_eq] at hh ⊢
  rcases hh.2 with e | e <;> rw [e] <;> simp

theorem pendCb_le (d : Bytes) (l : List Handler) : pendCb d l ≤ pend d l := by
  unfold pend pendCb
  apply List.countP_mono_left
  intro h _ hh
  simp only [decide_eq_true_eq] at hh ⊢
  exact ⟨hh.1, Or.inr hh.2⟩

structure DInv (c : Cfg) (d : Bytes) (s : State) : Prop where
  run : running s.handlers ≤ c.workers
  fresh : hash c.self d ∉ s.cache → dels d s.delivered = 0 ∧ pendCb d s.handlers = 0
  bound : dels d s.delivered + pend d s.handlers ≤ c.workers

theorem cache_mono {c : Cfg} {s s' : State} {a : Action} (hs : step c s a = some s') {x : Bytes} (hx : x ∈ s.cache) : x ∈ s'.cache := by
  g_cases a hs
  all_goals (simp only [mem_cacheSet]; tauto)

theorem running_set {l : List Handler} {i : Nat} {h : Handler} (pc : HPc) (hh : l[i]? = some h) :
    running (l.set i { h with pc := pc }) + (if h.pc = .done then 0 else 1) = running l + (if pc = .done then 0 else 1) := by
  have := countP_set (fun h => decide (h.pc ≠ .done)) l i h { h with pc := pc } hh
  simp only [running]; grind

theorem pend_set (d : Bytes) {l : List Handler} {i : Nat} {h : Handler} (pc : HPc) (hh : l[i]? = some h) :
    pend d (l.set i { h with pc := pc }) + (if h.data = d ∧ (h.pc = .mark ∨ h.pc = .callback) then 1 else 0) =
      pend d l + (if h.data = d ∧ (pc = .mark ∨ pc = .callback) then 1 else 0) := by
  have := countP_set (fun h => decide (h.data = d ∧ (h.pc = .mark ∨ h.pc = .callback))) l i h { h with pc := pc } hh
  simp only [decide_eq_true_eq] at this
  simp only [pend]; exact this

theorem pendCb_set (d : Bytes) {l : List Handler} {i : Nat} {h : Handler} (pc : HPc) (hh : l[i]? = some h) :
    pendCb d (l.set i { h with pc := pc }) + (if h.data = d ∧ h.pc = .callback then 1 else 0) =
      pendCb d l + (if h.data = d ∧ pc = .callback then 1 else 0) := by
  have := countP_set (fun h => decide (h.data = d ∧ h.pc = .callback)) l i h { h with pc := pc } hh
  simp only [decide_eq_true_eq] at this
  simp only [pendCb]; exact this

theorem dels_append (d : Bytes) (l : List (ID × Bytes)) (e : ID × Bytes) : dels d (l ++ [e]) = dels d l + if e.2 = d then 1 else 0 := by
  simp [dels, List.countP_append, List.countP_cons]

/-- how the numbers change -/
theorem count_step {c : Cfg} {s s' : State} {a : Action} (d : Bytes) (hs : step c s a = some s') :
    (running s.handlers ≤ c.workers → running s'.handlers ≤ c.workers) ∧
    (dels d s'.delivered + pend d s'.handlers ≤ dels d s.delivered + pend d s.handlers ∨
      (hash c.self d ∉ s.cache ∧ pendCb d s'.handlers = pendCb d s.handlers ∧ s'.delivered = s.delivered)) ∧
    (hash c.self d ∈ s'.cache ∨ (32 + d.length ≥ 65532) ∨ (dels d s'.delivered + pendCb d s'.handlers ≤ dels d s.delivered + pendCb d s.handlers)) := by
  have hl := hash_length c.self d
  g_cases a hs
  case receive.isTrue.refl sender data hw =>
    refine ⟨fun _ => ?_, Or.inl ?_, Or.inr (Or.inr ?_)⟩
    · simp only [running, List.countP_append] at hw ⊢
      have := List.countP_le_length (p := fun h : Handler => decide (h.pc ≠ .done)) (l := [⟨sender, data, .sender⟩])
      simp only [List.length_singleton] at this
      omega
    all_goals simp [pend, pendCb, List.countP_append]
  all_goals (try exact ⟨id, Or.inl (Nat.le_refl _), Or.inr (Or.inr (Nat.le_refl _))⟩)
  all_goals grind [running_set, pend_set, pendCb_set, dels_append, mem_cacheSet, cacheHas_iff]

theorem DInv.step {c : Cfg} {d : Bytes} {s s' : State} {a : Action} (hd : d.length < 65500) (h : DInv c d s) (hs : step c s a = some s') : DInv c d s' := by
  obtain ⟨h1, h2, h3⟩ := count_step d hs
  have h4 := pend_le d s'.handlers
  have h5 := h1 h.run
  have h6 := h.bound
  refine ⟨h5, fun hn => ?_, ?_⟩
  · have hn' : hash c.self d ∉ s.cache := fun hx => hn (cache_mono hs hx)
    have := h.fresh hn'
    rcases h3 with h3 | h3 | h3
    · exact absurd h3 hn
    · omega
    · omega
  · rcases h2 with h2 | ⟨h2, h7, h8⟩
    · omega
    · have := h.fresh h2
      rw [h8]; omega

theorem DInv.new (c : Cfg) (d : Bytes) : DInv c d State.new := ⟨by simp [running, State.new], by simp [dels, pendCb, State.new], by simp [dels, pend, State.new]⟩

theorem dels_mono {c : Cfg} {s s' : State} {a : Action} (d : Bytes) (hs : step c s a = some s') : dels d s.delivered ≤ dels d s'.delivered := by
  g_cases a hs
  all_goals (first | exact Nat.le_refl _ | (rw [dels_append]; omega))

/-- Known and nobody about to report it: stays that way. -/
theorem frozen_step {c : Cfg} {d : Bytes} {s s' : State} {a : Action} (hk : hash c.self d ∈ s.cache) (hp : pend d s.handlers = 0) (hs : step c s a = some s') :
    hash c.self d ∈ s'.cache ∧ pend d s'.handlers = 0 ∧ dels d s'.delivered = dels d s.delivered := by
  obtain ⟨_, h2, _⟩ := count_step d hs
  have := dels_mono d hs
  rcases h2 with h2 | ⟨h2, _⟩
  · exact ⟨cache_mono hs hk, by omega, by omega⟩
  · exact absurd hk h2

/-! ## Sends -/

def gcount (k : PublicKey) (pc : GPc) (l : List Gor) : Nat := l.countP fun g => decide (g.peer.id = k ∧ g.pc = pc)
/-- goroutines of `p` about to send `d` to `k` -/
def gsend (d : Bytes) (k : PublicKey) (p : Pushing) : Nat := if p.data = d then gcount k .send p.gors else 0
/-- goroutines of `p` that have sent `d` to `k` and not noted it -/
def gset (d : Bytes) (k : PublicKey) (p : Pushing) : Nat := if p.data = d then gcount k .set p.gors else 0
def sends (d : Bytes) (k : PublicKey) (l : List (ID × Bytes)) : Nat := l.countP fun e => decide (e.1.id = k ∧ e.2 = d)

def Pushing.Wf (p : Pushing) : Prop := (p.gors.map fun g => g.peer.id).Nodup ∧ (p.pc = .mark ∨ p.pc = .entries → p.gors = []) ∧ (p.pc = .done → ∀ g ∈ p.gors, g.pc = .done)

theorem gcount_set (k : PublicKey) (pc' : GPc) {l : List Gor} {j : Nat} {g : Gor} (pc : GPc) (h : l[j]? = some g) :
    gcount k pc' (l.set j { g with pc := pc }) + (if g.peer.id = k ∧ g.pc = pc' then 1 else 0) = gcount k pc' l + (if g.peer.id = k ∧ pc = pc' then 1 else 0) := by
  have := countP_set (fun g => decide (g.peer.id = k ∧ g.pc = pc')) l j g { g with pc := pc } h
  simp only [decide_eq_true_eq] at this
  exact this

theorem gcount_nil (k : PublicKey) (pc : GPc) : gcount k pc [] = 0 := rfl

theorem gcount_new (k : PublicKey) (pc : GPc) (l : List ID) (h : pc ≠ .check) : gcount k pc (l.map fun e => ⟨e, .check⟩) = 0 := by
  unfold gcount
  rw [List.countP_eq_zero]
  intro g hg
  obtain ⟨e, _, rfl⟩ := List.mem_map.1 hg
  simp [h.symm]

theorem gcount_le_one (k : PublicKey) : ∀ l : List Gor, (l.map fun g => g.peer.id).Nodup → gcount k .send l + gcount k .set l ≤ 1
  | [], _ => by simp [gcount]
  | g :: l, h => by
    obtain ⟨h1, h2⟩ := List.nodup_cons.1 h
    have ih := gcount_le_one k l h2
    by_cases e : g.peer.id = k
    · have hz : ∀ pc, gcount k pc l = 0 := by
        intro pc
        unfold gcount
        rw [List.countP_eq_zero]
        intro g' hg' hh
        simp only [decide_eq_true_eq] at hh
        exact h1 (List.mem_map.2 ⟨g', hg', by rw [hh.1]; exact e.symm⟩)
      have h3 := hz .send
      have h4 := hz .set
      unfold gcount at h3 h4 ⊢
      rw [List.countP_cons, List.countP_cons, h3, h4]
      cases hpc : g.pc <;> simp [e]
    · unfold gcount at ih ⊢
      rw [List.countP_cons, List.countP_cons]
      simp only [e, false_and, decide_false, Bool.false_eq_true, if_false, Nat.add_zero]; exact ih

theorem gsum_le (d : Bytes) (k : PublicKey) (p : Pushing) (h : p.Wf) : gsend d k p + gset d k p ≤ if p.pc = .done then 0 else 1 := by
  unfold gsend gset
  have h1 := gcount_le_one k p.gors h.1
  by_cases hd : p.pc = .done
  · have hz : ∀ pc, pc ≠ .done → gcount k pc p.gors = 0 := by
      intro pc hne
      unfold gcount
      rw [List.countP_eq_zero]
      intro g hg
      simp [h.2.2 hd g hg, hne.symm]
    rw [hz .send (by simp), hz .set (by simp)]; simp
  · simp only [hd]; split <;> simp_all

theorem sum_le_running (d : Bytes) (k : PublicKey) : ∀ l : List Pushing, (∀ p ∈ l, p.Wf) → (l.map (gsend d k)).sum + (l.map (gset d k)).sum ≤ runningPushes l
  | [], _ => by simp [runningPushes]
  | p :: l, h => by
    have h1 := gsum_le d k p (h p List.mem_cons_self)
    have h2 := sum_le_running d k l fun q hq => h q (List.mem_cons_of_mem _ hq)
    simp only [runningPushes, List.map_cons, List.sum_cons, List.countP_cons] at h2 ⊢
    by_cases hd : p.pc = .done <;> simp only [hd, if_true, if_false, ne_eq, not_true, not_false_eq_true, decide_true, decide_false, Bool.false_eq_true] at h1 h2 ⊢ <;> omega

theorem runningPushes_set {l : List Pushing} {i : Nat} {p q : Pushing} (hh : l[i]? = some p) :
    runningPushes (l.set i q) + (if p.pc = .done then 0 else 1) = runningPushes l + (if q.pc = .done then 0 else 1) := by
  have := countP_set (fun h : Pushing => decide (h.pc ≠ .done)) l i p q hh
  simp only [runningPushes]; grind

theorem sends_append (d : Bytes) (k : PublicKey) (l : List (ID × Bytes)) (e : ID × Bytes) :
    sends d k (l ++ [e]) = sends d k l + if e.1.id = k ∧ e.2 = d then 1 else 0 := by
  simp [sends, List.countP_append, List.countP_cons]

def sumSend (d : Bytes) (k : PublicKey) (l : List Pushing) : Nat := (l.map (gsend d k)).sum
def sumSet (d : Bytes) (k : PublicKey) (l : List Pushing) : Nat := (l.map (gset d k)).sum

theorem sumSend_set (d : Bytes) (k : PublicKey) {l : List Pushing} {i : Nat} {p q : Pushing} (hh : l[i]? = some p) :
    sumSend d k (l.set i q) + gsend d k p = sumSend d k l + gsend d k q := Iter.sum_set _ _ _ _ _ hh

theorem sumSet_set (d : Bytes) (k : PublicKey) {l : List Pushing} {i : Nat} {p q : Pushing} (hh : l[i]? = some p) :
    sumSet d k (l.set i q) + gset d k p = sumSet d k l + gset d k q := Iter.sum_set _ _ _ _ _ hh

grind_pattern sumSend_set => sumSend d k (l.set i q), some p
grind_pattern sumSet_set => sumSet d k (l.set i q), some p

theorem sumSend_append (d : Bytes) (k : PublicKey) (l : List Pushing) (d' : Bytes) : sumSend d k (l ++ [⟨d', .mark, []⟩]) = sumSend d k l := by
  simp [sumSend, gsend, gcount]

theorem sumSet_append (d : Bytes) (k : PublicKey) (l : List Pushing) (d' : Bytes) : sumSet d k (l ++ [⟨d', .mark, []⟩]) = sumSet d k l := by
  simp [sumSet, gset, gcount]

theorem runningPushes_append (l : List Pushing) (d' : Bytes) : runningPushes (l ++ [⟨d', .mark, []⟩]) = runningPushes l + 1 := by
  simp [runningPushes, List.countP_append]

/-- how the numbers change -/
theorem send_step {c : Cfg} {s s' : State} {a : Action} (d : Bytes) (k : PublicKey) (hw : ∀ p ∈ s.pushes, p.Wf) (hs : step c s a = some s') :
    (runningPushes s.pushes ≤ c.pushes → runningPushes s'.pushes ≤ c.pushes) ∧
    (sends d k s'.sent + sumSend d k s'.pushes ≤ sends d k s.sent + sumSend d k s.pushes ∨
      (hash k d ∉ s.cache ∧ s'.cache = s.cache ∧ s'.sent = s.sent ∧ sumSet d k s'.pushes = sumSet d k s.pushes)) ∧
    (hash k d ∈ s'.cache ∨ 32 + d.length ≥ 65532 ∨ sends d k s'.sent + sumSet d k s.pushes = sends d k s.sent + sumSet d k s'.pushes) := by
  have hl := hash_length k d
  g_cases a hs
  all_goals (try exact ⟨id, Or.inl (Nat.le_refl _), Or.inr (Or.inr (Nat.add_comm _ _ ▸ rfl))⟩)
  case h_2.isTrue.refl k1 entries x p hp x1 hpc hnd =>
    have h1 : p.gors = [] := (hw p (List.mem_of_getElem? hp)).2.1 (Or.inr hpc)
    have h2 := gcount_new k .send entries (by simp)
    have h3 := gcount_new k .set entries (by simp)
    grind [runningPushes_set, gcount_nil, gsend, gset]
  all_goals grind [runningPushes_set, runningPushes_append,  sumSend_append, sumSet_append, sends_append, gcount_set, gcount_new, gcount_nil, gsend, gset, mem_cacheSet, cacheHas_iff]

theorem wf_set {p : Pushing} {j : Nat} {g : Gor} (pc : GPc) (h : p.Wf) (hg : p.gors[j]? = some g) (hne : g.pc ≠ .done) :
    Pushing.Wf { p with gors := p.gors.set j { g with pc := pc } } := by
  refine ⟨?_, fun hp => ?_, fun hp => ?_⟩
  · have : (p.gors.set j { g with pc := pc }).map (fun g => g.peer.id) = p.gors.map fun g => g.peer.id := by
      rw [List.map_set]
      apply List.ext_getElem?
      intro i
      rw [List.getElem?_set]
      split
      · rename_i e; subst e
        have := (List.getElem?_eq_some_iff.1 hg).1
        simp [this, (List.getElem?_eq_some_iff.1 hg).2]
      · rfl
    show ((p.gors.set j { g with pc := pc }).map (fun g => g.peer.id)).Nodup
    rw [this]; exact h.1
  · rw [h.2.1 hp] at hg; simp at hg
  · exact absurd (h.2.2 hp g (List.mem_of_getElem? hg)) hne

theorem wf_step {c : Cfg} {s s' : State} {a : Action} (hw : ∀ p ∈ s.pushes, p.Wf) (hs : step c s a = some s') : ∀ p ∈ s'.pushes, p.Wf := by
  g_cases a hs
  all_goals (try exact hw)
  all_goals
    intro q hq
  all_goals first
    | (rcases List.mem_append.1 hq with hq | hq
       · exact hw q hq
       · rw [List.mem_singleton.1 hq]; exact ⟨List.nodup_nil, fun _ => rfl, by simp⟩)
    | (rcases List.mem_or_eq_of_mem_set hq with hq | rfl
       · exact hw q hq
       · have hget := ‹s.pushes[_]? = some _›
         have hwp := hw _ (List.mem_of_getElem? hget)
         first
           | (exact wf_set _ hwp (by assumption) (by grind))
           | (refine ⟨?_, ?_, ?_⟩ <;> grind [Pushing.Wf, List.map_map]))

structure SInv (c : Cfg) (d : Bytes) (k : PublicKey) (s : State) : Prop where
  wf : ∀ p ∈ s.pushes, p.Wf
  run : runningPushes s.pushes ≤ c.pushes
  fresh : hash k d ∉ s.cache → sends d k s.sent = sumSet d k s.pushes
  bound : sends d k s.sent + sumSend d k s.pushes ≤ c.pushes

theorem SInv.step {c : Cfg} {d : Bytes} {k : PublicKey} {s s' : State} {a : Action} (hd : d.length < 65500) (h : SInv c d k s) (hs : step c s a = some s') :
    SInv c d k s' := by
  obtain ⟨h1, h2, h3⟩ := send_step d k h.wf hs
  have hw := wf_step h.wf hs
  have h4 : sumSend d k s'.pushes + sumSet d k s'.pushes ≤ runningPushes s'.pushes := sum_le_running d k s'.pushes hw
  have h5 := h1 h.run
  have h6 := h.bound
  refine ⟨hw, h5, fun hn => ?_, ?_⟩
  · have hn' : hash k d ∉ s.cache := fun hx => hn (cache_mono hs hx)
    have := h.fresh hn'
    rcases h3 with h3 | h3 | h3
    · exact absurd h3 hn
    · omega
    · omega
  · rcases h2 with h2 | ⟨h2, _, h7, h8⟩
    · omega
    · have := h.fresh h2
      rw [h7]; omega

theorem SInv.new (c : Cfg) (d : Bytes) (k : PublicKey) : SInv c d k State.new :=
  ⟨by simp [State.new], by simp [runningPushes, State.new], by simp [sends, sumSet, State.new], by simp [sends, sumSend, State.new]⟩

theorem sends_mono {c : Cfg} {s s' : State} {a : Action} (d : Bytes) (k : PublicKey) (hs : step c s a = some s') : sends d k s.sent ≤ sends d k s'.sent := by
  g_cases a hs
  all_goals (first | exact Nat.le_refl _ | (rw [sends_append]; omega))

/-- Noted and nobody about to send it: stays that way. -/
theorem quiet_step {c : Cfg} {d : Bytes} {k : PublicKey} {s s' : State} {a : Action} (hw : ∀ p ∈ s.pushes, p.Wf) (hk : hash k d ∈ s.cache)
    (hp : sumSend d k s.pushes = 0) (hs : step c s a = some s') :
    hash k d ∈ s'.cache ∧ sumSend d k s'.pushes = 0 ∧ sends d k s'.sent = sends d k s.sent := by
  obtain ⟨_, h2, _⟩ := send_step d k hw hs
  have := sends_mono d k hs
  rcases h2 with h2 | ⟨h2, _⟩
  · exact ⟨cache_mono hs hk, by omega, by omega⟩
  · exact absurd hk h2

/-- nothing is sent to oneself -/
structure OwnInv (c : Cfg) (d : Bytes) (s : State) : Prop where
  wf : ∀ p ∈ s.pushes, p.Wf
  marked : ∀ p ∈ s.pushes, p.data = d → p.pc ≠ .mark → hash c.self d ∈ s.cache
  none : sends d c.self s.sent = 0 ∧ sumSend d c.self s.pushes = 0

theorem gors_of_step {c : Cfg} {d : Bytes} {s s' : State} {a : Action} (hd : d.length < 65500) (hm : ∀ p ∈ s.pushes, p.data = d → p.pc ≠ .mark → hash c.self d ∈ s.cache)
    (hs : step c s a = some s') : ∀ p ∈ s'.pushes, p.data = d → p.pc ≠ .mark → hash c.self d ∈ s'.cache := by
  have hl := hash_length c.self d
  g_cases a hs
  all_goals (try exact hm)
  all_goals
    intro q hq hqd hqm
  all_goals grind [List.mem_or_eq_of_mem_set, List.mem_of_getElem?, mem_cacheSet]

theorem OwnInv.step {c : Cfg} {d : Bytes} {s s' : State} {a : Action} (hd : d.length < 65500) (h : OwnInv c d s) (hs : step c s a = some s') : OwnInv c d s' := by
  have hw := wf_step h.wf hs
  have hm := gors_of_step hd h.marked hs
  obtain ⟨_, h2, _⟩ := send_step d c.self h.wf hs
  have := h.none
  refine ⟨hw, hm, ?_⟩
  rcases h2 with h2 | ⟨h2, h3, h4, _⟩
  · omega
  · rw [h4]
    refine ⟨this.1, Iter.sum_zero _ _ fun p hp => ?_⟩
    unfold gsend
    split
    · rename_i e
      by_cases hmk : p.pc = .mark
      · rw [(hw p hp).2.1 (Or.inl hmk)]; rfl
      · exact absurd (h3 ▸ hm p hp e hmk) h2
    · rfl

theorem OwnInv.new (c : Cfg) (d : Bytes) : OwnInv c d State.new := ⟨by simp [State.new], by simp [State.new], by simp [sends, sumSend, State.new]⟩

end Noise.Gossip
