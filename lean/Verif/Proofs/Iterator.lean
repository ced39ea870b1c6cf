import Verif.Model.Iterator
import Verif.Spec.Lookup
import Verif.Proofs.TS
import Verif.Proofs.Binary
/-! # Invariants of lookups -/
namespace Noise.Iter
open Noise

theorem sum_set {α : Type} (f : α → Nat) (l : List α) (i : Nat) (x y : α) (h : l[i]? = some x) : ((l.set i y).map f).sum + f x = (l.map f).sum + f y := by
  induction l generalizing i with
  | nil => cases h
  | cons a l ih =>
    cases i with
    | zero => cases h; simp; omega
    | succ i => simp only [List.set_cons_succ, List.map_cons, List.sum_cons]; have := ih i h; omega

/-- Case split of a step of a lookup. -/
macro "lookup_cases " a:ident hs:ident : tactic =>
  `(tactic| (cases $a:ident <;> simp only [lookupStep, mainStep, workerStep] at $hs:ident <;> (repeat' (split at $hs:ident)) <;> (try (cases $hs:ident))))

def busy : Worker → Nat
  | .request _ | .result _ _ | .out _ => 1
  | _ => 0

def inMerge : Main → Nat
  | .merge _ => 1
  | _ => 0

def ending : Main → Bool
  | .closing | .waiting | .done => true
  | _ => false

structure LInv (c : Cfg) (l : Lookup) : Prop where
  pend : l.pending = l.queue.length + (l.workers.map busy).sum + l.results.length + inMerge l.main
  qcap : l.queue.length ≤ c.requests
  rcap : l.results.length ≤ c.requests
  wlen : l.workers.length = c.requests
  zero : ending l.main = true → l.pending = 0
  empty : ending l.main = true → 0 < c.requests → l.bucket = []
  exit : ∀ j : Nat, l.workers[j]? = some Worker.exited → l.closed = true
  rpend : l.main = .recv → 0 < l.pending
  done : l.main = .done → ∀ (j : Nat) (w : Worker), l.workers[j]? = some w → w = .exited

theorem LInv.new (c : Cfg) (b : List ID) : LInv c (Lookup.new c.requests b) := by
  have h0 : ∀ n, ((List.replicate n Worker.idle).map busy).sum = 0 := by
    intro n; induction n with
    | zero => rfl
    | succ n ih => rw [List.replicate_succ, List.map_cons, List.sum_cons, ih]; rfl
  refine ⟨?_, ?_, ?_, ?_, ?_, ?_, ?_, ?_, ?_⟩ <;> simp only [Lookup.new]
  · rw [h0]; rfl
  · simp
  · simp
  · simp
  · intro h; cases h
  · intro h; cases h
  · intro j h
    rw [List.getElem?_replicate] at h
    split at h <;> cases h
  · intro h; cases h
  · intro h; cases h

theorem LInv.step {c : Cfg} {sh sh' : Shared} {l l' : Lookup} {a : LAction} (h : LInv c l) (hs : lookupStep c sh l a = some (sh', l')) : LInv c l' := by
  obtain ⟨h1, h2, h3, h4, h5, h6, h7, h9, h8⟩ := h
  have hw := fun j x (hj : l.workers[j]? = some x) y => sum_set busy l.workers j x y hj
  lookup_cases a hs
  all_goals refine ⟨?_, ?_, ?_, ?_, ?_, ?_, ?_, ?_, ?_⟩
  all_goals (try (simp only [ending, inMerge, Lookup.closed, busy, List.length_set, List.length_append] at *))
  all_goals (try (first | assumption | omega))
  all_goals (try (first | grind [busy, inMerge, ending, Lookup.closed] | skip))
  rename_i hall
  intro _ j w hj
  have := List.all_eq_true.1 hall w (List.mem_of_getElem? hj)
  simpa using this

/-! ### merging answers -/

/-- Keys of `U` not yet visited. -/
def unv (U visited : List PublicKey) : Nat := (U.filter (fun k => decide (k ∉ visited))).length

theorem unv_cons (U visited : List PublicKey) (k : PublicKey) (hU : k ∈ U) (hv : k ∉ visited) : unv U (k :: visited) + 1 ≤ unv U visited := by
  unfold unv
  induction U with
  | nil => cases hU
  | cons u U ih =>
    have hle : ∀ U : List PublicKey, (U.filter (fun k' => decide (k' ∉ k :: visited))).length ≤ (U.filter (fun k' => decide (k' ∉ visited))).length := by
      intro U
      induction U with
      | nil => simp
      | cons w W ih2 => simp only [List.filter_cons]; grind
    simp only [List.filter_cons]
    by_cases huk : u = k
    · subst huk
      simp [hv]
      have := hle U
      simpa using this
    · have h := ih (by cases hU with | head => exact absurd rfl huk | tail _ h => exact h)
      grind

theorem mergeIds_measure (U : List PublicKey) : ∀ (ids : List ID) (visited : List PublicKey) (bucket : List ID), (∀ e ∈ ids, e.id ∈ U) →
    10 * unv U (mergeIds ids visited bucket).1 + 9 * (mergeIds ids visited bucket).2.length ≤ 10 * unv U visited + 9 * bucket.length
  | [], visited, bucket, _ => Nat.le_refl _
  | e :: ids, visited, bucket, h => by
    simp only [mergeIds]
    split
    · exact mergeIds_measure U ids visited bucket (fun x hx => h x (List.mem_cons_of_mem _ hx))
    · rename_i hv
      have h1 := mergeIds_measure U ids (e.id :: visited) (bucket ++ [e]) (fun x hx => h x (List.mem_cons_of_mem _ hx))
      have h2 := unv_cons U visited e.id (h e List.mem_cons_self) hv
      simp only [List.length_append, List.length_singleton] at h1
      omega

def ind (p : Prop) [Decidable p] : Nat := if p then 1 else 0

theorem mergeIds_count (k : PublicKey) : ∀ (ids : List ID) (visited : List PublicKey) (bucket : List ID),
    ((mergeIds ids visited bucket).2.map ID.id).count k + ind (k ∈ visited) = (bucket.map ID.id).count k + ind (k ∈ (mergeIds ids visited bucket).1)
  | [], visited, bucket => rfl
  | e :: ids, visited, bucket => by
    simp only [mergeIds]
    split
    · exact mergeIds_count k ids visited bucket
    · rename_i hv
      have h := mergeIds_count k ids (e.id :: visited) (bucket ++ [e])
      simp only [List.map_append, List.map_cons, List.map_nil, List.count_append, List.count_singleton, ind, List.mem_cons] at h ⊢
      grind

theorem mergeIds_visited : ∀ (ids : List ID) (visited : List PublicKey) (bucket : List ID),
    (∀ k ∈ visited, k ∈ (mergeIds ids visited bucket).1) ∧ (∀ e ∈ ids, e.id ∈ (mergeIds ids visited bucket).1) ∧
    (∀ e ∈ (mergeIds ids visited bucket).2, e ∈ bucket ∨ (e ∈ ids ∧ e.id ∉ visited))
  | [], visited, bucket => ⟨fun _ h => h, by simp, fun _ h => Or.inl h⟩
  | e :: ids, visited, bucket => by
    simp only [mergeIds]
    split
    · rename_i hv
      obtain ⟨h1, h2, h3⟩ := mergeIds_visited ids visited bucket
      refine ⟨h1, ?_, ?_⟩
      · intro x hx
        rcases List.mem_cons.1 hx with rfl | hx
        · exact h1 _ hv
        · exact h2 x hx
      · intro x hx; rcases h3 x hx with h | ⟨h, h'⟩
        · exact Or.inl h
        · exact Or.inr ⟨List.mem_cons_of_mem _ h, h'⟩
    · rename_i hv
      obtain ⟨h1, h2, h3⟩ := mergeIds_visited ids (e.id :: visited) (bucket ++ [e])
      refine ⟨fun k hk => h1 k (List.mem_cons_of_mem _ hk), ?_, ?_⟩
      · intro x hx
        rcases List.mem_cons.1 hx with rfl | hx
        · exact h1 _ List.mem_cons_self
        · exact h2 x hx
      · intro x hx
        rcases h3 x hx with h | ⟨h, h'⟩
        · rcases List.mem_append.1 h with h | h
          · exact Or.inl h
          · rw [List.mem_singleton.1 h]; exact Or.inr ⟨List.mem_cons_self, hv⟩
        · exact Or.inr ⟨List.mem_cons_of_mem _ h, fun hc => h' (List.mem_cons_of_mem _ hc)⟩

/-! ### facts about one step of a lookup -/

def wWeight : Worker → Nat
  | .idle => 1
  | .request _ => 8
  | .result _ _ => 7
  | .out _ => 5
  | .exited => 0

def mWeight : Main → Nat
  | .fill => 4
  | .recv => 3
  | .merge _ => 5
  | .closing => 3
  | .waiting => 2
  | .done => 1

def lMeasure (l : Lookup) : Nat := 9 * l.bucket.length + 8 * l.queue.length + 3 * l.results.length + (l.workers.map wWeight).sum + mWeight l.main

/-- The lookup holds an answer it has not merged yet. -/
def Holds (l : Lookup) (res : List ID) : Prop :=
  (∃ id, Worker.result id res ∈ l.workers) ∨ Worker.out res ∈ l.workers ∨ res ∈ l.results ∨ l.main = .merge res

theorem measure_step {c : Cfg} {sh sh' : Shared} {l l' : Lookup} {a : LAction} (U : List PublicKey) (hU : ∀ res, Holds l res → ∀ e ∈ res, e.id ∈ U)
    (hs : lookupStep c sh l a = some (sh', l')) : 10 * unv U sh'.visited + sh'.chan.length + lMeasure l' + 1 ≤ 10 * unv U sh.visited + sh.chan.length + lMeasure l := by
  have hw := fun j x (hj : l.workers[j]? = some x) y => sum_set wWeight l.workers j x y hj
  unfold lMeasure
  lookup_cases a hs
  all_goals (try grind [wWeight, mWeight])
  rename_i ids hm
  have := mergeIds_measure U ids sh.visited l.bucket (hU ids (Or.inr (Or.inr (Or.inr hm))))
  simp only [hm, mWeight]
  omega


def keys (l : Lookup) : List PublicKey := (l.queue ++ l.bucket).map ID.id

theorem keys_step {c : Cfg} {sh sh' : Shared} {l l' : Lookup} {a : LAction} (hs : lookupStep c sh l a = some (sh', l')) (k : PublicKey) :
    (sh'.asked.map (·.1.id)).count k + (keys l').count k + ind (k ∈ sh.visited) = (sh.asked.map (·.1.id)).count k + (keys l).count k + ind (k ∈ sh'.visited) := by
  lookup_cases a hs
  all_goals (try grind [keys])
  rename_i ids hm
  have := mergeIds_count k ids sh.visited l.bucket
  simp only [keys, List.map_append, List.count_append] at *
  omega

def reqP (p : ID → Bool) : Worker → Nat
  | .request id => if p id then 1 else 0
  | _ => 0

def resP (p : ID → Bool) : Worker → Nat
  | .result id _ => if p id then 1 else 0
  | _ => 0

def okP (p : ID → Bool) (r : Reply) : Bool := r.answer.isSome && p r.peer

theorem counts_step {c : Cfg} {sh sh' : Shared} {l l' : Lookup} {a : LAction} (hs : lookupStep c sh l a = some (sh', l')) (p : ID → Bool) :
    (sh'.replies.countP (fun r => p r.peer) + (l'.workers.map (reqP p)).sum + sh.asked.countP (fun x => p x.1) =
      sh.replies.countP (fun r => p r.peer) + (l.workers.map (reqP p)).sum + sh'.asked.countP (fun x => p x.1)) ∧
    (sh'.chan.countP p + (l'.workers.map (resP p)).sum + sh.replies.countP (okP p) = sh.chan.countP p + (l.workers.map (resP p)).sum + sh'.replies.countP (okP p)) := by
  have hw := fun j x (hj : l.workers[j]? = some x) y => sum_set (reqP p) l.workers j x y hj
  have hw' := fun j x (hj : l.workers[j]? = some x) y => sum_set (resP p) l.workers j x y hj
  lookup_cases a hs
  all_goals grind [reqP, resP, okP]

theorem mono_step {c : Cfg} {sh sh' : Shared} {l l' : Lookup} {a : LAction} (hs : lookupStep c sh l a = some (sh', l')) :
    (∀ k ∈ sh.visited, k ∈ sh'.visited) ∧ (∀ r ∈ sh.replies, r ∈ sh'.replies) ∧ (∀ x ∈ sh.asked, x ∈ sh'.asked) ∧ (∀ x ∈ sh'.asked, x ∈ sh.asked ∨ (x.1 ∈ l.queue ∧ x.2 = x.1.id)) ∧
    (sh.chan.length ≤ 1 → sh'.chan.length ≤ 1) := by
  lookup_cases a hs
  all_goals (try grind)
  rename_i ids hm
  have := mergeIds_visited ids sh.visited l.bucket
  grind

theorem mem_set_of_ne {α : Type} {l : List α} {j : Nat} {x y o : α} (h : l[j]? = some o) (hx : x ∈ l) (hne : x ≠ o) : x ∈ l.set j y := by
  obtain ⟨i, hi, rfl⟩ := List.getElem_of_mem hx
  refine List.mem_iff_getElem?.2 ⟨i, ?_⟩
  rw [List.getElem?_set]
  split
  · rename_i hij
    subst hij
    rw [List.getElem?_eq_getElem hi] at h
    exact absurd (Option.some.inj h) hne
  · exact List.getElem?_eq_getElem hi

theorem mem_set_self {α : Type} {l : List α} {j : Nat} {y o : α} (h : l[j]? = some o) : y ∈ l.set j y := by
  refine List.mem_iff_getElem?.2 ⟨j, ?_⟩
  rw [List.getElem?_set]
  obtain ⟨hj, _⟩ := List.getElem?_eq_some_iff.1 h
  simp [hj]

theorem holds_step {c : Cfg} {sh sh' : Shared} {l l' : Lookup} {a : LAction} (hs : lookupStep c sh l a = some (sh', l')) :
    (∀ res, Holds l' res → Holds l res ∨ res = [] ∨ ∃ r ∈ sh'.replies, r.answer = some res) ∧
    (∀ res, Holds l res → Holds l' res ∨ ∀ e ∈ res, e.id ∈ sh'.visited) ∧
    (∀ r ∈ sh'.replies, r ∈ sh.replies ∨ (Worker.request r.peer ∈ l.workers ∧ ∀ res, r.answer = some res → Holds l' res)) ∧
    (∀ e, e ∈ l'.queue ++ l'.bucket → e ∈ l.queue ++ l.bucket ∨ (e.id ∉ sh.visited ∧ ∃ res, Holds l res ∧ e ∈ res)) := by
  have m1 := fun j (o : Worker) (hj : l.workers[j]? = some o) x y (hx : x ∈ l.workers) (hne : x ≠ o) => mem_set_of_ne (y := y) hj hx hne
  have m2 := fun j (o : Worker) (hj : l.workers[j]? = some o) y => mem_set_self (y := y) hj
  have m3 := fun j x y (h : x ∈ l.workers.set j y) => List.mem_or_eq_of_mem_set h
  have m4 := fun j (o : Worker) (hj : l.workers[j]? = some o) => List.mem_of_getElem? hj
  have mv := fun ids => mergeIds_visited ids sh.visited l.bucket
  unfold Holds
  lookup_cases a hs
  all_goals refine ⟨?_, ?_, ?_, ?_⟩
  all_goals (try grind)
  rintro res (⟨id', h⟩ | h | h | h)
  · rcases m3 _ _ _ h with h | h
    · exact Or.inl (Or.inl ⟨_, h⟩)
    · cases h; exact Or.inr (Or.inr ⟨_, List.mem_append_right _ List.mem_cons_self, rfl⟩)
  · rcases m3 _ _ _ h with h | h
    · exact Or.inl (Or.inr (Or.inl h))
    · cases h
  · exact Or.inl (Or.inr (Or.inr (Or.inl h)))
  · exact Or.inl (Or.inr (Or.inr (Or.inr h)))


/-! ### the invariant of a search -/

theorem Disc.mono {self target : PublicKey} {peers : List ID} {A B : ID → List ID → Prop} (h : ∀ p r, A p r → B p r) {e : ID}
    (hd : Spec.Discovered self target peers A e) : Spec.Discovered self target peers B e := by
  induction hd with
  | peer h => exact .peer h
  | answer _ ha he h1 h2 ih => exact .answer ih (h _ _ ha) he h1 h2

/-- The answers received so far. -/
def Rep (s : State) (p : ID) (res : List ID) : Prop := ∃ r ∈ s.shared.replies, r.peer = p ∧ r.answer = some res

/-- Keys visited from the start that are not those of initial peers. -/
def base (c : Cfg) (peers : List ID) (k : PublicKey) : Nat := ind (k = c.self ∨ (k = c.target ∧ k ∉ peers.map ID.id))

structure Inv (S : Sorter) (c : Cfg) (peers : List ID) (s : State) : Prop where
  loc : ∀ l ∈ s.lookups, LInv c l
  chan : s.shared.chan.length ≤ 1
  keys : ∀ k, (s.shared.asked.map (·.1.id)).count k + (s.lookups.map fun l => (keys l).count k).sum + base c peers k = ind (k ∈ s.shared.visited)
  req : ∀ p : ID → Bool, s.shared.replies.countP (fun r => p r.peer) + (s.lookups.map fun l => (l.workers.map (reqP p)).sum).sum = s.shared.asked.countP (fun x => p x.1)
  res : ∀ p : ID → Bool, s.collected.countP p + s.shared.chan.countP p + (s.lookups.map fun l => (l.workers.map (resP p)).sum).sum = s.shared.replies.countP (okP p)
  held : ∀ l ∈ s.lookups, ∀ res, Holds l res → res = [] ∨ ∃ r ∈ s.shared.replies, r.answer = some res
  deliv : ∀ r ∈ s.shared.replies, ∀ res, r.answer = some res → (∃ l ∈ s.lookups, Holds l res) ∨ ∀ e ∈ res, e.id ∈ s.shared.visited
  disc : ∀ e, ((∃ k, (e, k) ∈ s.shared.asked) ∨ ∃ l ∈ s.lookups, e ∈ l.queue ++ l.bucket) → Spec.Discovered c.self c.target peers (Rep s) e
  vis : c.self ∈ s.shared.visited ∧ c.target ∈ s.shared.visited
  tgt : ∀ x ∈ s.shared.asked, x.2 = x.1.id
  closed : s.closed = true → ∀ l ∈ s.lookups, l.main = .done
  ret : ∀ r, s.returned = some r → s.closed = true ∧ s.shared.chan = [] ∧ r = truncate c.max (sortByDistance S c.target s.collected)

theorem done_stuck {c : Cfg} {sh sh' : Shared} {l l' : Lookup} {a : LAction} (h : LInv c l) (hd : l.main = .done) (hs : lookupStep c sh l a = some (sh', l')) : False := by
  have h8 := h.done hd
  lookup_cases a hs
  all_goals (try grind)

theorem Inv.asked_of_reply {S : Sorter} {c : Cfg} {peers : List ID} {s : State} (h : Inv S c peers s) {r : Reply} (hr : r ∈ s.shared.replies) : ∃ k, (r.peer, k) ∈ s.shared.asked := by
  have h1 := h.req (fun e => decide (e = r.peer))
  have h2 : 0 < s.shared.replies.countP (fun r' => decide (r'.peer = r.peer)) := List.countP_pos_iff.2 ⟨r, hr, by simp⟩
  obtain ⟨x, hx, hx'⟩ := List.countP_pos_iff.1 (show 0 < s.shared.asked.countP (fun x => decide (x.1 = r.peer)) by omega)
  obtain ⟨x1, x2⟩ := x
  simp only [decide_eq_true_eq] at hx'
  subst hx'
  exact ⟨x2, hx⟩

theorem Inv.step {S : Sorter} {c : Cfg} {peers : List ID} {s s' : State} {a : Action} (h : Inv S c peers s) (hs : Iter.step S c s a = some s') : Inv S c peers s' := by
  cases a with
  | close =>
    simp only [Iter.step] at hs
    split at hs <;> cases hs
    rename_i hc
    refine { h with closed := ?_, ret := ?_ }
    · intro _ l hl; simpa using List.all_eq_true.1 hc.2 l hl
    · intro r hr; exact ⟨rfl, (h.ret r hr).2⟩
  | collect =>
    simp only [Iter.step] at hs
    split at hs <;> cases hs
    rename_i id rest hch
    have h1 := h.chan
    have h2 := h.res
    rw [hch] at h1
    refine { h with chan := ?_, res := ?_, ret := ?_ }
    · exact Nat.le_trans (Nat.le_succ _) h1
    · intro p
      have := h2 p
      simp only [hch, List.countP_cons, List.countP_append, List.countP_nil] at this ⊢
      omega
    · intro r hr; have := (h.ret r hr).2.1; rw [hch] at this; cases this
  | finish =>
    simp only [Iter.step] at hs
    split at hs <;> cases hs
    rename_i hc
    refine { h with ret := ?_ }
    intro r hr
    exact ⟨hc.1, hc.2.1, (Option.some.inj hr).symm⟩
  | lookup i a =>
    simp only [Iter.step] at hs
    split at hs
    swap
    · cases hs
    rename_i l hl
    split at hs <;> cases hs
    rename_i sh' l' hst
    have hlm := List.mem_of_getElem? hl
    have hset : ∀ x, x ∈ s.lookups.set i l' → x ∈ s.lookups ∨ x = l' := fun x hx => List.mem_or_eq_of_mem_set hx
    have hself : l' ∈ s.lookups.set i l' := mem_set_self hl
    have hoth : ∀ x ∈ s.lookups, x ≠ l → x ∈ s.lookups.set i l' := fun x hx hne => mem_set_of_ne hl hx hne
    obtain ⟨mv, mr, ma, ma', mc⟩ := mono_step hst
    obtain ⟨hh1, hh2, hh3, hh4⟩ := holds_step hst
    have hmono : ∀ {e}, Spec.Discovered c.self c.target peers (Rep s) e → Spec.Discovered c.self c.target peers (Rep { s with shared := sh', lookups := s.lookups.set i l' }) e :=
      fun hd => Disc.mono (fun p r hr => by obtain ⟨x, hx, hx'⟩ := hr; exact ⟨x, mr x hx, hx'⟩) hd
    refine ⟨?_, ?_, ?_, ?_, ?_, ?_, ?_, ?_, ?_, ?_, ?_, ?_⟩
    · intro x hx
      rcases hset x hx with hx | rfl
      · exact h.loc x hx
      · exact (h.loc l hlm).step hst
    · exact mc h.chan
    · intro k
      have h1 := h.keys k
      have h2 := keys_step hst k
      have h3 := sum_set (fun l => (Iter.keys l).count k) s.lookups i l l' hl
      simp only at h3 ⊢
      omega
    · intro p
      have h1 := h.req p
      have h2 := (counts_step hst p).1
      have h3 := sum_set (fun l => (l.workers.map (reqP p)).sum) s.lookups i l l' hl
      simp only at h3 ⊢
      omega
    · intro p
      have h1 := h.res p
      have h2 := (counts_step hst p).2
      have h3 := sum_set (fun l => (l.workers.map (resP p)).sum) s.lookups i l l' hl
      simp only at h3 ⊢
      omega
    · have hold : ∀ x ∈ s.lookups, ∀ res, Holds x res → res = [] ∨ ∃ r ∈ sh'.replies, r.answer = some res := by
        intro x hx res hr
        rcases h.held x hx res hr with h' | ⟨r, h', h''⟩
        · exact Or.inl h'
        · exact Or.inr ⟨r, mr r h', h''⟩
      intro x hx res hr
      rcases hset x hx with hx | rfl
      · exact hold x hx res hr
      · rcases hh1 res hr with h' | h'
        · exact hold l hlm res h'
        · exact h'
    · have hkeep : ∀ x ∈ s.lookups, ∀ res, Holds x res → (∃ l ∈ s.lookups.set i l', Holds l res) ∨ ∀ e ∈ res, e.id ∈ sh'.visited := by
        intro x hx res hr
        by_cases hxl : x = l
        · subst hxl
          rcases hh2 res hr with h' | h'
          · exact Or.inl ⟨l', hself, h'⟩
          · exact Or.inr h'
        · exact Or.inl ⟨x, hoth x hx hxl, hr⟩
      intro r hr res hres
      rcases hh3 r hr with hr | ⟨_, hr⟩
      · rcases h.deliv r hr res hres with ⟨x, hx, hx'⟩ | h'
        · exact hkeep x hx res hx'
        · exact Or.inr fun e he => mv _ (h' e he)
      · exact Or.inl ⟨l', hself, hr res hres⟩
    · intro e he
      have hq : (∃ x ∈ s.lookups, e ∈ x.queue ++ x.bucket) → Spec.Discovered c.self c.target peers (Rep s) e := fun hx => h.disc e (Or.inr hx)
      rcases he with ⟨k, hk⟩ | ⟨x, hx, hx'⟩
      · rcases ma' _ hk with hk | ⟨hk, _⟩
        · exact hmono (h.disc e (Or.inl ⟨k, hk⟩))
        · exact hmono (hq ⟨l, hlm, List.mem_append_left _ hk⟩)
      · rcases hset x hx with hx | rfl
        · exact hmono (hq ⟨x, hx, hx'⟩)
        · rcases hh4 e hx' with hx' | ⟨hv, res, hr, her⟩
          · exact hmono (hq ⟨l, hlm, hx'⟩)
          · rcases h.held l hlm res hr with rfl | ⟨r, hr1, hr2⟩
            · cases her
            · obtain ⟨k, hk⟩ := h.asked_of_reply hr1
              refine hmono (.answer (h.disc r.peer (Or.inl ⟨k, hk⟩)) ⟨r, hr1, rfl, hr2⟩ her ?_ ?_)
              · intro hc; exact hv (hc ▸ h.vis.1)
              · intro hc; exact hv (hc ▸ h.vis.2)
    · exact ⟨mv _ h.vis.1, mv _ h.vis.2⟩
    · intro x hx
      rcases ma' x hx with hx | ⟨_, hx⟩
      · exact h.tgt x hx
      · exact hx
    · intro hc
      exact (done_stuck (h.loc l hlm) (h.closed hc l hlm) hst).elim
    · intro r hr
      exact (done_stuck (h.loc l hlm) (h.closed (h.ret r hr).1 l hlm) hst).elim

/-! ### the initial state -/

theorem sum_modify {f : List ID → Nat} {g : ID → Nat} (hf : ∀ b e, f (b ++ [e]) = f b + g e) (e : ID) : ∀ (l : List (List ID)) (j : Nat), j < l.length →
    ((l.modify j (· ++ [e])).map f).sum = (l.map f).sum + g e
  | [], j, h => by simp at h
  | b :: l, 0, _ => by simp [hf]; omega
  | b :: l, j + 1, h => by
    have := sum_modify hf e l j (by simpa using h)
    simp only [List.modify_succ_cons, List.map_cons, List.sum_cons, this]; omega

theorem deal_sum {f : List ID → Nat} {g : ID → Nat} (hf : ∀ b e, f (b ++ [e]) = f b + g e) (n : Nat) (hn : 0 < n) : ∀ (peers : List ID) (i : Nat) (l : List (List ID)), l.length = n →
    ((deal n i peers l).map f).sum = (l.map f).sum + (peers.map g).sum
  | [], i, l, _ => by simp [deal]
  | e :: peers, i, l, hl => by
    rw [deal, deal_sum hf n hn peers (i + 1) _ (by simpa using hl), sum_modify hf e l _ (by rw [hl]; exact Nat.mod_lt _ hn)]
    simp; omega

theorem deal_mem (n : Nat) : ∀ (peers : List ID) (i : Nat) (l : List (List ID)) (b : List ID), b ∈ deal n i peers l → ∀ e ∈ b, e ∈ peers ∨ ∃ b' ∈ l, e ∈ b'
  | [], i, l, b, hb, e, he => Or.inr ⟨b, hb, he⟩
  | x :: peers, i, l, b, hb, e, he => by
    rw [deal] at hb
    rcases deal_mem n peers (i + 1) _ b hb e he with h | ⟨b', h1, h2⟩
    · exact Or.inl (List.mem_cons_of_mem _ h)
    · obtain ⟨j, hj⟩ := List.mem_iff_getElem?.1 h1
      rw [List.getElem?_modify] at hj
      split at hj
      · cases hl : l[j]? with
        | none => rw [hl] at hj; cases hj
        | some b0 =>
          rw [hl] at hj
          obtain rfl := Option.some.inj hj
          rcases List.mem_append.1 h2 with h2 | h2
          · exact Or.inr ⟨b0, List.mem_of_getElem? hl, h2⟩
          · rw [List.mem_singleton.1 h2]; exact Or.inl List.mem_cons_self
      · exact Or.inr ⟨b', List.mem_of_getElem? (by simpa using hj), h2⟩

theorem deal_length (n : Nat) : ∀ (peers : List ID) (i : Nat) (l : List (List ID)), (deal n i peers l).length = l.length
  | [], i, l => rfl
  | x :: peers, i, l => by rw [deal, deal_length]; simp

theorem count_eq_sum (k : PublicKey) : ∀ l : List ID, (l.map ID.id).count k = (l.map fun e => ind (e.id = k)).sum
  | [] => rfl
  | e :: l => by simp only [List.map_cons, List.count_cons, List.sum_cons, count_eq_sum k l, ind, beq_iff_eq]; omega

theorem sum_zero {α : Type} (f : α → Nat) : ∀ l : List α, (∀ x ∈ l, f x = 0) → (l.map f).sum = 0
  | [], _ => rfl
  | x :: l, h => by rw [List.map_cons, List.sum_cons, h x List.mem_cons_self, sum_zero f l (fun y hy => h y (List.mem_cons_of_mem _ hy))]

theorem Inv.init (S : Sorter) {c : Cfg} {n : Nat} {peers : List ID} {s : State} (hn : (peers.map ID.id).Nodup) (hself : c.self ∉ peers.map ID.id)
    (hs : Iter.init c n peers = .ok s) : Inv S c peers s := by
  unfold Iter.init at hs
  split at hs <;> cases hs
  rename_i hc
  have hw : ∀ f : Worker → Nat, f .idle = 0 → ∀ m, ((List.replicate m Worker.idle).map f).sum = 0 :=
    fun f hf m => sum_zero f _ (fun x hx => by rw [(List.mem_replicate.1 hx).2, hf])
  have hl : ∀ l ∈ (deal n 0 peers (List.replicate n [])).map (Lookup.new c.requests), ∃ b ∈ deal n 0 peers (List.replicate n []), l = Lookup.new c.requests b :=
    fun l hl => by obtain ⟨b, h1, h2⟩ := List.mem_map.1 hl; exact ⟨b, h1, h2.symm⟩
  have hhold : ∀ b res, ¬Holds (Lookup.new c.requests b) res := by
    rintro b res (⟨id, h⟩ | h | h | h)
    · have := (List.mem_replicate.1 h).2; cases this
    · have := (List.mem_replicate.1 h).2; cases this
    · cases h
    · cases h
  refine ⟨?_, by simp, ?_, ?_, ?_, ?_, by simp, ?_, by simp, by simp, by simp, by simp⟩
  · intro l h; obtain ⟨b, _, rfl⟩ := hl l h; exact LInv.new c b
  · intro k
    have h1 : ((deal n 0 peers (List.replicate n [])).map fun b => (b.map ID.id).count k).sum = (peers.map ID.id).count k := by
      by_cases h0 : n = 0
      · have hp : peers = [] := Classical.byContradiction fun hp => hc ⟨h0, hp⟩
        subst h0 hp; rfl
      · rw [deal_sum (f := fun b => (b.map ID.id).count k) (g := fun e => ind (e.id = k)) ?_ n (by omega) peers 0 _ (by simp), count_eq_sum,
          sum_zero _ (List.replicate n []) (fun x hx => by rw [(List.mem_replicate.1 hx).2]; rfl)]
        · simp
        · intro b e
          simp only [List.map_append, List.map_cons, List.map_nil, List.count_append, List.count_singleton, ind, beq_iff_eq]
    have h2 : (((deal n 0 peers (List.replicate n [])).map (Lookup.new c.requests)).map fun l => (Iter.keys l).count k) =
        (deal n 0 peers (List.replicate n [])).map fun b => (b.map ID.id).count k := by
      rw [List.map_map]; rfl
    simp only [h2, h1, List.map_nil, List.count_nil, Nat.zero_add]
    rw [List.Nodup.count hn]
    simp only [base, ind, List.mem_append, List.mem_cons, List.not_mem_nil, or_false]
    grind
  · intro p
    simp only [List.countP_nil, Nat.zero_add]
    refine sum_zero _ _ fun l h => ?_
    obtain ⟨b, _, rfl⟩ := hl l h
    exact hw (reqP p) rfl _
  · intro p
    simp only [List.countP_nil, Nat.zero_add]
    refine sum_zero _ _ fun l h => ?_
    obtain ⟨b, _, rfl⟩ := hl l h
    exact hw (resP p) rfl _
  · intro l h res hr; obtain ⟨b, _, rfl⟩ := hl l h; exact (hhold b res hr).elim
  · rintro e (⟨k, h⟩ | ⟨l, h1, h2⟩)
    · cases h
    · obtain ⟨b, h3, rfl⟩ := hl l h1
      simp only [Lookup.new, List.nil_append] at h2
      rcases deal_mem n peers 0 _ b h3 e h2 with h | ⟨b', h4, h5⟩
      · exact .peer h
      · rw [(List.mem_replicate.1 h4).2] at h5; cases h5


/-! ### measure of a search -/

def gMeasure (U : List PublicKey) (s : State) : Nat :=
  10 * unv U s.shared.visited + s.shared.chan.length + (s.lookups.map lMeasure).sum + ind (s.closed = false) + ind (s.returned = none)

theorem gMeasure_step {S : Sorter} {c : Cfg} {peers : List ID} {s s' : State} {a : Action} (U : List PublicKey) (h : Inv S c peers s)
    (hU : ∀ r ∈ s.shared.replies, ∀ res, r.answer = some res → ∀ e ∈ res, e.id ∈ U) (hs : Iter.step S c s a = some s') : gMeasure U s' + 1 ≤ gMeasure U s := by
  unfold gMeasure
  cases a with
  | close =>
    simp only [Iter.step] at hs
    split at hs <;> cases hs
    rename_i hc
    simp [ind, hc.1]; omega
  | collect =>
    simp only [Iter.step] at hs
    split at hs <;> cases hs
    rename_i hch
    simp [hch]; omega
  | finish =>
    simp only [Iter.step] at hs
    split at hs <;> cases hs
    rename_i hc
    simp [ind, hc.2.2]
  | lookup i a =>
    simp only [Iter.step] at hs
    split at hs
    swap
    · cases hs
    rename_i l hl
    split at hs <;> cases hs
    rename_i sh' l' hst
    have h1 := measure_step U (fun res hr e he => by
      rcases h.held l (List.mem_of_getElem? hl) res hr with rfl | ⟨r, hr1, hr2⟩
      · cases he
      · exact hU r hr1 res hr2 e he) hst
    have h2 := sum_set lMeasure s.lookups i l l' hl
    simp only
    omega

theorem replies_mono {S : Sorter} {c : Cfg} {s s' : State} {a : Action} (hs : Iter.step S c s a = some s') : ∀ r ∈ s.shared.replies, r ∈ s'.shared.replies := by
  cases a with
  | lookup i a =>
    simp only [Iter.step] at hs
    split at hs
    swap
    · cases hs
    split at hs <;> cases hs
    rename_i hst
    exact (mono_step hst).2.1
  | close => simp only [Iter.step] at hs; split at hs <;> cases hs; exact fun _ h => h
  | collect => simp only [Iter.step] at hs; split at hs <;> cases hs; exact fun _ h => h
  | finish => simp only [Iter.step] at hs; split at hs <;> cases hs; exact fun _ h => h

theorem runs_replies {S : Sorter} {c : Cfg} : ∀ {as : List Action} {s s' : State}, runs (Iter.step S c) s as = some s' → ∀ r ∈ s.shared.replies, r ∈ s'.shared.replies
  | [], s, s', h => by cases h; exact fun _ h => h
  | a :: as, s, s', h => by
    obtain ⟨s1, h1, h2⟩ := runs_cons h
    exact fun r hr => runs_replies h2 r (replies_mono h1 r hr)

theorem visited_mono {S : Sorter} {c : Cfg} {s s' : State} {a : Action} (hs : Iter.step S c s a = some s') : ∀ k ∈ s.shared.visited, k ∈ s'.shared.visited := by
  cases a with
  | lookup i a =>
    simp only [Iter.step] at hs
    split at hs
    swap
    · cases hs
    split at hs <;> cases hs
    rename_i hst
    exact (mono_step hst).1
  | close => simp only [Iter.step] at hs; split at hs <;> cases hs; exact fun _ h => h
  | collect => simp only [Iter.step] at hs; split at hs <;> cases hs; exact fun _ h => h
  | finish => simp only [Iter.step] at hs; split at hs <;> cases hs; exact fun _ h => h

theorem runs_visited {S : Sorter} {c : Cfg} {as : List Action} {s s' : State} (h : runs (Iter.step S c) s as = some s') (k : PublicKey) (hk : k ∈ s.shared.visited) : k ∈ s'.shared.visited :=
  runs_inv (P := fun s => k ∈ s.shared.visited) (fun _ _ _ hp hs => visited_mono hs k hp) h hk

theorem runs_measure {S : Sorter} {c : Cfg} {peers : List ID} (U : List PublicKey) : ∀ {as : List Action} {s s' : State}, Inv S c peers s → runs (Iter.step S c) s as = some s' →
    (∀ r ∈ s'.shared.replies, ∀ res, r.answer = some res → ∀ e ∈ res, e.id ∈ U) → as.length + gMeasure U s' ≤ gMeasure U s
  | [], s, s', _, h, _ => by cases h; simp
  | a :: as, s, s', hi, h, hU => by
    obtain ⟨s1, h1, h2⟩ := runs_cons h
    have h3 := runs_measure U (hi.step h1) h2 hU
    have h4 := gMeasure_step U hi (fun r hr => hU r (runs_replies h r hr)) h1
    simp only [List.length_cons]
    omega

/-! ### no deadlock -/

def isAnswer : LAction → Bool
  | .answer _ _ _ => true
  | _ => false

theorem sum_pos {α : Type} (f : α → Nat) : ∀ l : List α, 0 < (l.map f).sum → ∃ (j : Nat) (x : α), l[j]? = some x ∧ 0 < f x
  | [], h => by simp at h
  | x :: l, h => by
    by_cases hx : 0 < f x
    · exact ⟨0, x, rfl, hx⟩
    · obtain ⟨j, y, h1, h2⟩ := sum_pos f l (by simp only [List.map_cons, List.sum_cons] at h; omega)
      exact ⟨j + 1, y, h1, h2⟩

theorem sum_get {α : Type} (f : α → Nat) (l : List α) (j : Nat) (x : α) (h : l[j]? = some x) : f x ≤ (l.map f).sum := by
  induction l generalizing j with
  | nil => cases h
  | cons a l ih =>
    cases j with
    | zero => cases h; simp
    | succ j => have := ih j h; simp only [List.map_cons, List.sum_cons]; omega

theorem lookup_progress {c : Cfg} {sh : Shared} {l : Lookup} (h : LInv c l) (hd : l.main ≠ .done) (hc : sh.chan = []) :
    (∃ a r, isAnswer a = false ∧ lookupStep c sh l a = some r) ∨ ∃ id, Worker.request id ∈ l.workers := by
  obtain ⟨h1, h2, h3, h4, h5, h6, h7, h9, h8⟩ := h
  have hm : ∀ r, mainStep c sh l = some r → (∃ a r, isAnswer a = false ∧ lookupStep c sh l a = some r) ∨ ∃ id, Worker.request id ∈ l.workers :=
    fun r hr => Or.inl ⟨.main, r, rfl, hr⟩
  have hwk : ∀ j w r, l.workers[j]? = some w → workerStep c sh l j w = some r → (∃ a r, isAnswer a = false ∧ lookupStep c sh l a = some r) ∨ ∃ id, Worker.request id ∈ l.workers :=
    fun j w r hw hr => Or.inl ⟨.worker j, r, rfl, by simp only [lookupStep, hw]; exact hr⟩
  cases hmain : l.main with
  | fill =>
    cases hb : l.bucket with
    | nil => exact hm _ (by simp only [mainStep, hmain, hb]; rfl)
    | cons x b =>
      by_cases hq : l.queue.length < c.requests
      · exact hm _ (by simp only [mainStep, hmain, hb, if_pos hq]; rfl)
      · exact hm _ (by simp only [mainStep, hmain, hb, if_neg hq]; rfl)
  | merge ids => exact hm _ (by simp only [mainStep, hmain]; rfl)
  | closing => exact hm _ (by simp only [mainStep, hmain]; rfl)
  | done => exact absurd hmain hd
  | waiting =>
    by_cases hall : l.workers.all (fun x => decide (x = .exited)) = true
    · exact hm _ (by simp only [mainStep, hmain, if_pos hall]; rfl)
    · obtain ⟨w, hw, hne⟩ : ∃ w ∈ l.workers, w ≠ .exited := by
        refine Classical.byContradiction fun hcon => hall (List.all_eq_true.2 fun w hw => ?_)
        simp only [decide_eq_true_eq]
        exact Classical.byContradiction fun hne => hcon ⟨w, hw, hne⟩
      obtain ⟨j, hj⟩ := List.mem_iff_getElem?.1 hw
      have hz := h5 (by rw [hmain]; rfl)
      have hb := sum_get busy l.workers j w hj
      have hq : l.queue = [] := List.eq_nil_of_length_eq_zero (by omega)
      cases w with
      | idle => exact hwk j _ _ hj (by simp only [workerStep, hq, Lookup.closed, hmain, if_true]; rfl)
      | exited => exact absurd rfl hne
      | request id => simp only [busy] at hb; omega
      | result id r => simp only [busy] at hb; omega
      | out r => simp only [busy] at hb; omega
  | recv =>
    have hp := h9 hmain
    have him : inMerge l.main = 0 := by rw [hmain]; rfl
    cases hr : l.results with
    | cons x r => exact hm _ (by simp only [mainStep, hmain, hr]; rfl)
    | nil =>
      rw [hr] at h1; simp only [List.length_nil] at h1
      by_cases hb : 0 < (l.workers.map busy).sum
      · obtain ⟨j, w, hj, hw⟩ := sum_pos busy l.workers hb
        have hlen : 0 < c.requests := by
          rw [← h4]; exact List.length_pos_of_mem (List.mem_of_getElem? hj)
        cases w with
        | idle => exact absurd hw (by simp [busy])
        | exited => exact absurd hw (by simp [busy])
        | request id => exact Or.inr ⟨id, List.mem_of_getElem? hj⟩
        | result id r => exact hwk j _ _ hj (by simp only [workerStep, hc, List.length_nil, Nat.zero_lt_one, if_true]; rfl)
        | out r => exact hwk j _ _ hj (by simp only [workerStep, hr, List.length_nil, hlen, if_true]; rfl)
      · cases hq : l.queue with
        | nil => rw [hq] at h1; simp only [List.length_nil] at h1; omega
        | cons x q =>
          have hlen : 0 < l.workers.length := by rw [h4]; rw [hq] at h2; simp at h2; omega
          have hj : l.workers[0]? = some l.workers[0] := List.getElem?_eq_getElem hlen
          have hbz := sum_get busy l.workers 0 _ hj
          cases hw : l.workers[0] with
          | idle => exact hwk 0 .idle _ (by rw [hj, hw]) (by simp only [workerStep, hq]; rfl)
          | exited => have := h7 0 (by rw [hj, hw]); rw [Lookup.closed, hmain] at this; cases this
          | request id => rw [hw] at hbz; simp only [busy] at hbz; omega
          | result id r => rw [hw] at hbz; simp only [busy] at hbz; omega
          | out r => rw [hw] at hbz; simp only [busy] at hbz; omega

/-! ### a finished search -/

structure Quiet (l : Lookup) : Prop where
  queue : l.queue = []
  req : ∀ p, (l.workers.map (reqP p)).sum = 0
  res : ∀ p, (l.workers.map (resP p)).sum = 0
  hold : ∀ res, ¬Holds l res

theorem LInv.quiet {c : Cfg} {l : Lookup} (h : LInv c l) (hd : l.main = .done) : Quiet l := by
  have hz := h.zero (by rw [hd]; rfl)
  have hp := h.pend
  have hw : ∀ w ∈ l.workers, w = .exited := fun w hw => by
    obtain ⟨j, hj⟩ := List.mem_iff_getElem?.1 hw
    exact h.done hd j w hj
  refine ⟨List.eq_nil_of_length_eq_zero (by omega), fun p => sum_zero _ _ fun w h' => by rw [hw w h']; rfl, fun p => sum_zero _ _ fun w h' => by rw [hw w h']; rfl, ?_⟩
  rintro res (⟨id, h'⟩ | h' | h' | h')
  · cases hw _ h'
  · cases hw _ h'
  · have : 0 < l.results.length := List.length_pos_of_mem h'
    omega
  · rw [hd] at h'; cases h'

theorem Inv.finished {S : Sorter} {c : Cfg} {peers : List ID} {s : State} (h : Inv S c peers s) (hc : s.closed = true) :
    (∀ p : ID → Bool, s.shared.replies.countP (fun r => p r.peer) = s.shared.asked.countP (fun x => p x.1)) ∧
    (∀ p : ID → Bool, s.collected.countP p + s.shared.chan.countP p = s.shared.replies.countP (okP p)) ∧
    (0 < c.requests → ∀ k, (s.shared.asked.map (·.1.id)).count k + base c peers k = ind (k ∈ s.shared.visited)) ∧
    (∀ r ∈ s.shared.replies, ∀ res, r.answer = some res → ∀ e ∈ res, e.id ∈ s.shared.visited) := by
  have hq : ∀ l ∈ s.lookups, Quiet l := fun l hl => (h.loc l hl).quiet (h.closed hc l hl)
  refine ⟨?_, ?_, ?_, ?_⟩
  · intro p
    have := h.req p
    rw [sum_zero _ s.lookups (fun l hl => (hq l hl).req p)] at this
    exact this
  · intro p
    have := h.res p
    rw [sum_zero _ s.lookups (fun l hl => (hq l hl).res p)] at this
    exact this
  · intro hR k
    have := h.keys k
    rw [sum_zero _ s.lookups (fun l hl => by
      rw [Iter.keys, (hq l hl).queue, (h.loc l hl).empty (by rw [h.closed hc l hl]; rfl) hR]; rfl)] at this
    exact this
  · intro r hr res hres
    rcases h.deliv r hr res hres with ⟨l, hl, h'⟩ | h'
    · exact ((hq l hl).hold res h').elim
    · exact h'

end Noise.Iter
