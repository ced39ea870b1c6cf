import Verif.Model.GossipNet
import Verif.Proofs.Gossip
import Mathlib.Data.List.Nodup
/-! # Termination and coverage of a flood -/
namespace Noise.Gossip

/-! ## A measure on one node -/

def hweight (X : Nat) : HPc → Nat
  | .sender => 2
  | .check => 1
  | .mark => X
  | .callback => X - 1
  | .push => X - 2
  | .pushing _ => 1
  | .done => 0

def gweight : GPc → Nat
  | .check => 6
  | .send => 5
  | .set => 1
  | .done => 0

def pweight (T : Nat) : PPc → Nat
  | .mark => 3 + 6 * T
  | .entries => 2 + 6 * T
  | .running => 1
  | .done => 0

def hW (d : Bytes) (T : Nat) (h : Handler) : Nat := if h.data = d then hweight (7 + 6 * T) h.pc else 0
def gsum (l : List Gor) : Nat := (l.map fun g => gweight g.pc).sum
def pW (d : Bytes) (T : Nat) (p : Pushing) : Nat := if p.data = d then pweight T p.pc + gsum p.gors else 0
def sumH (d : Bytes) (T : Nat) (l : List Handler) : Nat := (l.map (hW d T)).sum
def sumP (d : Bytes) (T : Nat) (l : List Pushing) : Nat := (l.map (pW d T)).sum

theorem sumH_set (d : Bytes) (T : Nat) {l : List Handler} {i : Nat} {p q : Handler} (hh : l[i]? = some p) :
    sumH d T (l.set i q) + hW d T p = sumH d T l + hW d T q := Iter.sum_set _ _ _ _ _ hh
theorem sumP_set (d : Bytes) (T : Nat) {l : List Pushing} {i : Nat} {p q : Pushing} (hh : l[i]? = some p) :
    sumP d T (l.set i q) + pW d T p = sumP d T l + pW d T q := Iter.sum_set _ _ _ _ _ hh
theorem gsum_set {l : List Gor} {i : Nat} {p q : Gor} (hh : l[i]? = some p) : gsum (l.set i q) + gweight p.pc = gsum l + gweight q.pc := by
  have := Iter.sum_set (fun g : Gor => gweight g.pc) l i p q hh
  exact this

grind_pattern sumH_set => sumH d T (l.set i q), some p
grind_pattern sumP_set => sumP d T (l.set i q), some p
grind_pattern gsum_set => gsum (l.set i q), some p

theorem sumH_append (d : Bytes) (T : Nat) (l : List Handler) (h : Handler) : sumH d T (l ++ [h]) = sumH d T l + hW d T h := by simp [sumH]
theorem sumP_append (d : Bytes) (T : Nat) (l : List Pushing) (h : Pushing) : sumP d T (l ++ [h]) = sumP d T l + pW d T h := by simp [sumP]
theorem gsum_new (l : List ID) : gsum (l.map fun e => ⟨e, .check⟩) = 6 * l.length := by
  induction l with
  | nil => rfl
  | cons e l ih => simp only [gsum, List.map_cons, List.sum_cons, List.length_cons] at ih ⊢; rw [ih]; simp only [gweight]; omega
theorem gsum_nil : gsum [] = 0 := rfl
theorem pend_append (d : Bytes) (l : List Handler) (e : ID) (x : Bytes) : pend d (l ++ [⟨e, x, .sender⟩]) = pend d l := by simp [pend, List.countP_append]

def newSends (d : Bytes) (s s' : State) : Nat := (s'.sent.drop s.sent.length).countP fun e => decide (e.2 = d)

theorem newSends_same (d : Bytes) {s s' : State} (h : s'.sent = s.sent) : newSends d s s' = 0 := by simp [newSends, h]
theorem newSends_one (d : Bytes) {s s' : State} {e : ID × Bytes} (h : s'.sent = s.sent ++ [e]) : newSends d s s' = if e.2 = d then 1 else 0 := by
  simp [newSends, h, List.countP_cons]

/-- what an action brings in -/
def extra (d : Bytes) (T : Nat) : Action → Nat
  | .push d' => if d' = d then 7 + 6 * T else 0
  | .receive _ d' => if d' = d then 3 else 0
  | _ => 0

def load (d : Bytes) (T : Nat) (s : State) : Nat := sumH d T s.handlers + sumP d T s.pushes

theorem load_step {x : Node} {s' : State} {a : Action} (d : Bytes) (hw : ∀ p ∈ x.st.pushes, p.Wf) (hs : step x.cfg x.st a = some s') (ha : allowed x a ∨ ∃ e d', a = .receive e d') :
    if dataOf x.st a = some d then
      (dels d s'.delivered + pend d s'.handlers = dels d x.st.delivered + pend d x.st.handlers ∧
        load d x.table.length s' + 3 * newSends d x.st s' + 1 ≤ load d x.table.length x.st + extra d x.table.length a) ∨
      (dels d s'.delivered + pend d s'.handlers = dels d x.st.delivered + pend d x.st.handlers + 1 ∧ newSends d x.st s' = 0 ∧
        load d x.table.length s' + 1 ≤ load d x.table.length x.st + 7 + 6 * x.table.length)
    else dels d s'.delivered + pend d s'.handlers = dels d x.st.delivered + pend d x.st.handlers ∧ load d x.table.length s' = load d x.table.length x.st ∧ newSends d x.st s' = 0 := by
  obtain ⟨id, table, workers, pushes, s⟩ := x
  simp only [Node.cfg] at *
  g_cases a hs
  all_goals simp only [load, dataOf]
  case h_2.isTrue.isTrue.refl k j ok x p hp x1 g hg hpc hok =>
    have hn := newSends_one d (s := s) (s' := { s with sent := s.sent ++ [(g.peer, p.data)], pushes := s.pushes.set k { p with gors := p.gors.set j { g with pc := .set } } }) rfl
    rw [hn, hp]
    grind [hW, pW, hweight, gweight, pweight, extra]
  all_goals grind [allowed, newSends_same, newSends_one, sumH_append, sumP_append, gsum_new, gsum_nil, pend_append, pend_set, dels_append, hW, pW, hweight, gweight, pweight, extra]

/-! ## A measure on the network -/

def nodeM (d : Bytes) (x : Node) : Nat :=
  load d x.table.length x.st + (x.workers - (dels d x.st.delivered + pend d x.st.handlers)) * (7 + 6 * x.table.length)

def inFlight (d : Bytes) (l : List Msg) : Nat := l.countP fun m => decide (m.data = d)

def total (d : Bytes) (s : Net) : Nat := (s.nodes.map (nodeM d)).sum + 3 * inFlight d s.flight

def NodeOk (d : Bytes) (x : Node) : Prop := (∀ p ∈ x.st.pushes, p.Wf) ∧ DInv x.cfg d x.st

theorem nodeM_step {x : Node} {s' : State} {a : Action} {d : Bytes} (hd : d.length < 65500) (hok : NodeOk d x) (hs : step x.cfg x.st a = some s')
    (ha : allowed x a ∨ ∃ e d', a = .receive e d') :
    NodeOk d { x with st := s' } ∧
    (if dataOf x.st a = some d then nodeM d { x with st := s' } + 3 * newSends d x.st s' + 1 ≤ nodeM d x + extra d x.table.length a
      else nodeM d { x with st := s' } = nodeM d x ∧ newSends d x.st s' = 0) := by
  have h1 := load_step d hok.1 hs ha
  have hD : DInv x.cfg d s' := hok.2.step hd hs
  refine ⟨⟨wf_step hok.1 hs, hD⟩, ?_⟩
  have hb := hD.bound
  simp only [Node.cfg] at hb
  split
  · rename_i e
    rw [if_pos e] at h1
    rcases h1 with ⟨h2, h3⟩ | ⟨h2, h3, h4⟩
    · simp only [nodeM, h2]; omega
    · simp only [nodeM]
      have h5 : x.workers - (dels d x.st.delivered + pend d x.st.handlers) = x.workers - (dels d s'.delivered + pend d s'.handlers) + 1 := by omega
      rw [h5, Nat.add_mul]; omega
  · rename_i e
    rw [if_neg e] at h1
    obtain ⟨h2, h3, h4⟩ := h1
    simp only [nodeM, h2, h3, h4]; simp

theorem inFlight_new (d : Bytes) (x : Node) (s' : State) (l : List Msg) :
    inFlight d (l ++ (s'.sent.drop x.st.sent.length).map fun e => ⟨x.id, e.1.id, e.2⟩) = inFlight d l + newSends d x.st s' := by
  unfold inFlight newSends
  rw [List.countP_append, List.countP_map]
  rfl

theorem inFlight_erase {d : Bytes} {l : List Msg} {i : Nat} {m : Msg} (h : l[i]? = some m) : inFlight d (l.eraseIdx i) + (if m.data = d then 1 else 0) = inFlight d l := by
  induction l generalizing i with
  | nil => simp at h
  | cons a l ih =>
    cases i with
    | zero => simp only [List.getElem?_cons_zero, Option.some.injEq] at h; subst h; simp [inFlight, List.countP_cons]
    | succ i =>
      simp only [List.getElem?_cons_succ] at h
      have := ih h
      simp only [List.eraseIdx_cons_succ, inFlight, List.countP_cons] at this ⊢
      omega

/-- what an action of the network brings in -/
def nextra (d : Bytes) (s : Net) : NAction → Nat
  | .node n (.push d') => if d' = d then ((s.nodes[n]?).map fun x => 7 + 6 * x.table.length).getD 0 else 0
  | _ => 0

def NetOk (d : Bytes) (s : Net) : Prop := ∀ x ∈ s.nodes, NodeOk d x

theorem total_step {s s' : Net} {a : NAction} {d : Bytes} (hd : d.length < 65500) (hok : NetOk d s) (hs : nstep s a = some s') :
    NetOk d s' ∧ (if about s a = some d then total d s' + 1 ≤ total d s + nextra d s a else total d s' = total d s) := by
  cases a with
  | node n a =>
    simp only [nstep] at hs
    split at hs
    · cases hs
    · rename_i x hx
      split at hs
      · rename_i hal
        split at hs
        · cases hs
        · rename_i t ht
          cases hs
          obtain ⟨h1, h2⟩ := nodeM_step hd (hok x (List.mem_of_getElem? hx)) ht (Or.inl hal)
          refine ⟨fun y hy => ?_, ?_⟩
          · rcases List.mem_or_eq_of_mem_set hy with hy | rfl
            · exact hok y hy
            · exact h1
          · have h3 := Iter.sum_set (nodeM d) s.nodes n x { x with st := t } hx
            have h4 := inFlight_new d x t s.flight
            have h5 : extra d x.table.length a = nextra d s (.node n a) := by
              cases a <;> simp only [extra, nextra, hx, Option.map_some, Option.getD_some]
              · exact absurd hal (by simp [allowed])
            simp only [total, h4, about, hx, Option.bind_some]
            split
            · rename_i e; rw [if_pos e] at h2; omega
            · rename_i e; rw [if_neg e] at h2; omega
      · cases hs
  | deliver i n =>
    simp only [nstep] at hs
    split at hs
    · rename_i m x hm hx
      split at hs
      · split at hs
        · cases hs
        · rename_i t ht
          cases hs
          obtain ⟨h1, h2⟩ := nodeM_step hd (hok x (List.mem_of_getElem? hx)) ht (Or.inr ⟨_, _, rfl⟩)
          refine ⟨fun y hy => ?_, ?_⟩
          · rcases List.mem_or_eq_of_mem_set hy with hy | rfl
            · exact hok y hy
            · exact h1
          · have h3 := Iter.sum_set (nodeM d) s.nodes n x { x with st := t } hx
            have h4 := inFlight_erase (d := d) hm
            simp only [total, about, hm, Option.map_some, dataOf, extra, nextra, Option.some.injEq] at h2 ⊢
            split
            · rename_i e; rw [if_pos e] at h2 h4; rw [if_pos e] at h2; omega
            · rename_i e; rw [if_neg e] at h2 h4; omega
      · cases hs
    · cases hs

/-! ## Coverage -/

/-- the node has the data: pushed it or received it -/
def Node.has (d : Bytes) (x : Node) : Prop := hash x.id.id d ∈ x.st.cache

/-- a message with `d` for `k` is on its way or just being taken in -/
def Coming (d : Bytes) (s : Net) (k : PublicKey) : Prop :=
  (∃ m ∈ s.flight, m.to = k ∧ m.data = d) ∨ ∃ x ∈ s.nodes, x.id.id = k ∧ ∃ h ∈ x.st.handlers, h.data = d ∧ (h.pc = .sender ∨ h.pc = .check ∨ h.pc = .mark)

def Has (d : Bytes) (s : Net) (k : PublicKey) : Prop := ∃ x ∈ s.nodes, x.id.id = k ∧ x.has d

/-- the configuration of a network -/
def Net.keys (s : Net) : List PublicKey := s.nodes.map fun x => x.id.id

def Passes (d : Bytes) (table : List ID) (s : State) : Prop :=
  (∃ h ∈ s.handlers, h.data = d ∧ (h.pc = .callback ∨ h.pc = .push)) ∨
    (∃ p ∈ s.pushes, p.data = d ∧ (p.pc = .mark ∨ p.pc = .entries)) ∨
    ∀ e ∈ table, hash e.id d ∈ s.cache ∨ ∃ p ∈ s.pushes, p.data = d ∧ ∃ g ∈ p.gors, g.peer = e ∧ g.pc ≠ .done

structure Cov (d : Bytes) (s : Net) : Prop where
  nodup : s.keys.Nodup
  wf : ∀ x ∈ s.nodes, ∀ p ∈ x.st.pushes, p.Wf
  /-- whoever sent it has it -/
  fromFlight : ∀ m ∈ s.flight, m.data = d → Has d s m.sender.id
  fromHandler : ∀ x ∈ s.nodes, ∀ h ∈ x.st.handlers, h.data = d → Has d s h.sender.id
  marked : ∀ x ∈ s.nodes, ∀ p ∈ x.st.pushes, p.data = d → p.pc ≠ .mark → x.has d
  /-- whoever is noted to have it has it or will get it -/
  noted : ∀ x ∈ s.nodes, ∀ k, hash k d ∈ x.st.cache → Has d s k ∨ Coming d s k
  sending : ∀ x ∈ s.nodes, ∀ p ∈ x.st.pushes, p.data = d → ∀ g ∈ p.gors, g.pc = .set → Has d s g.peer.id ∨ Coming d s g.peer.id
  /-- whoever has it passes it on -/
  passes : ∀ x ∈ s.nodes, x.has d → Passes d x.table x.st

/-! Steps of one node, as far as they matter for coverage. -/

theorem mem_set_cases {α : Type} {l : List α} {i : Nat} {x y z : α} (h : l[i]? = some x) (hz : z ∈ l) : z = x ∨ z ∈ l.set i y := by
  by_cases e : z = x
  · exact Or.inl e
  · exact Or.inr (Iter.mem_set_of_ne h hz e)

theorem L1 {c : Cfg} {s t : State} {a : Action} {d : Bytes} (hs : step c s a = some t) {h' : Handler} (hh : h' ∈ t.handlers) (hd : h'.data = d) :
    (∃ h ∈ s.handlers, h.sender = h'.sender ∧ h.data = d) ∨ a = .receive h'.sender d := by
  g_cases a hs
  all_goals grind [List.mem_or_eq_of_mem_set, List.mem_of_getElem?]

theorem L2 {c : Cfg} {s t : State} {a : Action} {d : Bytes} (hd : d.length < 65500) (hs : step c s a = some t) {h : Handler} (hh : h ∈ s.handlers) (hdd : h.data = d)
    (he : h.pc = .sender ∨ h.pc = .check ∨ h.pc = .mark) :
    (∃ h' ∈ t.handlers, h'.data = d ∧ (h'.pc = .sender ∨ h'.pc = .check ∨ h'.pc = .mark)) ∨ hash c.self d ∈ t.cache := by
  have hl := hash_length c.self d
  g_cases a hs
  all_goals (try exact Or.inl ⟨h, hh, hdd, he⟩)
  all_goals (try exact Or.inl ⟨h, List.mem_append_left _ hh, hdd, he⟩)
  all_goals
    have hget := ‹s.handlers[_]? = some _›
    have key := fun y => mem_set_cases (y := y) hget hh
    have key2 := fun y => Iter.mem_set_self (y := y) hget
    grind [mem_cacheSet, cacheHas_iff]

theorem L3 {c : Cfg} {s t : State} {a : Action} {d : Bytes} {k : PublicKey} (hs : step c s a = some t) (hk : hash k d ∈ t.cache) :
    hash k d ∈ s.cache ∨ (∃ h ∈ s.handlers, h.data = d ∧ h.sender.id = k) ∨ k = c.self ∨ ∃ p ∈ s.pushes, p.data = d ∧ ∃ g ∈ p.gors, g.pc = .set ∧ g.peer.id = k := by
  g_cases a hs
  case h_2.refl k1 j x p hp x1 g hg x2 hpc =>
    rcases mem_cacheSet.1 hk with hk | ⟨hk, _⟩
    · exact Or.inl hk
    · obtain ⟨h1, h2⟩ := hash_inj hk
      exact Or.inr (Or.inr (Or.inr ⟨p, List.mem_of_getElem? hp, h2.symm, g, List.mem_of_getElem? hg, hpc, h1.symm⟩))
  all_goals grind [mem_cacheSet, hash_inj, List.mem_of_getElem?]

theorem L4 {c : Cfg} {s t : State} {a : Action} {d : Bytes} (hs : step c s a = some t) {p' : Pushing} (hp : p' ∈ t.pushes) (hd : p'.data = d) {g' : Gor} (hg : g' ∈ p'.gors)
    (hpc : g'.pc = .set) : (∃ p ∈ s.pushes, p.data = d ∧ ∃ g ∈ p.gors, g.peer = g'.peer ∧ g.pc = .set) ∨ (g'.peer, d) ∈ t.sent.drop s.sent.length := by
  g_cases a hs
  all_goals grind [List.mem_or_eq_of_mem_set, List.mem_of_getElem?]

theorem L6 {c : Cfg} {s t : State} {a : Action} {d : Bytes} (hs : step c s a = some t) {e : ID} (he : (e, d) ∈ t.sent.drop s.sent.length) :
    ∃ p ∈ s.pushes, p.data = d ∧ p.gors ≠ [] := by
  g_cases a hs
  all_goals grind [List.mem_of_getElem?]

theorem gor_third {L : List Pushing} {C : List Bytes} {p1 q : Pushing} {g1 g : Gor} {k j : Nat} {d : Bytes} {e : ID} (hget : L[k]? = some p1) (hgg : p1.gors[j]? = some g1)
    (hq : q ∈ L) (hqd : q.data = d) (hg : g ∈ q.gors) (hge : g.peer = e) (hgp : g.pc ≠ .done) (pc' : GPc) (hor : pc' ≠ .done ∨ (p1.data = d → hash g1.peer.id p1.data ∈ C)) :
    hash e.id d ∈ C ∨ ∃ p ∈ L.set k { p1 with gors := p1.gors.set j { g1 with pc := pc' } }, p.data = d ∧ ∃ g ∈ p.gors, g.peer = e ∧ g.pc ≠ .done := by
  rcases mem_set_cases (y := { p1 with gors := p1.gors.set j { g1 with pc := pc' } }) hget hq with rfl | h
  · have hm := Iter.mem_set_self (y := { q with gors := q.gors.set j { g1 with pc := pc' } }) hget
    rcases mem_set_cases (y := { g1 with pc := pc' }) hgg hg with rfl | h
    · rcases hor with h | h
      · exact Or.inr ⟨_, hm, hqd, _, Iter.mem_set_self hgg, hge, h⟩
      · exact Or.inl (by have := h hqd; rw [hqd] at this; rw [← hge]; exact this)
    · exact Or.inr ⟨_, hm, hqd, g, h, hge, hgp⟩
  · exact Or.inr ⟨q, h, hqd, g, hg, hge, hgp⟩

theorem third_mono {c : Cfg} {s t : State} {a : Action} {d : Bytes} (hd : d.length < 65500) (hs : step c s a = some t) (ha : ∀ k j, a ≠ .sent k j false) {e : ID}
    (hw : ∀ p ∈ s.pushes, p.Wf)
    (h : hash e.id d ∈ s.cache ∨ ∃ p ∈ s.pushes, p.data = d ∧ ∃ g ∈ p.gors, g.peer = e ∧ g.pc ≠ .done) :
    hash e.id d ∈ t.cache ∨ ∃ p ∈ t.pushes, p.data = d ∧ ∃ g ∈ p.gors, g.peer = e ∧ g.pc ≠ .done := by
  have hl := hash_length e.id d
  rcases h with h | ⟨p, hp, hpd, g, hg, hge, hgp⟩
  · exact Or.inl (cache_mono hs h)
  · g_cases a hs
    all_goals (try exact Or.inr ⟨p, hp, hpd, g, hg, hge, hgp⟩)
    all_goals (try exact Or.inr ⟨p, List.mem_append_left _ hp, hpd, g, hg, hge, hgp⟩)
    all_goals
      have hget := ‹s.pushes[_]? = some _›
      have key := fun y => mem_set_cases (y := y) hget hp
      have key2 := fun y => Iter.mem_set_self (y := y) hget
    all_goals (try (grind [Pushing.Wf]))
    all_goals
      have hgg := ‹(Pushing.gors _)[_]? = some _›
      refine gor_third hget hgg hp hpd hg hge hgp _ ?_
      grind [mem_cacheSet, cacheHas_iff, hash_length]

theorem L5 {x : Node} {t : State} {a : Action} {d : Bytes} (hd : d.length < 65500) (hs : step x.cfg x.st a = some t) (ha : allowed x a ∨ ∃ e d', a = .receive e d')
    (hw : ∀ p ∈ x.st.pushes, p.Wf) (hm : ∀ p ∈ x.st.pushes, p.data = d → p.pc ≠ .mark → x.has d) (hse : ∀ h ∈ x.st.handlers, h.data = d → h.sender.id = x.id.id → x.has d)
    (hp : x.has d → Passes d x.table x.st) (hh : hash x.id.id d ∈ t.cache) : Passes d x.table t := by
  by_cases hx : x.has d
  · rcases hp hx with ⟨h, h1, h2, h3⟩ | ⟨p, h1, h2, h3⟩ | h
    · g_cases a hs
      all_goals (try exact Or.inl ⟨h, h1, h2, h3⟩)
      all_goals (try exact Or.inl ⟨h, List.mem_append_left _ h1, h2, h3⟩)
      all_goals
        have hget := ‹x.st.handlers[_]? = some _›
        have key := fun y => mem_set_cases (y := y) hget h1
        have key2 := fun y => Iter.mem_set_self (y := y) hget
      case h_4.isTrue.refl i _ h0 _ _ _ _ =>
        rcases key { h0 with pc := .pushing x.st.pushes.length } with rfl | hk
        · exact Or.inr (Or.inl ⟨⟨h.data, .mark, []⟩, List.mem_append_right _ (List.mem_singleton.2 rfl), h2, Or.inl rfl⟩)
        · exact Or.inl ⟨h, hk, h2, h3⟩
      all_goals (grind [Passes, allowed])
    · g_cases a hs
      all_goals (try exact Or.inr (Or.inl ⟨p, h1, h2, h3⟩))
      all_goals (try exact Or.inr (Or.inl ⟨p, List.mem_append_left _ h1, h2, h3⟩))
      all_goals
        have hget := ‹x.st.pushes[_]? = some _›
        have key := fun y => mem_set_cases (y := y) hget h1
        have key2 := fun y => Iter.mem_set_self (y := y) hget
      case h_2.isTrue.refl k es _ p0 _ _ _ _ =>
        rcases key { p0 with pc := .running, gors := es.map fun e => ⟨e, .check⟩ } with rfl | hk
        · have he : es = x.table := by
            rcases ha with ha | ⟨_, _, ha⟩
            · simpa [allowed] using ha
            · cases ha
          subst he
          refine Or.inr (Or.inr fun e he => Or.inr ⟨_, key2 _, h2, ⟨e, .check⟩, List.mem_map_of_mem he, rfl, by simp⟩)
        · exact Or.inr (Or.inl ⟨p, hk, h2, h3⟩)
      all_goals (grind [Passes, allowed])
    · refine Or.inr (Or.inr fun e he => third_mono hd hs ?_ hw (h e he))
      intro k j hk
      subst hk
      rcases ha with ha | ⟨_, _, ha⟩
      · simp [allowed] at ha
      · cases ha
  · g_cases a hs
    all_goals (try exact absurd hh hx)
    · rename_i i _ h0 hget _ _
      rcases mem_cacheSet.1 hh with hh | ⟨hh, _⟩
      · exact absurd hh hx
      · obtain ⟨e1, e2⟩ := hash_inj hh
        exact absurd (hse h0 (List.mem_of_getElem? hget) e2.symm e1.symm) hx
    · rename_i i _ h0 hget _ _
      rcases mem_cacheSet.1 hh with hh | ⟨hh, _⟩
      · exact absurd hh hx
      · obtain ⟨e1, e2⟩ := hash_inj hh
        exact Or.inl ⟨_, Iter.mem_set_self hget, e2.symm, Or.inl rfl⟩
    · rename_i i _ _ p0 hget _ _
      rcases mem_cacheSet.1 hh with hh | ⟨hh, _⟩
      · exact absurd hh hx
      · obtain ⟨e1, e2⟩ := hash_inj hh
        exact Or.inr (Or.inl ⟨_, Iter.mem_set_self hget, e2.symm, Or.inr rfl⟩)
    · rename_i i _ _ p0 hget _ g0 hgg _ _
      rcases mem_cacheSet.1 hh with hh | ⟨hh, _⟩
      · exact absurd hh hx
      · obtain ⟨e1, e2⟩ := hash_inj hh
        have hpm := List.mem_of_getElem? hget
        refine absurd (hm p0 hpm e2.symm fun hpc => ?_) hx
        rw [(hw p0 hpm).2.1 (Or.inl hpc)] at hgg
        simp at hgg

/-- one step of the network is a step of one of its nodes -/
theorem nstep_node {s s' : Net} {a : NAction} (hs : nstep s a = some s') : ∃ (n : Nat) (x : Node) (t : State) (b : Action),
    s.nodes[n]? = some x ∧ step x.cfg x.st b = some t ∧ s'.nodes = s.nodes.set n { x with st := t } ∧
    ((a = .node n b ∧ allowed x b ∧ s'.flight = s.flight ++ (t.sent.drop x.st.sent.length).map fun e => ⟨x.id, e.1.id, e.2⟩) ∨
      ∃ (i : Nat) (m : Msg), a = .deliver i n ∧ s.flight[i]? = some m ∧ m.to = x.id.id ∧ b = .receive m.sender m.data ∧ s'.flight = s.flight.eraseIdx i ∧ s'.pushed = s.pushed) := by
  cases a with
  | node n a =>
    simp only [nstep] at hs
    split at hs
    · cases hs
    · rename_i x hx
      split at hs
      · rename_i hal
        split at hs
        · cases hs
        · rename_i t ht
          cases hs
          exact ⟨n, x, t, a, hx, ht, rfl, Or.inl ⟨rfl, hal, rfl⟩⟩
      · cases hs
  | deliver i n =>
    simp only [nstep] at hs
    split at hs
    · rename_i m x hm hx
      split at hs
      · rename_i hto
        split at hs
        · cases hs
        · rename_i t ht
          cases hs
          exact ⟨n, x, t, _, hx, ht, rfl, Or.inr ⟨i, m, rfl, hm, hto.symm, rfl, rfl, rfl⟩⟩
      · cases hs
    · cases hs

theorem mem_eraseIdx_or {α : Type} {l : List α} {i : Nat} {m x : α} (h : l[i]? = some m) (hx : x ∈ l) : x = m ∨ x ∈ l.eraseIdx i := by
  induction l generalizing i with
  | nil => simp at h
  | cons a l ih =>
    cases i with
    | zero =>
      simp only [List.getElem?_cons_zero, Option.some.injEq] at h; subst h
      rcases List.mem_cons.1 hx with rfl | hx
      · exact Or.inl rfl
      · exact Or.inr hx
    | succ i =>
      simp only [List.getElem?_cons_succ] at h
      rcases List.mem_cons.1 hx with rfl | hx
      · exact Or.inr List.mem_cons_self
      · rcases ih h hx with e | e
        · exact Or.inl e
        · exact Or.inr (List.mem_cons_of_mem _ e)

/-- the same node after the step -/
theorem node_after {s s' : Net} {n : Nat} {x : Node} {t : State} (hx : s.nodes[n]? = some x) (hn : s'.nodes = s.nodes.set n { x with st := t }) {y : Node} (hy : y ∈ s.nodes) :
    y ∈ s'.nodes ∨ (y = x ∧ { x with st := t } ∈ s'.nodes) := by
  rw [hn]
  rcases mem_set_cases (y := { x with st := t }) hx hy with rfl | h
  · exact Or.inr ⟨rfl, Iter.mem_set_self hx⟩
  · exact Or.inl h

theorem Has.step {s s' : Net} {a : NAction} {d : Bytes} {k : PublicKey} (hs : nstep s a = some s') (h : Has d s k) : Has d s' k := by
  obtain ⟨n, x, t, b, hx, ht, hn, _⟩ := nstep_node hs
  obtain ⟨y, hy, hyk, hyh⟩ := h
  rcases node_after hx hn hy with h | ⟨rfl, h⟩
  · exact ⟨y, h, hyk, hyh⟩
  · exact ⟨_, h, hyk, cache_mono ht hyh⟩

theorem Coming.step {s s' : Net} {a : NAction} {d : Bytes} {k : PublicKey} (hd : d.length < 65500) (hs : nstep s a = some s') (h : Coming d s k) : Has d s' k ∨ Coming d s' k := by
  obtain ⟨n, x, t, b, hx, ht, hn, hab⟩ := nstep_node hs
  rcases h with ⟨m, hm, hto, hmd⟩ | ⟨y, hy, hyk, h, hh, hhd, hpc⟩
  · rcases hab with ⟨_, _, hfl⟩ | ⟨i, m', _, hm', hto', hb, hfl, _⟩
    · exact Or.inr (Or.inl ⟨m, by rw [hfl]; exact List.mem_append_left _ hm, hto, hmd⟩)
    · rcases mem_eraseIdx_or hm' hm with rfl | hm
      · subst hb
        simp only [Gossip.step] at ht
        split at ht
        · cases ht
          refine Or.inr (Or.inr ⟨_, by rw [hn]; exact Iter.mem_set_self hx, ?_, ⟨m.sender, m.data, .sender⟩, ?_, hmd, Or.inl rfl⟩)
          · rw [← hto, hto']
          · simp
        · cases ht
      · exact Or.inr (Or.inl ⟨m, by rw [hfl]; exact hm, hto, hmd⟩)
  · rcases node_after hx hn hy with h' | ⟨rfl, h'⟩
    · exact Or.inr (Or.inr ⟨y, h', hyk, h, hh, hhd, hpc⟩)
    · rcases L2 hd ht hh hhd hpc with ⟨h2, hh2, hd2, hp2⟩ | hc
      · exact Or.inr (Or.inr ⟨_, h', hyk, h2, hh2, hd2, hp2⟩)
      · exact Or.inl ⟨_, h', hyk, hc⟩

theorem keys_step {s s' : Net} {n : Nat} {x : Node} {t : State} (hx : s.nodes[n]? = some x) (hn : s'.nodes = s.nodes.set n { x with st := t }) : s'.keys = s.keys := by
  unfold Net.keys
  rw [hn, List.map_set]
  apply List.ext_getElem?
  intro i
  rw [List.getElem?_set]
  split
  · rename_i e; subst e
    have := List.getElem?_eq_some_iff.1 hx
    simp [this.1, this.2]
  · rfl

theorem eq_of_key {s : Net} (h : s.keys.Nodup) {x y : Node} (hx : x ∈ s.nodes) (hy : y ∈ s.nodes) (e : x.id.id = y.id.id) : x = y :=
  List.inj_on_of_nodup_map h hx hy e

theorem Cov.step {s s' : Net} {a : NAction} {d : Bytes} (hd : d.length < 65500) (h : Cov d s) (hs : nstep s a = some s') : Cov d s' := by
  have hst := hs
  obtain ⟨n, x, t, b, hx, ht, hn, hab⟩ := nstep_node hs
  have hxm := List.mem_of_getElem? hx
  have hxt : ({ x with st := t } : Node) ∈ s'.nodes := by rw [hn]; exact Iter.mem_set_self hx
  have old : ∀ y ∈ s'.nodes, y ∈ s.nodes ∨ y = { x with st := t } := fun y hy => List.mem_or_eq_of_mem_set (hn ▸ hy)
  have hc : ∀ k, Has d s k ∨ Coming d s k → Has d s' k ∨ Coming d s' k := by
    rintro k (h | h)
    · exact Or.inl (h.step hst)
    · exact h.step hd hst
  have hmk : ∀ p ∈ x.st.pushes, p.data = d → p.pc ≠ .mark → hash x.cfg.self d ∈ x.st.cache := h.marked x hxm
  have hall : allowed x b ∨ ∃ e d', b = .receive e d' := by
    rcases hab with ⟨_, h, _⟩ | ⟨_, m, _, _, _, h, _⟩
    · exact Or.inl h
    · exact Or.inr ⟨_, _, h⟩
  have sends : ∀ (e : ID), (e, d) ∈ t.sent.drop x.st.sent.length → x.has d := by
    intro e he
    obtain ⟨p, hp, hpd, hg⟩ := L6 ht he
    exact h.marked x hxm p hp hpd fun hpc => hg ((h.wf x hxm p hp).2.1 (Or.inl hpc))
  have flight : ∀ (e : ID), (e, d) ∈ t.sent.drop x.st.sent.length → Coming d s' e.id := by
    intro e he
    rcases hab with ⟨_, _, hfl⟩ | ⟨i, m, _, _, _, hb, _⟩
    · exact Or.inl ⟨⟨x.id, e.id, d⟩, by rw [hfl]; exact List.mem_append_right _ (List.mem_map.2 ⟨(e, d), he, rfl⟩), rfl, rfl⟩
    · subst hb
      simp only [Gossip.step] at ht
      split at ht
      · cases ht; simp at he
      · cases ht
  refine ⟨by rw [keys_step hx hn]; exact h.nodup, ?_, ?_, ?_, ?_, ?_, ?_, ?_⟩
  · intro y hy
    rcases old y hy with hy | rfl
    · exact h.wf y hy
    · exact wf_step (h.wf x hxm) ht
  · intro m hm hmd
    rcases hab with ⟨_, _, hfl⟩ | ⟨i, m', _, _, _, _, hfl, _⟩
    · rw [hfl] at hm
      rcases List.mem_append.1 hm with hm | hm
      · exact (h.fromFlight m hm hmd).step hst
      · obtain ⟨e, he, rfl⟩ := List.mem_map.1 hm
        simp only at hmd
        exact Has.step hst ⟨x, hxm, rfl, sends e.1 (by rw [← hmd]; exact he)⟩
    · rw [hfl] at hm
      exact (h.fromFlight m (List.mem_of_mem_eraseIdx hm) hmd).step hst
  · intro y hy h' hh' hd'
    rcases old y hy with hy | rfl
    · exact (h.fromHandler y hy h' hh' hd').step hst
    · rcases L1 ht hh' hd' with ⟨h0, hh0, hse, hd0⟩ | hb
      · rw [← hse]
        exact (h.fromHandler x hxm h0 hh0 hd0).step hst
      · rcases hab with ⟨_, hal, _⟩ | ⟨i, m, _, hm, _, hb', _⟩
        · rw [hb] at hal; simp [allowed] at hal
        · rw [hb] at hb'
          injection hb' with e1 e2
          rw [e1]
          exact (h.fromFlight m (List.mem_of_getElem? hm) e2.symm).step hst
  · intro y hy
    rcases old y hy with hy | rfl
    · exact h.marked y hy
    · exact gors_of_step hd hmk ht
  · intro y hy k hk
    rcases old y hy with hy | rfl
    · exact hc k (h.noted y hy k hk)
    · rcases L3 ht hk with h1 | ⟨h0, hh0, hd0, hk0⟩ | h1 | ⟨p, hp, hpd, g, hg, hgs, hgk⟩
      · exact hc k (h.noted x hxm k h1)
      · rw [← hk0]
        exact Or.inl ((h.fromHandler x hxm h0 hh0 hd0).step hst)
      · subst h1
        exact Or.inl ⟨_, hxt, rfl, hk⟩
      · rw [← hgk]
        exact hc _ (h.sending x hxm p hp hpd g hg hgs)
  · intro y hy p hp hpd g hg hgs
    rcases old y hy with hy | rfl
    · exact hc _ (h.sending y hy p hp hpd g hg hgs)
    · rcases L4 ht hp hpd hg hgs with ⟨p0, hp0, hpd0, g0, hg0, hge, hgs0⟩ | hse
      · rw [← hge]
        exact hc _ (h.sending x hxm p0 hp0 hpd0 g0 hg0 hgs0)
      · exact Or.inr (flight _ hse)
  · intro y hy hyh
    rcases old y hy with hy | rfl
    · exact h.passes y hy hyh
    · refine L5 (x := x) hd ht hall (h.wf x hxm) (h.marked x hxm) (fun h0 hh0 hd0 hk0 => ?_) (h.passes x hxm) hyh
      obtain ⟨z, hz, hzk, hzh⟩ := h.fromHandler x hxm h0 hh0 hd0
      have : z = x := eq_of_key h.nodup hz hxm (hzk.trans hk0)
      rw [← this]; exact hzh

/-! ## Whoever has it got it -/

/-- `U`: the application of this node pushed `d`. -/
structure Got (d : Bytes) (U : Prop) (x : Node) : Prop where
  has : x.has d → 1 ≤ dels d x.st.delivered ∨ (∃ h ∈ x.st.handlers, h.data = d ∧ h.pc = .callback) ∨ U
  push : ∀ p ∈ x.st.pushes, p.data = d → 1 ≤ dels d x.st.delivered ∨ U
  handler : ∀ h ∈ x.st.handlers, h.data = d → h.pc = .push → 1 ≤ dels d x.st.delivered

theorem Got.step {x : Node} {t : State} {a : Action} {d : Bytes} {U U' : Prop} (hU : U → U') (hU' : a = .push d → U') (hs : step x.cfg x.st a = some t)
    (hse : ∀ h ∈ x.st.handlers, h.data = d → h.sender.id = x.id.id → x.has d)
    (hp : Got d U x) : Got d U' { x with st := t } := by
  have hdm := dels_mono d hs
  have hpush : ∀ p ∈ t.pushes, p.data = d → 1 ≤ dels d t.delivered ∨ U' := by
    have h1 := hp.push
    have h2 := hp.handler
    g_cases a hs
    all_goals grind [List.mem_or_eq_of_mem_set, List.mem_of_getElem?]
  have hhand : ∀ h ∈ t.handlers, h.data = d → h.pc = .push → 1 ≤ dels d t.delivered := by
    have h2 := hp.handler
    g_cases a hs
    all_goals grind [List.mem_or_eq_of_mem_set, List.mem_of_getElem?, dels_append]
  refine ⟨fun hh => ?_, hpush, hhand⟩
  by_cases hx : x.has d
  · rcases hp.has hx with h | ⟨h, h1, h2, h3⟩ | h
    · exact Or.inl (by simp only; omega)
    · g_cases a hs
      all_goals (try exact Or.inr (Or.inl ⟨h, h1, h2, h3⟩))
      all_goals (try exact Or.inr (Or.inl ⟨h, List.mem_append_left _ h1, h2, h3⟩))
      all_goals
        have hget := ‹x.st.handlers[_]? = some _›
        have key := fun y => mem_set_cases (y := y) hget h1
        have key2 := fun y => Iter.mem_set_self (y := y) hget
        grind [dels_append]
    · exact Or.inr (Or.inr (hU h))
  · g_cases a hs
    all_goals (try exact absurd hh hx)
    · rename_i i _ h0 hget _ _
      rcases mem_cacheSet.1 hh with hh | ⟨hh, _⟩
      · exact absurd hh hx
      · obtain ⟨e1, e2⟩ := hash_inj hh
        exact absurd (hse h0 (List.mem_of_getElem? hget) e2.symm e1.symm) hx
    · rename_i i _ h0 hget _ _
      rcases mem_cacheSet.1 hh with hh | ⟨hh, _⟩
      · exact absurd hh hx
      · obtain ⟨e1, e2⟩ := hash_inj hh
        exact Or.inr (Or.inl ⟨_, Iter.mem_set_self hget, e2.symm, rfl⟩)
    · rename_i i _ _ p0 hget _ _
      rcases mem_cacheSet.1 hh with hh | ⟨hh, _⟩
      · exact absurd hh hx
      · obtain ⟨e1, e2⟩ := hash_inj hh
        rcases hp.push p0 (List.mem_of_getElem? hget) e2.symm with h | h
        · exact Or.inl h
        · exact Or.inr (Or.inr (hU h))
    · rename_i i _ _ p0 hget _ g0 hgg _ _
      rcases mem_cacheSet.1 hh with hh | ⟨hh, _⟩
      · exact absurd hh hx
      · obtain ⟨e1, e2⟩ := hash_inj hh
        rcases hp.push p0 (List.mem_of_getElem? hget) e2.symm with h | h
        · exact Or.inl h
        · exact Or.inr (Or.inr (hU h))

theorem pushed_step {s s' : Net} {a : NAction} (hs : nstep s a = some s') {e : Nat × Bytes} (h : e ∈ s.pushed) : e ∈ s'.pushed := by
  cases a with
  | node n a =>
    simp only [nstep] at hs
    (repeat' (split at hs)) <;> (try (cases hs))
    all_goals first | exact h | exact List.mem_append_left _ h
  | deliver i n =>
    simp only [nstep] at hs
    (repeat' (split at hs)) <;> (try (cases hs))
    exact h

theorem pushed_new {s s' : Net} {n : Nat} {d : Bytes} (hs : nstep s (.node n (.push d)) = some s') : (n, d) ∈ s'.pushed := by
  simp only [nstep] at hs
  (repeat' (split at hs)) <;> (try (cases hs))
  simp

def GotN (d : Bytes) (s : Net) : Prop := ∀ (n : Nat) (x : Node), s.nodes[n]? = some x → Got d ((n, d) ∈ s.pushed) x

theorem GotN.step {s s' : Net} {a : NAction} {d : Bytes} (h : GotN d s) (hcov : Cov d s) (hs : nstep s a = some s') : GotN d s' := by
  have hst := hs
  obtain ⟨n, x, t, b, hx, ht, hn, hab⟩ := nstep_node hs
  intro m y hy
  rw [hn, List.getElem?_set] at hy
  split at hy
  · rename_i e; subst e
    split at hy
    · cases hy
      refine Got.step (pushed_step hst) ?_ ht ?_ (h n x hx)
      · intro hb
        rcases hab with ⟨ha, _, _⟩ | ⟨_, _, _, _, _, hb', _⟩
        · rw [ha, hb] at hst; exact pushed_new hst
        · rw [hb] at hb'; cases hb'
      · intro h0 hh0 hd0 hk0
        have hxm := List.mem_of_getElem? hx
        obtain ⟨z, hz, hzk, hzh⟩ := hcov.fromHandler x hxm h0 hh0 hd0
        have : z = x := eq_of_key hcov.nodup hz hxm (hzk.trans hk0)
        rw [← this]; exact hzh
    · cases hy
  · have := h m y hy
    exact ⟨fun hh => (this.has hh).imp id (Or.imp id (pushed_step hst)), fun p hp hd => (this.push p hp hd).imp id (pushed_step hst), this.handler⟩

/-! ## Progress -/

structure Valid (x : Node) : Prop where
  wf : ∀ p ∈ x.st.pushes, p.Wf
  ptr : ∀ h ∈ x.st.handlers, ∀ k, h.pc = .pushing k → k < x.st.pushes.length
  peer : ∀ p ∈ x.st.pushes, ∀ g ∈ p.gors, g.peer ∈ x.table

theorem Valid.step {x : Node} {t : State} {a : Action} (hs : Gossip.step x.cfg x.st a = some t) (ha : allowed x a ∨ ∃ e d', a = .receive e d') (h : Valid x) :
    Valid { x with st := t } := by
  refine ⟨wf_step h.wf hs, ?_, ?_⟩
  · have h1 := h.ptr
    g_cases a hs
    all_goals grind [List.mem_or_eq_of_mem_set, List.mem_of_getElem?]
  · have h1 := h.peer
    g_cases a hs
    all_goals grind [List.mem_or_eq_of_mem_set, List.mem_of_getElem?, allowed]

def isPush : Action → Bool
  | .push _ => true
  | _ => false

theorem push_progress {x : Node} (hn : (x.table.map ID.id).Nodup) {k : Nat} {p : Pushing} (hp : x.st.pushes[k]? = some p) (hpc : p.pc ≠ .done) :
    ∃ a t, allowed x a ∧ isPush a = false ∧ step x.cfg x.st a = some t := by
  cases h : p.pc with
  | mark => exact ⟨.pushing k x.table, _, by simp [allowed], rfl, by simp only [step, hp, h]; rfl⟩
  | entries => exact ⟨.pushing k x.table, _, by simp [allowed], rfl, by simp only [step, hp, h]; rw [if_pos hn]⟩
  | done => exact absurd h hpc
  | running =>
    by_cases hall : p.gors.all (·.pc = .done)
    · exact ⟨.pushing k x.table, _, by simp [allowed], rfl, by simp only [step, hp, h]; rw [if_pos hall]⟩
    · have : ∃ g ∈ p.gors, g.pc ≠ .done := by
        simpa using hall
      obtain ⟨g, hg, hgp⟩ := this
      obtain ⟨j, hj⟩ := List.mem_iff_getElem?.1 hg
      cases hgpc : g.pc with
      | check => exact ⟨.gor k j, _, by simp [allowed], rfl, by simp only [step, hp, hj, hgpc]; rfl⟩
      | send => exact ⟨.sent k j true, _, by simp [allowed], rfl, by simp only [step, hp, hj, hgpc, if_true]; rfl⟩
      | set => exact ⟨.gor k j, _, by simp [allowed], rfl, by simp only [step, hp, hj, hgpc]; rfl⟩
      | done => exact absurd hgpc hgp

theorem handler_progress {x : Node} (hv : Valid x) (hn : (x.table.map ID.id).Nodup) (hP : 0 < x.pushes) {h : Handler} (hh : h ∈ x.st.handlers) (hpc : h.pc ≠ .done) :
    ∃ a t, allowed x a ∧ isPush a = false ∧ step x.cfg x.st a = some t := by
  obtain ⟨i, hi⟩ := List.mem_iff_getElem?.1 hh
  cases e : h.pc with
  | sender => exact ⟨.handler i, _, by simp [allowed], rfl, by simp only [step, hi, e]; rfl⟩
  | check => exact ⟨.handler i, _, by simp [allowed], rfl, by simp only [step, hi, e]; rfl⟩
  | mark => exact ⟨.handler i, _, by simp [allowed], rfl, by simp only [step, hi, e]; rfl⟩
  | callback => exact ⟨.callback i true, _, by simp [allowed], rfl, by simp only [step, hi, e, if_true]; rfl⟩
  | push =>
    by_cases hr : runningPushes x.st.pushes < x.cfg.pushes
    · exact ⟨.handler i, _, by simp [allowed], rfl, by simp only [step, hi, e]; rw [if_pos hr]⟩
    · have : 0 < runningPushes x.st.pushes := by
        have : x.cfg.pushes = x.pushes := rfl
        omega
      obtain ⟨p, hp, hpc⟩ := List.countP_pos_iff.1 this
      obtain ⟨k, hk⟩ := List.mem_iff_getElem?.1 hp
      exact push_progress hn hk (by simpa using hpc)
  | pushing k =>
    have hk := hv.ptr h hh k e
    have hp : x.st.pushes[k]? = some x.st.pushes[k] := List.getElem?_eq_getElem hk
    by_cases hd : (x.st.pushes[k]).pc = .done
    · exact ⟨.handler i, _, by simp [allowed], rfl, by simp only [step, hi, e, hp]; rw [if_pos hd]⟩
    · exact push_progress hn hp hd
  | done => exact absurd e hpc

/-- the configuration: different keys, tables without duplicates that name nodes of the network, at least one worker and one push at a time -/
structure Proper (nodes : List Node) : Prop where
  keys : (nodes.map fun x => x.id.id).Nodup
  table : ∀ x ∈ nodes, (x.table.map ID.id).Nodup
  closed : ∀ x ∈ nodes, ∀ e ∈ x.table, e.id ∈ nodes.map fun x => x.id.id
  workers : ∀ x ∈ nodes, 0 < x.workers ∧ 0 < x.pushes

structure NValid (s : Net) : Prop where
  proper : Proper s.nodes
  valid : ∀ x ∈ s.nodes, Valid x
  dest : ∀ m ∈ s.flight, m.to ∈ s.keys

theorem NValid.step {s s' : Net} {a : NAction} (h : NValid s) (hs : nstep s a = some s') : NValid s' := by
  obtain ⟨n, x, t, b, hx, ht, hn, hab⟩ := nstep_node hs
  have hxm := List.mem_of_getElem? hx
  have old : ∀ y ∈ s'.nodes, y ∈ s.nodes ∨ y = { x with st := t } := fun y hy => List.mem_or_eq_of_mem_set (hn ▸ hy)
  have hk := keys_step hx hn
  have hall : allowed x b ∨ ∃ e d', b = .receive e d' := by
    rcases hab with ⟨_, h, _⟩ | ⟨_, m, _, _, _, h, _⟩
    · exact Or.inl h
    · exact Or.inr ⟨_, _, h⟩
  unfold Net.keys at hk
  refine ⟨⟨?_, ?_, ?_, ?_⟩, ?_, ?_⟩
  · rw [hk]; exact h.proper.keys
  · intro y hy
    rcases old y hy with hy | rfl
    · exact h.proper.table y hy
    · exact h.proper.table x hxm
  · intro y hy
    rw [hk]
    rcases old y hy with hy | rfl
    · exact h.proper.closed y hy
    · exact h.proper.closed x hxm
  · intro y hy
    rcases old y hy with hy | rfl
    · exact h.proper.workers y hy
    · exact h.proper.workers x hxm
  · intro y hy
    rcases old y hy with hy | rfl
    · exact h.valid y hy
    · exact (h.valid x hxm).step ht hall
  · intro m hm
    unfold Net.keys
    rw [hk]
    rcases hab with ⟨_, _, hfl⟩ | ⟨i, m', _, _, _, _, hfl, _⟩
    · rw [hfl] at hm
      rcases List.mem_append.1 hm with hm | hm
      · exact h.dest m hm
      · obtain ⟨e, he, rfl⟩ := List.mem_map.1 hm
        refine h.proper.closed x hxm e.1 ?_
        have hpe := (h.valid x hxm).peer
        clear hall
        g_cases b ht
        all_goals grind [List.mem_of_getElem?]
    · rw [hfl] at hm
      exact h.dest m (List.mem_of_mem_eraseIdx hm)

theorem net_progress {s : Net} (h : NValid s)
    (ha : s.flight ≠ [] ∨ ∃ x ∈ s.nodes, (∃ e ∈ x.st.handlers, e.pc ≠ .done) ∨ ∃ p ∈ x.st.pushes, p.pc ≠ .done) :
    ∃ a s', nstep s a = some s' ∧ ∀ n d, a ≠ .node n (.push d) := by
  have node : ∀ (x : Node), x ∈ s.nodes → (∃ a t, allowed x a ∧ isPush a = false ∧ Gossip.step x.cfg x.st a = some t) →
      ∃ a s', nstep s a = some s' ∧ ∀ n d, a ≠ .node n (.push d) := by
    rintro x hx ⟨a, t, hal, hip, hst⟩
    obtain ⟨n, hn⟩ := List.mem_iff_getElem?.1 hx
    refine ⟨.node n a, _, by simp only [nstep, hn, hal, hst, if_true]; rfl, ?_⟩
    rintro m d e
    injection e with _ e
    rw [e] at hip; cases hip
  rcases ha with hf | ⟨x, hx, ⟨e, he, hpc⟩ | ⟨p, hp, hpc⟩⟩
  · obtain ⟨m, hm⟩ := List.exists_mem_of_ne_nil _ hf
    obtain ⟨i, hi⟩ := List.mem_iff_getElem?.1 hm
    obtain ⟨x, hx, hxk⟩ := List.mem_map.1 (h.dest m hm)
    obtain ⟨n, hn⟩ := List.mem_iff_getElem?.1 hx
    by_cases hr : running x.st.handlers < x.cfg.workers
    · exact ⟨.deliver i n, _, by simp only [nstep, hi, hn, hxk, if_true, Gossip.step]; rw [if_pos hr], by simp⟩
    · have : 0 < running x.st.handlers := by
        have := (h.proper.workers x hx).1
        have : x.cfg.workers = x.workers := rfl
        omega
      obtain ⟨e, he, hpc⟩ := List.countP_pos_iff.1 this
      exact node x hx (handler_progress (h.valid x hx) (h.proper.table x hx) (h.proper.workers x hx).2 he (by simpa using hpc))
  · exact node x hx (handler_progress (h.valid x hx) (h.proper.table x hx) (h.proper.workers x hx).2 he hpc)
  · obtain ⟨k, hk⟩ := List.mem_iff_getElem?.1 hp
    exact node x hx (push_progress (h.proper.table x hx) hk hpc)

end Noise.Gossip
