import Verif.Model.GossipForget
import Verif.Proofs.GossipNet
/-! # Invariants of gossip with a cache that forgets -/
namespace Noise.Gossip

theorem mem_cacheDrop {l : List Bytes} {k x : Bytes} : x ∈ cacheDrop l k ↔ x ∈ l ∧ x ≠ k := by simp [cacheDrop]

def pendMk (d : Bytes) (l : List Handler) : Nat := l.countP fun h => decide (h.data = d ∧ h.pc = .mark)

theorem pend_split (d : Bytes) : ∀ l : List Handler, pend d l = pendCb d l + pendMk d l
  | [] => rfl
  | h :: l => by
    have ih := pend_split d l
    simp only [pend, pendCb, pendMk, List.countP_cons] at ih ⊢
    rw [ih]
    by_cases e : h.data = d <;> cases hpc : h.pc <;> simp [e] <;> omega

theorem pendMk_le (d : Bytes) (l : List Handler) : pendMk d l ≤ running l := by
  have := pend_le d l
  have := pend_split d l
  omega

/-- `f`: how often the entry was dropped -/
structure FDInv (c : Cfg) (d : Bytes) (f : Nat) (s : State) : Prop where
  run : running s.handlers ≤ c.workers
  fresh : hash c.self d ∉ s.cache → dels d s.delivered + pendCb d s.handlers ≤ c.workers * f
  bound : dels d s.delivered + pend d s.handlers ≤ c.workers * f + c.workers

theorem FDInv.step {c : Cfg} {d : Bytes} {f : Nat} {s s' : State} {a : Action} (hd : d.length < 65500) (h : FDInv c d f s) (hs : step c s a = some s') : FDInv c d f s' := by
  obtain ⟨h1, h2, h3⟩ := count_step d hs
  have h4 := pendMk_le d s'.handlers
  have h4' := pend_split d s'.handlers
  have h5 := h1 h.run
  have h6 := h.bound
  refine ⟨h5, fun hn => ?_, ?_⟩
  · have hn' : hash c.self d ∉ s.cache := fun hx => hn (cache_mono hs hx)
    have := h.fresh hn'
    rcases h3 with h3 | h3 | h3
    · exact absurd h3 hn
    · omega
    · omega
  · rcases h2 with h2 | ⟨h2, h7, h8⟩
    · omega
    · have := h.fresh h2
      rw [h8]; omega

theorem FDInv.drop {c : Cfg} {d : Bytes} {f : Nat} {s : State} (key : Bytes) (h : FDInv c d f s) :
    FDInv c d (f + if key = hash c.self d then 1 else 0) { s with cache := cacheDrop s.cache key } := by
  have h4' := pend_split d s.handlers
  have h6 := h.bound
  refine ⟨h.run, fun hn => ?_, ?_⟩
  · split
    · rw [Nat.mul_add]; simp only [Nat.mul_one]; omega
    · rename_i e
      exact h.fresh fun hx => hn (mem_cacheDrop.2 ⟨hx, fun e' => e e'.symm⟩)
  · rw [Nat.mul_add]; simp only; omega

theorem FDInv.new (c : Cfg) (d : Bytes) : FDInv c d 0 State.new := ⟨by simp [running, State.new], by simp [dels, pendCb, State.new], by simp [dels, pend, State.new]⟩

structure FSInv (c : Cfg) (d : Bytes) (k : PublicKey) (f : Nat) (s : State) : Prop where
  wf : ∀ p ∈ s.pushes, p.Wf
  run : runningPushes s.pushes ≤ c.pushes
  fresh : hash k d ∉ s.cache → sends d k s.sent ≤ sumSet d k s.pushes + c.pushes * f
  bound : sends d k s.sent + sumSend d k s.pushes ≤ c.pushes * f + c.pushes

theorem FSInv.step {c : Cfg} {d : Bytes} {k : PublicKey} {f : Nat} {s s' : State} {a : Action} (hd : d.length < 65500) (h : FSInv c d k f s) (hs : step c s a = some s') :
    FSInv c d k f s' := by
  obtain ⟨h1, h2, h3⟩ := send_step d k h.wf hs
  have hw := wf_step h.wf hs
  have h4 : sumSend d k s'.pushes + sumSet d k s'.pushes ≤ runningPushes s'.pushes := sum_le_running d k s'.pushes hw
  have h5 := h1 h.run
  have h6 := h.bound
  refine ⟨hw, h5, fun hn => ?_, ?_⟩
  · have hn' : hash k d ∉ s.cache := fun hx => hn (cache_mono hs hx)
    have := h.fresh hn'
    rcases h3 with h3 | h3 | h3
    · exact absurd h3 hn
    · omega
    · omega
  · rcases h2 with h2 | ⟨h2, _, h7, h8⟩
    · omega
    · have := h.fresh h2
      rw [h7]; omega

theorem FSInv.drop {c : Cfg} {d : Bytes} {k : PublicKey} {f : Nat} {s : State} (key : Bytes) (h : FSInv c d k f s) :
    FSInv c d k (f + if key = hash k d then 1 else 0) { s with cache := cacheDrop s.cache key } := by
  have h6 := h.bound
  refine ⟨h.wf, h.run, fun hn => ?_, ?_⟩
  · split
    · rw [Nat.mul_add]; simp only [Nat.mul_one]; omega
    · rename_i e
      exact h.fresh fun hx => hn (mem_cacheDrop.2 ⟨hx, fun e' => e e'.symm⟩)
  · rw [Nat.mul_add]; simp only; omega

theorem FSInv.new (c : Cfg) (d : Bytes) (k : PublicKey) : FSInv c d k 0 State.new :=
  ⟨by simp [State.new], by simp [runningPushes, State.new], by simp [sends, sumSet, State.new], by simp [sends, sumSend, State.new]⟩

theorem fstep_cases {c : Cfg} {s s' : FState} {a : FAction} (hs : fstep c s a = some s') :
    (∃ b, step c s.st b = some s'.st ∧ s'.dropped = s.dropped) ∨
    ∃ key, key ∈ s.st.cache ∧ s' = ⟨{ s.st with cache := cacheDrop s.st.cache key }, s.dropped ++ [key]⟩ := by
  cases a with
  | act a =>
    simp only [fstep, Option.map_eq_some_iff] at hs
    obtain ⟨t, h, rfl⟩ := hs
    exact Or.inl ⟨a, h, rfl⟩
  | drop key =>
    simp only [fstep] at hs
    split at hs
    · rename_i hk; cases hs; exact Or.inr ⟨key, hk, rfl⟩
    · cases hs

theorem fd_reach {c : Cfg} {d : Bytes} (hd : d.length < 65500) {s : FState} (h : ReachFrom (fstep c) FState.new s) : FDInv c d (s.dropped.count (hash c.self d)) s.st := by
  refine h.inv (P := fun s => FDInv c d (s.dropped.count (hash c.self d)) s.st) (fun s a s' hp hs => ?_) (FDInv.new c d)
  rcases fstep_cases hs with ⟨b, h1, h2⟩ | ⟨key, _, rfl⟩
  · rw [h2]; exact hp.step hd h1
  · have := hp.drop key
    simpa [List.count_append, List.count_singleton] using this

theorem fs_reach {c : Cfg} {d : Bytes} (hd : d.length < 65500) (k : PublicKey) {s : FState} (h : ReachFrom (fstep c) FState.new s) :
    FSInv c d k (s.dropped.count (hash k d)) s.st := by
  refine h.inv (P := fun s => FSInv c d k (s.dropped.count (hash k d)) s.st) (fun s a s' hp hs => ?_) (FSInv.new c d k)
  rcases fstep_cases hs with ⟨b, h1, h2⟩ | ⟨key, _, rfl⟩
  · rw [h2]; exact hp.step hd h1
  · have := hp.drop key
    simpa [List.count_append, List.count_singleton] using this

/-! ## A measure on the network -/

/-- a sum over the nodes and their indices, the first of which is `i` -/
def isum (F : Nat → Node → Nat) : Nat → List Node → Nat
  | _, [] => 0
  | i, x :: l => F i x + isum F (i + 1) l

theorem isum_congr {F F' : Nat → Node → Nat} : ∀ (l : List Node) (i : Nat), (∀ m, i ≤ m → ∀ y, F' m y = F m y) → isum F' i l = isum F i l
  | [], _, _ => rfl
  | x :: l, i, h => by
    simp only [isum]
    rw [h i (Nat.le_refl _), isum_congr l (i + 1) fun m hm => h m (by omega)]

theorem isum_set {F F' : Nat → Node → Nat} {x y : Node} : ∀ (l : List Node) (i j : Nat), l[j]? = some x → (∀ m, m ≠ i + j → ∀ z, F' m z = F m z) →
    isum F' i (l.set j y) + F (i + j) x = isum F i l + F' (i + j) y
  | [], _, _, h, _ => by cases h
  | z :: l, i, 0, h, hF => by
    simp only [List.getElem?_cons_zero, Option.some.injEq] at h
    subst h
    simp only [List.set_cons_zero, isum, Nat.add_zero]
    rw [isum_congr (F := F) (F' := F') l (i + 1) fun m hm => hF m (by omega)]
    omega
  | z :: l, i, j + 1, h, hF => by
    simp only [List.getElem?_cons_succ] at h
    have e : i + 1 + j = i + (j + 1) := by omega
    have := isum_set (y := y) l (i + 1) j h (fun m hm => hF m (by omega))
    rw [e] at this
    simp only [List.set_cons_succ, isum]
    rw [hF i (by omega)]
    omega

/-- how often the cache of node `n` dropped the entry that says that it has the data -/
def lost (dropped : List (Nat × Bytes)) (d : Bytes) (n : Nat) (x : Node) : Nat := dropped.count (n, hash x.id.id d)

def fnodeM (d : Bytes) (f : Nat) (x : Node) : Nat :=
  load d x.table.length x.st + (x.workers * f + x.workers - (dels d x.st.delivered + pend d x.st.handlers)) * (7 + 6 * x.table.length)

def FNodeOk (d : Bytes) (f : Nat) (x : Node) : Prop := (∀ p ∈ x.st.pushes, p.Wf) ∧ FDInv x.cfg d f x.st

theorem fnodeM_step {x : Node} {s' : State} {a : Action} {d : Bytes} {f : Nat} (hd : d.length < 65500) (hok : FNodeOk d f x) (hs : step x.cfg x.st a = some s')
    (ha : allowed x a ∨ ∃ e d', a = .receive e d') :
    FNodeOk d f { x with st := s' } ∧
    (if dataOf x.st a = some d then fnodeM d f { x with st := s' } + 3 * newSends d x.st s' + 1 ≤ fnodeM d f x + extra d x.table.length a
      else fnodeM d f { x with st := s' } = fnodeM d f x ∧ newSends d x.st s' = 0) := by
  have h1 := load_step d hok.1 hs ha
  have hD : FDInv x.cfg d f s' := hok.2.step hd hs
  refine ⟨⟨wf_step hok.1 hs, hD⟩, ?_⟩
  have hb := hD.bound
  simp only [Node.cfg] at hb
  split
  · rename_i e
    rw [if_pos e] at h1
    rcases h1 with ⟨h2, h3⟩ | ⟨h2, h3, h4⟩
    · simp only [fnodeM, h2]; omega
    · simp only [fnodeM]
      have h5 : x.workers * f + x.workers - (dels d x.st.delivered + pend d x.st.handlers) = x.workers * f + x.workers - (dels d s'.delivered + pend d s'.handlers) + 1 := by omega
      rw [h5, Nat.add_mul]; omega
  · rename_i e
    rw [if_neg e] at h1
    obtain ⟨h2, h3, h4⟩ := h1
    simp only [fnodeM, h2, h3, h4]; simp

def ftotal (d : Bytes) (s : FNet) : Nat := isum (fun n x => fnodeM d (lost s.dropped d n x) x) 0 s.net.nodes + 3 * inFlight d s.net.flight

def FNetOk (d : Bytes) (s : FNet) : Prop := ∀ (n : Nat) (x : Node), s.net.nodes[n]? = some x → FNodeOk d (lost s.dropped d n x) x

/-- what a dropped entry brings in -/
def fextra (d : Bytes) (s : FNet) : FNAction → Nat
  | .act a => nextra d s.net a
  | .drop n key => ((s.net.nodes[n]?).map fun x => if key = hash x.id.id d then x.workers * (7 + 6 * x.table.length) else 0).getD 0

def fabout (s : FNet) : FNAction → Option Bytes
  | .act a => about s.net a
  | .drop _ _ => none

theorem ftotal_step {s s' : FNet} {a : FNAction} {d : Bytes} (hd : d.length < 65500) (hok : FNetOk d s) (hs : fnstep s a = some s') :
    FNetOk d s' ∧ (if fabout s a = some d then ftotal d s' + 1 ≤ ftotal d s + fextra d s a else ftotal d s' ≤ ftotal d s + fextra d s a) := by
  cases a with
  | act a =>
    simp only [fnstep, Option.map_eq_some_iff] at hs
    obtain ⟨t, hs, rfl⟩ := hs
    have hkey : ∀ (n : Nat) (x : Node) (t' : State), s.net.nodes[n]? = some x → FNodeOk d (lost s.dropped d n x) { x with st := t' } →
        ∀ (m : Nat) (y : Node), (s.net.nodes.set n { x with st := t' })[m]? = some y → FNodeOk d (lost s.dropped d m y) y := by
      intro n x t' hx h1 m y hy
      rw [List.getElem?_set] at hy
      split at hy
      · rename_i e
        subst e
        split at hy
        · cases hy; exact h1
        · cases hy
      · exact hok m y hy
    cases a with
    | node n a =>
      simp only [nstep] at hs
      split at hs
      · cases hs
      · rename_i x hx
        split at hs
        · rename_i hal
          split at hs
          · cases hs
          · rename_i t ht
            cases hs
            obtain ⟨h1, h2⟩ := fnodeM_step hd (hok n x hx) ht (Or.inl hal)
            refine ⟨hkey n x t hx h1, ?_⟩
            have h3 := isum_set (F := fun n x => fnodeM d (lost s.dropped d n x) x) (F' := fun n x => fnodeM d (lost s.dropped d n x) x) (y := { x with st := t })
              s.net.nodes 0 n hx (fun _ _ _ => rfl)
            have h4 := inFlight_new d x t s.net.flight
            have h5 : extra d x.table.length a = nextra d s.net (.node n a) := by
              cases a <;> simp only [extra, nextra, hx, Option.map_some, Option.getD_some]
              · exact absurd hal (by simp [allowed])
            simp only [Nat.zero_add] at h3
            have h6 : lost s.dropped d n { x with st := t } = lost s.dropped d n x := rfl
            rw [h6] at h3
            simp only [ftotal, h4, fabout, fextra, about, hx, Option.bind_some]
            split
            · rename_i e; rw [if_pos e] at h2; omega
            · rename_i e; rw [if_neg e] at h2; omega
        · cases hs
    | deliver i n =>
      simp only [nstep] at hs
      split at hs
      · rename_i m x hm hx
        split at hs
        · split at hs
          · cases hs
          · rename_i t ht
            cases hs
            obtain ⟨h1, h2⟩ := fnodeM_step hd (hok n x hx) ht (Or.inr ⟨_, _, rfl⟩)
            refine ⟨hkey n x t hx h1, ?_⟩
            have h3 := isum_set (F := fun n x => fnodeM d (lost s.dropped d n x) x) (F' := fun n x => fnodeM d (lost s.dropped d n x) x) (y := { x with st := t })
              s.net.nodes 0 n hx (fun _ _ _ => rfl)
            have h4 := inFlight_erase (d := d) hm
            simp only [Nat.zero_add] at h3
            have h6 : lost s.dropped d n { x with st := t } = lost s.dropped d n x := rfl
            rw [h6] at h3
            simp only [ftotal, fabout, fextra, about, hm, Option.map_some, dataOf, extra, nextra, Option.some.injEq] at h2 ⊢
            split
            · rename_i e; rw [if_pos e] at h2 h4; rw [if_pos e] at h2; omega
            · rename_i e; rw [if_neg e] at h2 h4; omega
        · cases hs
      · cases hs
  | drop n key =>
    simp only [fnstep] at hs
    split at hs
    · rename_i x hx
      split at hs
      · cases hs
        have hl : ∀ m (y : Node), lost (s.dropped ++ [(n, key)]) d m y = lost s.dropped d m y + if n = m ∧ key = hash y.id.id d then 1 else 0 := by
          intro m y
          simp [lost, List.count_append, List.count_singleton]
        have hd' := (hok n x hx).2.drop key
        refine ⟨fun m y hy => ?_, ?_⟩
        · simp only at hy ⊢
          rw [List.getElem?_set] at hy
          rw [hl]
          split at hy
          · rename_i e
            subst e
            split at hy
            · cases hy
              refine ⟨(hok n x hx).1, ?_⟩
              by_cases e : key = hash x.id.id d
              · rw [if_pos ⟨rfl, e⟩]
                rw [if_pos (show key = hash x.cfg.self d from e)] at hd'
                exact hd'
              · rw [if_neg fun h => e h.2]
                rw [if_neg (show ¬ key = hash x.cfg.self d from e)] at hd'
                exact hd'
            · cases hy
          · rename_i e
            rw [if_neg fun h => e h.1]
            exact hok m y hy
        · have h3 := isum_set (F := fun n x => fnodeM d (lost s.dropped d n x) x) (F' := fun m y => fnodeM d (lost (s.dropped ++ [(n, key)]) d m y) y)
            (y := { x with st := { x.st with cache := cacheDrop x.st.cache key } }) s.net.nodes 0 n hx (fun m hm z => by
              simp only [hl]
              rw [if_neg fun h => hm (by omega)]; rfl)
          simp only [Nat.zero_add] at h3
          have h7 : fnodeM d (lost (s.dropped ++ [(n, key)]) d n { x with st := { x.st with cache := cacheDrop x.st.cache key } }) { x with st := { x.st with cache := cacheDrop x.st.cache key } } =
              fnodeM d (lost s.dropped d n x) x + if key = hash x.id.id d then x.workers * (7 + 6 * x.table.length) else 0 := by
            rw [hl]
            have hb := (hok n x hx).2.bound
            simp only [Node.cfg] at hb
            split
            · rename_i e
              rw [if_pos e.2]
              have e2 : lost s.dropped d n { x with st := { x.st with cache := cacheDrop x.st.cache key } } = lost s.dropped d n x := rfl
              simp only [fnodeM, e2]
              have e3 : x.workers * (lost s.dropped d n x + 1) = x.workers * lost s.dropped d n x + x.workers := by rw [Nat.mul_add, Nat.mul_one]
              have e4 : load d x.table.length { x.st with cache := cacheDrop x.st.cache key } = load d x.table.length x.st := rfl
              rw [e3, e4]
              generalize 7 + 6 * x.table.length = W
              have : x.workers * lost s.dropped d n x + x.workers + x.workers - (dels d x.st.delivered + pend d x.st.handlers) =
                x.workers * lost s.dropped d n x + x.workers - (dels d x.st.delivered + pend d x.st.handlers) + x.workers := by omega
              rw [this, Nat.add_mul]
              omega
            · rename_i e
              rw [if_neg fun h => e ⟨rfl, h⟩]
              rfl
          simp only [fabout, reduceCtorEq, if_false, ftotal, fextra, hx, Option.map_some, Option.getD_some]
          rw [h7] at h3
          omega
      · cases hs
    · cases hs

end Noise.Gossip
