import Verif.Proofs.Gossip
/-! # Gossip that arrives is not dropped -/
namespace Noise.Gossip

/-- The application has this data: it was told, has pushed it, or is being told; or it is from the node itself. -/
def Known (own : PublicKey) (P : Bytes → Prop) (s : State) (d : Bytes) : Prop :=
  (∃ e ∈ s.delivered, e.2 = d) ∨ P d ∨ ∃ h ∈ s.handlers, h.data = d ∧ (h.pc = .callback ∨ h.sender.id = own)

structure Heard (own : PublicKey) (P : Bytes → Prop) (s : State) : Prop where
  cache : ∀ d, hash own d ∈ s.cache → Known own P s d
  past : ∀ h ∈ s.handlers, h.pc ≠ .sender → h.pc ≠ .check → h.pc ≠ .mark → Known own P s h.data
  told : ∀ h ∈ s.handlers, (h.pc = .push ∨ ∃ k, h.pc = .pushing k) → ∃ e ∈ s.delivered, e.2 = h.data
  pushes : ∀ q ∈ s.pushes, P q.data ∨ ∃ e ∈ s.delivered, e.2 = q.data

theorem Heard.init (own : PublicKey) (P : Bytes → Prop) : Heard own P State.new := by constructor <;> simp [State.new]

theorem Known.weaken {own : PublicKey} {P P' : Bytes → Prop} {s : State} {d : Bytes} (h : ∀ d, P d → P' d) : Known own P s d → Known own P' s d
  | .inl x => .inl x
  | .inr (.inl x) => .inr (.inl (h d x))
  | .inr (.inr x) => .inr (.inr x)

theorem Heard.weaken {own : PublicKey} {P P' : Bytes → Prop} {s : State} (h : ∀ d, P d → P' d) (i : Heard own P s) : Heard own P' s :=
  ⟨fun d hd => (i.cache d hd).weaken h, fun x hx h1 h2 h3 => (i.past x hx h1 h2 h3).weaken h, i.told, fun q hq => (i.pushes q hq).imp (h _) id⟩

theorem mem_setH {l : List Handler} {i : Nat} {h x : Handler} {pc : HPc} (_hi : l[i]? = some h) (hx : x ∈ l.set i { h with pc := pc }) : x ∈ l ∨ x = { h with pc := pc } :=
  List.mem_or_eq_of_mem_set hx

theorem keep_setH {l : List Handler} {i : Nat} {h : Handler} {pc : HPc} (hi : l[i]? = some h) {x : Handler} (hx : x ∈ l) : x ∈ l.set i { h with pc := pc } ∨ x = h := by
  obtain ⟨j, hj⟩ := List.getElem?_of_mem hx
  by_cases hij : i = j
  · subst hij; rw [hi] at hj; cases hj; exact .inr rfl
  · left
    exact List.mem_of_getElem? (i := j) (by rw [List.getElem?_set_ne hij]; exact hj)

theorem self_setH {l : List Handler} {i : Nat} {h : Handler} {pc : HPc} (hi : l[i]? = some h) : { h with pc := pc } ∈ l.set i { h with pc := pc } :=
  List.mem_of_getElem? (i := i) (List.getElem?_set_self (List.getElem?_eq_some_iff.1 hi).1)

/-- A call of `Handle` other than one in the callback goes on. -/
theorem Known.setH {own : PublicKey} {P : Bytes → Prop} {s s' : State} {d : Bytes} {i : Nat} {h : Handler} {pc : HPc} (hi : s.handlers[i]? = some h) (hpc : h.pc = .callback → ∃ e ∈ s'.delivered, e.2 = h.data)
    (hh : s'.handlers = s.handlers.set i { h with pc := pc }) (hd : ∀ e ∈ s.delivered, e ∈ s'.delivered) : Known own P s d → Known own P s' d
  | .inl ⟨e, he, h2⟩ => .inl ⟨e, hd e he, h2⟩
  | .inr (.inl x) => .inr (.inl x)
  | .inr (.inr ⟨x, hx, h1, h2⟩) => by
    rcases keep_setH (pc := pc) hi hx with h3 | h3
    · exact .inr (.inr ⟨x, by rw [hh]; exact h3, h1, h2⟩)
    · subst h3
      rcases h2 with h2 | h2
      · obtain ⟨e, he, h4⟩ := hpc h2
        exact .inl ⟨e, he, h4.trans h1⟩
      · exact .inr (.inr ⟨{ x with pc := pc }, by rw [hh]; exact self_setH hi, h1, .inr h2⟩)

theorem Heard.setH {own : PublicKey} {P : Bytes → Prop} {s s' : State} {i : Nat} {h : Handler} {pc : HPc} (v : Heard own P s) (hi : s.handlers[i]? = some h) (hpc : h.pc = .callback → ∃ e ∈ s'.delivered, e.2 = h.data)
    (hh : s'.handlers = s.handlers.set i { h with pc := pc }) (hd : ∀ e ∈ s.delivered, e ∈ s'.delivered)
    (hc : ∀ d, hash own d ∈ s'.cache → hash own d ∈ s.cache ∨ Known own P s' d) (hk : pc ≠ .sender → pc ≠ .check → pc ≠ .mark → Known own P s' h.data)
    (ht : (pc = .push ∨ ∃ k, pc = .pushing k) → ∃ e ∈ s'.delivered, e.2 = h.data) (hp : ∀ q ∈ s'.pushes, q ∈ s.pushes ∨ ∃ e ∈ s'.delivered, e.2 = q.data) : Heard own P s' := by
  have up : ∀ {d}, Known own P s d → Known own P s' d := fun {d} => Known.setH hi hpc hh hd
  refine ⟨fun d h1 => (hc d h1).elim (fun h2 => up (v.cache d h2)) id, fun x hx h1 h2 h3 => ?_, fun x hx h1 => ?_, fun q hq => ?_⟩
  · rw [hh] at hx
    rcases mem_setH hi hx with hx | rfl
    · exact up (v.past x hx h1 h2 h3)
    · exact hk h1 h2 h3
  · rw [hh] at hx
    rcases mem_setH hi hx with hx | rfl
    · obtain ⟨e, he, h2⟩ := v.told x hx h1
      exact ⟨e, hd e he, h2⟩
    · exact ht h1
  · rcases hp q hq with h1 | h1
    · exact (v.pushes q h1).imp id fun ⟨e, he, h2⟩ => ⟨e, hd e he, h2⟩
    · exact .inr h1

/-- Nothing happens to calls of `Handle`. -/
theorem Heard.rest {own : PublicKey} {P : Bytes → Prop} {s s' : State} (v : Heard own P s) (hh : s'.handlers = s.handlers) (hd : s'.delivered = s.delivered)
    (hc : ∀ d, hash own d ∈ s'.cache → hash own d ∈ s.cache ∨ ∃ q ∈ s.pushes, q.data = d) (hp : ∀ q ∈ s'.pushes, P q.data ∨ ∃ q0 ∈ s.pushes, q0.data = q.data) : Heard own P s' := by
  have up : ∀ {d}, Known own P s d → Known own P s' d := fun h => by unfold Known; rw [hh, hd]; exact h
  refine ⟨fun d h1 => ?_, fun x hx h1 h2 h3 => up (v.past x (hh ▸ hx) h1 h2 h3), fun x hx h1 => by rw [hd]; exact v.told x (hh ▸ hx) h1, fun q hq => ?_⟩
  · rcases hc d h1 with h2 | ⟨q, hq, rfl⟩
    · exact up (v.cache d h2)
    · rcases v.pushes q hq with h3 | h3
      · exact .inr (.inl h3)
      · exact .inl (by rw [hd]; exact h3)
  · rcases hp q hq with h1 | ⟨q0, h1, h2⟩
    · exact .inl h1
    · rw [hd, ← h2]; exact v.pushes q0 h1

theorem mem_setP {l : List Pushing} {k : Nat} {q q1 x : Pushing} (hk : l[k]? = some q) (hx : x ∈ l.set k q1) (hd : q1.data = q.data) : ∃ q0 ∈ l, q0.data = x.data := by
  rcases List.mem_or_eq_of_mem_set hx with h | rfl
  · exact ⟨x, h, rfl⟩
  · exact ⟨q, List.mem_of_getElem? hk, hd.symm⟩

theorem Heard.step {c : Cfg} {P : Bytes → Prop} {s s' : State} {a : Action} (v : Heard c.self P s) (hs : step c s a = some s') (hP : ∀ d, a = .push d → P d) : Heard c.self P s' := by
  cases a with
  | receive sender data =>
    simp only [Gossip.step] at hs
    split at hs <;> cases hs
    have up : ∀ {d}, Known c.self P s d → Known c.self P { s with handlers := s.handlers ++ [⟨sender, data, .sender⟩] } d :=
      fun h => h.imp id (fun h => h.imp id fun ⟨x, hx, h1⟩ => ⟨x, List.mem_append_left _ hx, h1⟩)
    refine ⟨fun d h => up (v.cache d h), fun x hx h1 h2 h3 => ?_, fun x hx h1 => ?_, v.pushes⟩
    · rcases List.mem_append.1 hx with hx | hx
      · exact up (v.past x hx h1 h2 h3)
      · rw [List.mem_singleton.1 hx] at h1; exact absurd rfl h1
    · rcases List.mem_append.1 hx with hx | hx
      · exact v.told x hx h1
      · rw [List.mem_singleton.1 hx] at h1; rcases h1 with h1 | ⟨k, h1⟩ <;> cases h1
  | handler i =>
    simp only [Gossip.step] at hs
    split at hs
    · cases hs
    rename_i h hi
    have hm := List.mem_of_getElem? hi
    split at hs
    · rename_i hpc
      cases hs
      refine v.setH hi (by rw [hpc]; simp) rfl (fun _ h => h) (fun d hd => ?_) (by simp) (by simp) (fun q hq => .inl hq)
      rcases mem_cacheSet.1 hd with hd | ⟨hd, -⟩
      · exact .inl hd
      · obtain ⟨h1, h2⟩ := hash_inj hd
        exact .inr (.inr (.inr ⟨_, self_setH hi, h2.symm, .inr h1.symm⟩))
    · rename_i hpc
      cases hs
      refine v.setH hi (by rw [hpc]; simp) rfl (fun _ h => h) (fun d hd => .inl hd) (fun h1 h2 h3 => ?_) (fun h1 => ?_) (fun q hq => .inl hq)
      · split at h3
        · rename_i hc
          exact Known.setH hi (by rw [hpc]; simp) rfl (fun _ h => h) (v.cache _ (cacheHas_iff.1 hc))
        · exact absurd rfl h3
      · rcases h1 with h1 | ⟨k, h1⟩ <;> split at h1 <;> cases h1
    · rename_i hpc
      cases hs
      refine v.setH hi (by rw [hpc]; simp) rfl (fun _ h => h) (fun d hd => ?_) (fun _ _ _ => .inr (.inr ⟨_, self_setH hi, rfl, .inl rfl⟩)) (by simp) (fun q hq => .inl hq)
      rcases mem_cacheSet.1 hd with hd | ⟨hd, -⟩
      · exact .inl hd
      · obtain ⟨-, h2⟩ := hash_inj hd
        exact .inr (.inr (.inr ⟨_, self_setH hi, h2.symm, .inl rfl⟩))
    · rename_i hpc
      split at hs <;> cases hs
      have ht := v.told h hm (.inl hpc)
      refine v.setH hi (by rw [hpc]; simp) rfl (fun _ h => h) (fun d hd => .inl hd) (fun _ _ _ => .inl ht) (fun _ => ht) (fun q hq => ?_)
      rcases List.mem_append.1 hq with hq | hq
      · exact .inl hq
      · rw [List.mem_singleton.1 hq]; exact .inr ht
    · rename_i k hpc
      split at hs
      · split at hs <;> cases hs
        have ht := v.told h hm (.inr ⟨k, hpc⟩)
        exact v.setH hi (by rw [hpc]; simp) rfl (fun _ h => h) (fun d hd => .inl hd) (fun _ _ _ => .inl ht) (fun _ => ht) (fun q hq => .inl hq)
      · cases hs
    · cases hs
    · cases hs
  | callback i accept =>
    simp only [Gossip.step] at hs
    split at hs
    · rename_i h hi
      split at hs <;> cases hs
      have ht : ∃ e ∈ s.delivered ++ [(h.sender, h.data)], e.2 = h.data := ⟨_, List.mem_append_right _ (List.mem_singleton.2 rfl), rfl⟩
      exact v.setH hi (fun _ => ht) rfl (fun _ h => List.mem_append_left _ h) (fun d hd => .inl hd) (fun _ _ _ => .inl ht) (fun _ => ht) (fun q hq => .inl hq)
    · cases hs
  | push data =>
    simp only [Gossip.step] at hs
    split at hs <;> cases hs
    refine v.rest rfl rfl (fun d h => .inl h) (fun q hq => ?_)
    rcases List.mem_append.1 hq with hq | hq
    · exact .inr ⟨q, hq, rfl⟩
    · rw [List.mem_singleton.1 hq]; exact .inl (hP _ rfl)
  | pushing k entries =>
    simp only [Gossip.step] at hs
    split at hs
    · cases hs
    rename_i q hq
    split at hs
    · cases hs
      refine v.rest rfl rfl (fun d h => ?_) (fun x hx => .inr (mem_setP hq hx rfl))
      rcases mem_cacheSet.1 h with h | ⟨h, -⟩
      · exact .inl h
      · exact .inr ⟨q, List.mem_of_getElem? hq, (hash_inj h).2.symm⟩
    · split at hs <;> cases hs
      exact v.rest rfl rfl (fun d h => .inl h) (fun x hx => .inr (mem_setP hq hx rfl))
    · split at hs <;> cases hs
      exact v.rest rfl rfl (fun d h => .inl h) (fun x hx => .inr (mem_setP hq hx rfl))
    · cases hs
  | gor k j =>
    simp only [Gossip.step] at hs
    split at hs
    · cases hs
    rename_i q hq
    split at hs
    · cases hs
    split at hs
    · cases hs
      exact v.rest rfl rfl (fun d h => .inl h) (fun x hx => .inr (mem_setP hq hx rfl))
    · cases hs
      refine v.rest rfl rfl (fun d h => ?_) (fun x hx => .inr (mem_setP hq hx rfl))
      rcases mem_cacheSet.1 h with h | ⟨h, -⟩
      · exact .inl h
      · exact .inr ⟨q, List.mem_of_getElem? hq, (hash_inj h).2.symm⟩
    · cases hs
    · cases hs
  | sent k j ok =>
    simp only [Gossip.step] at hs
    split at hs
    · cases hs
    rename_i q hq
    split at hs
    · cases hs
    split at hs
    · split at hs <;> cases hs
      · exact v.rest rfl rfl (fun d h => .inl h) (fun x hx => .inr (mem_setP hq hx rfl))
      · exact v.rest rfl rfl (fun d h => .inl h) (fun x hx => .inr (mem_setP hq hx rfl))
    · cases hs

end Noise.Gossip
