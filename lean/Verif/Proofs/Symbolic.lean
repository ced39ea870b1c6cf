import Verif.Model.Symbolic
namespace Noise.Sym

theorem Sec.code_inj {a b : Sec} (h : a.code = b.code) : a = b := by
  cases a <;> cases b <;> simp only [Sec.code] at h <;> grind

theorem share_comm (a b : Sec) : share a b = share b a := by
  unfold share
  by_cases h : a.code = b.code
  · rw [Sec.code_inj h]
  · by_cases h1 : a.code ≤ b.code
    · rw [if_pos h1, if_neg (by omega)]
    · rw [if_neg h1, if_pos (by omega)]

theorem share_inj {a b c d : Sec} (h : share a b = share c d) : (a = c ∧ b = d) ∨ (a = d ∧ b = c) := by
  unfold share at h
  split at h <;> split at h <;> injection h with h1 h2 <;> grind

/-- Signatures made by honest ends. -/
def Signed (s : State) (x : Sec) (t : Term) : Prop :=
  (∃ j, j < s.sessions.length ∧ x = .eph j ∧ t = label) ∨
  (∃ (j : Nat) (e : Session) (p : Sec), s.sessions[j]? = some e ∧ e.peer = some p ∧ x = .overlay e.owner ∧ t = .pair (.id x e.addr) (key j p))

/-- Plaintexts sealed by honest ends. -/
def Sealed (s : State) (k t : Term) : Prop :=
  ∃ (j : Nat) (e : Session) (p : Sec), s.sessions[j]? = some e ∧ e.peer = some p ∧ k = key j p ∧
    (t = msg2 (.overlay e.owner) e.addr (key j p) ∨ ∃ m ∈ e.sent, t = .data m)

/-- An over-approximation of what the attacker can compute. -/
def Ok (s : State) : Term → Prop
  | .data _ => True
  | .pub _ => True
  | .id _ _ => True
  | .sec x => Known s x
  | .dh a b => Known s a ∨ Known s b
  | .sig x t => (Known s x ∨ Signed s x t) ∧ Ok s t
  | .pair t u => Ok s t ∧ Ok s u
  | .enc k _ t => Sealed s k t ∨ (Ok s k ∧ Ok s t)

theorem ok_share {s : State} {a b : Sec} : Ok s (share a b) ↔ Known s a ∨ Known s b := by
  unfold share
  split
  · exact Iff.rfl
  · simp only [Ok]; exact Or.comm

theorem derive_ok {s : State} (hnet : ∀ t ∈ s.net, Ok s t) {t : Term} (h : Derive s t) : Ok s t := by
  induction h with
  | seen h => exact hnet _ h
  | sec h => exact h
  | data => trivial
  | pub => trivial
  | id => trivial
  | pair _ _ h1 h2 => exact ⟨h1, h2⟩
  | fst _ h => exact h.1
  | snd _ h => exact h.2
  | sign _ _ h1 h2 => exact ⟨Or.inl h1, h2⟩
  | signed _ h => exact h.2
  | share _ h => exact ok_share.2 (Or.inl h)
  | enc _ _ h1 h2 => exact Or.inr ⟨h1, h2⟩
  | dec _ _ h1 h2 =>
    rcases h1 with h1 | h1
    · obtain ⟨j, e, p, hj, hp, rfl, rfl | ⟨m, _, rfl⟩⟩ := h1
      · refine ⟨trivial, Or.inr (Or.inr ⟨j, e, p, hj, hp, rfl, rfl⟩), trivial, h2⟩
      · trivial
    · exact h1.2

/-- `t` continues `s`: sessions keep their owner, address, ephemeral keys and what they have sent; leaked keys stay leaked. -/
structure Le (s t : State) : Prop where
  len : s.sessions.length ≤ t.sessions.length
  get : ∀ (i : Nat) (e : Session), s.sessions[i]? = some e → ∃ e', t.sessions[i]? = some e' ∧ e'.owner = e.owner ∧ e'.addr = e.addr ∧
    (∀ p, e.peer = some p → e'.peer = some p) ∧ (∀ x, e.done = some x → e'.done = some x) ∧ ∀ m ∈ e.sent, m ∈ e'.sent
  leaked : ∀ x ∈ s.leaked, x ∈ t.leaked

theorem Le.refl (s : State) : Le s s := ⟨Nat.le_refl _, fun _ e h => ⟨e, h, rfl, rfl, fun _ h => h, fun _ h => h, fun _ h => h⟩, fun _ h => h⟩

theorem Le.trans {s t u : State} (h1 : Le s t) (h2 : Le t u) : Le s u := by
  refine ⟨Nat.le_trans h1.len h2.len, fun i e h => ?_, fun x h => h2.leaked x (h1.leaked x h)⟩
  obtain ⟨e1, g1, o1, a1, p1, d1, m1⟩ := h1.get i e h
  obtain ⟨e2, g2, o2, a2, p2, d2, m2⟩ := h2.get i e1 g1
  exact ⟨e2, g2, o2.trans o1, a2.trans a1, fun p h => p2 p (p1 p h), fun p h => d2 p (d1 p h), fun m h => m2 m (m1 m h)⟩

theorem le_set {s : State} {i : Nat} {e e' : Session} (he : s.sessions[i]? = some e) (ho : e'.owner = e.owner) (ha : e'.addr = e.addr)
    (hp : ∀ p, e.peer = some p → e'.peer = some p) (hd : ∀ x, e.done = some x → e'.done = some x) (hm : ∀ m ∈ e.sent, m ∈ e'.sent)
    (net : List Term) : Le s { s with sessions := s.sessions.set i e', net := net } := by
  refine ⟨by simp, fun j f hf => ?_, fun _ h => h⟩
  by_cases hij : i = j
  · subst hij
    rw [he] at hf; injection hf with hf; subst hf
    exact ⟨e', by simp [(List.getElem?_eq_some_iff.1 he).1], ho, ha, hp, hd, hm⟩
  · exact ⟨f, by simp [hij, hf], rfl, rfl, fun _ h => h, fun _ h => h, fun _ h => h⟩

theorem Step.le {s t : State} {a : Action} (h : Step s a t) : Le s t := by
  cases h with
  | start o a =>
    refine ⟨by simp, fun i e h => ⟨e, ?_, rfl, rfl, fun _ h => h, fun _ h => h, fun _ h => h⟩, fun _ h => h⟩
    have := (List.getElem?_eq_some_iff.1 h).1
    simp [List.getElem?_append_left this, h]
  | @recv1 i e p r he hp _ => exact le_set (e' := { e with peer := some p }) he rfl rfl (by rw [hp]; rintro _ ⟨⟩) (fun _ h => h) (fun _ h => h) _
  | @recv2 i e p x a r he hp hn _ => exact le_set (e' := { e with done := some (x, a) }) he rfl rfl (fun _ h => h) (by rw [hn]; rintro _ ⟨⟩) (fun _ h => h) _
  | @send i e p m r he _ _ => exact le_set (e' := { e with sent := e.sent ++ [m] }) he rfl rfl (fun _ h => h) (fun _ h => h) (fun m h => by simp [h]) _
  | @recv i e p t r he _ _ _ => exact le_set (e' := { e with rcvd := e.rcvd ++ [t] }) he rfl rfl (fun _ h => h) (fun _ h => h) (fun _ h => h) _
  | leak x =>
    exact ⟨Nat.le_refl _, fun _ e h => ⟨e, h, rfl, rfl, fun _ h => h, fun _ h => h, fun _ h => h⟩, fun y h => List.mem_cons_of_mem _ h⟩

theorem Reach.le {s t : State} (h : Reach s t) : Le s t := by
  induction h with
  | refl => exact Le.refl s
  | step _ h ih => exact ih.trans h.le

theorem Reach.trans {s t u : State} (h1 : Reach s t) (h2 : Reach t u) : Reach s u := by
  induction h2 with
  | refl => exact h1
  | step _ h ih => exact .step ih h

theorem known_mono {s t : State} (h : Le s t) {x : Sec} (hk : Known s x) : Known t x := by
  cases x with
  | att n => trivial
  | overlay n => exact h.leaked _ hk
  | eph n => exact h.leaked _ hk

theorem signed_mono {s t : State} (h : Le s t) {x : Sec} {u : Term} (hs : Signed s x u) : Signed t x u := by
  rcases hs with ⟨j, hj, hx, ht⟩ | ⟨j, e, p, hj, hp, hx, ht⟩
  · exact Or.inl ⟨j, Nat.lt_of_lt_of_le hj h.len, hx, ht⟩
  · obtain ⟨e', g, o, a, pp, _, _⟩ := h.get j e hj
    exact Or.inr ⟨j, e', p, g, pp p hp, by rw [o]; exact hx, by rw [a]; exact ht⟩

theorem sealed_mono {s t : State} (h : Le s t) {k u : Term} (hs : Sealed s k u) : Sealed t k u := by
  obtain ⟨j, e, p, hj, hp, hk, hm⟩ := hs
  obtain ⟨e', g, o, a, pp, _, mm⟩ := h.get j e hj
  refine ⟨j, e', p, g, pp p hp, hk, ?_⟩
  rcases hm with hm | ⟨m, hm, hu⟩
  · exact Or.inl (by rw [o, a]; exact hm)
  · exact Or.inr ⟨m, mm m hm, hu⟩

theorem ok_mono {s t : State} (h : Le s t) {u : Term} (hu : Ok s u) : Ok t u := by
  induction u with
  | data => trivial
  | pub => trivial
  | id => trivial
  | sec x => exact known_mono h hu
  | dh a b => exact hu.imp (known_mono h) (known_mono h)
  | sig x t ih => exact ⟨hu.1.imp (known_mono h) (signed_mono h), ih hu.2⟩
  | pair t u h1 h2 => exact ⟨h1 hu.1, h2 hu.2⟩
  | enc k r t h1 h2 => exact hu.imp (sealed_mono h) (fun x => ⟨h1 x.1, h2 x.2⟩)

/-- Everything sent is within what the attacker is allowed to see. -/
theorem net_ok {s : State} (h : Reachable s) : ∀ t ∈ s.net, Ok s t := by
  induction h with
  | refl => simp
  | step _ hs ih =>
    have hle := hs.le
    have old := fun t ht => ok_mono hle (ih t ht)
    cases hs with
    | start o a =>
      intro t ht
      rcases List.mem_append.1 ht with ht | ht
      · exact old t ht
      · rw [List.mem_singleton] at ht; subst ht
        exact ⟨trivial, Or.inr (Or.inl ⟨_, by simp, rfl, rfl⟩), trivial⟩
    | @recv1 i e p r he hp _ =>
      intro t ht
      rcases List.mem_append.1 ht with ht | ht
      · exact old t ht
      · rw [List.mem_singleton] at ht; subst ht
        refine Or.inl ⟨i, { e with peer := some p }, p, ?_, rfl, rfl, Or.inl rfl⟩
        simp [(List.getElem?_eq_some_iff.1 he).1]
    | recv2 _ _ _ _ => exact old
    | @send i e p m r he hp _ =>
      intro t ht
      rcases List.mem_append.1 ht with ht | ht
      · exact old t ht
      · rw [List.mem_singleton] at ht; subst ht
        refine Or.inl ⟨i, { e with sent := e.sent ++ [m] }, p, ?_, hp, rfl, Or.inr ⟨m, by simp, rfl⟩⟩
        simp [(List.getElem?_eq_some_iff.1 he).1]
    | recv _ _ _ _ => exact old
    | leak x => exact old

/-- The heart of authentication: a second message that the attacker can produce under a key that has not leaked comes from its owner. -/
theorem msg2_origin {s : State} (h : Reachable s) {k : Term} {r n a : Nat} (hd : Derive s (.enc k r (msg2 (.overlay n) a k)))
    (hl : .overlay n ∉ s.leaked) :
    ∃ (j : Nat) (e : Session) (p : Sec), s.sessions[j]? = some e ∧ e.owner = n ∧ e.addr = a ∧ e.peer = some p ∧ k = key j p := by
  rcases derive_ok (net_ok h) hd with h1 | ⟨_, h1⟩
  · obtain ⟨j, e, p, hj, hp, hk, hm⟩ := h1
    rcases hm with hm | ⟨m, _, hm⟩
    · injection hm with hm _
      injection hm with h1 h2
      injection h1 with h1
      exact ⟨j, e, p, hj, h1.symm, h2.symm, hp, hk⟩
    · cases hm
  · rcases h1.2.1 with h2 | h2
    · exact absurd h2 hl
    · rcases h2 with ⟨j, _, hx, _⟩ | ⟨j, e, p, hj, hp, hx, ht⟩
      · cases hx
      · injection hx with hx
        injection ht with h3 h4
        injection h3 with _ h3
        exact ⟨j, e, p, hj, hx.symm, h3.symm, hp, h4⟩

/-- Keys of two sessions agree only if it is the same session, or each has the other's ephemeral key. -/
theorem key_inj {i j : Nat} {p q : Sec} (h : key i p = key j q) : (i = j ∧ p = q) ∨ (p = .eph j ∧ q = .eph i) := by
  rcases share_inj h with ⟨h1, h2⟩ | ⟨h1, h2⟩
  · injection h1 with h1; exact Or.inl ⟨h1, h2⟩
  · exact Or.inr ⟨h2, h1.symm⟩

/-- Data is received only after the handshake has an ephemeral key of the peer. -/
theorem rcvd_peer {s : State} (h : Reachable s) : ∀ (i : Nat) (e : Session), s.sessions[i]? = some e → e.rcvd ≠ [] → e.peer ≠ none := by
  have key : ∀ {s : State} {i' : Nat} {e' f : Session}, (∀ (i : Nat) (e : Session), s.sessions[i]? = some e → e.rcvd ≠ [] → e.peer ≠ none) →
      (f.rcvd ≠ [] → f.peer ≠ none) → s.sessions[i']? = some e' →
      ∀ (i : Nat) (e : Session), (s.sessions.set i' f)[i]? = some e → e.rcvd ≠ [] → e.peer ≠ none := by
    intro s i' e' f ih hf he' i e he hr
    by_cases hii : i' = i
    · subst hii
      simp [(List.getElem?_eq_some_iff.1 he').1] at he
      subst he; exact hf hr
    · simp [hii] at he
      exact ih i e he hr
  induction h with
  | refl => intro i e he; simp at he
  | @step t t' act hr hs ih =>
    cases hs with
    | start o a =>
      intro i e he hne
      by_cases hi : i < t.sessions.length
      · rw [List.getElem?_append_left hi] at he; exact ih i e he hne
      · rw [List.getElem?_append_right (by omega)] at he
        cases hk : i - t.sessions.length with
        | zero => rw [hk] at he; simp at he; subst he; exact absurd rfl hne
        | succ k => rw [hk] at he; simp at he
    | leak x => exact ih
    | recv1 he' hp' _ => exact key ih (fun _ => by simp) he'
    | recv2 he' hp' _ _ => exact key ih (fun _ => by simp [hp']) he'
    | send he' hp' _ => exact key ih (fun _ => by simp [hp']) he'
    | recv he' hp' _ _ => exact key ih (fun _ => by simp [hp']) he'

end Noise.Sym
