import Verif.Proofs.Client
import Verif.Proofs.Requests
/-! # Client: requests and responses -/
namespace Noise.Cl
open Spec
variable {ε : Type}

/-- Call `i` was registered with nonce `n` and no message with that nonce has been processed since. -/
def Waiting (log : List (Event ε)) (n : UInt64) (i : Nat) : Prop :=
  ∃ l1 l2, log = l1 ++ .registered i n :: l2 ∧ ∀ m b, .processed m b ∈ l2 → m.nonce ≠ n

theorem waiting_snoc (log : List (Event ε)) (e : Event ε) (n : UInt64) (i : Nat) :
    Waiting (log ++ [e]) n i ↔ e = .registered i n ∨ (Waiting log n i ∧ ∀ m b, e = .processed m b → m.nonce ≠ n) := by
  constructor
  · rintro ⟨pre, post, he, h1⟩
    rcases List.eq_nil_or_concat post with rfl | ⟨post', x, rfl⟩
    · left
      have := congrArg List.getLast? he
      simp at this
      exact this
    · right
      have he' : log ++ [e] = (pre ++ .registered i n :: post') ++ [x] := by rw [he]; simp
      obtain ⟨e1, e2⟩ := List.append_inj' he' rfl
      injection e2 with e2
      subst e2
      exact ⟨⟨pre, post', e1, fun m b hm => h1 m b (by simp [hm])⟩, fun m b hm => h1 m b (by simp [hm])⟩
  · rintro (rfl | ⟨⟨pre, post, he, h1⟩, h2⟩)
    · exact ⟨log, [], rfl, by simp⟩
    · refine ⟨pre, post ++ [e], by rw [he]; simp, ?_⟩
      intro m b hm
      simp only [List.mem_append, List.mem_singleton] at hm
      rcases hm with hm | hm
      · exact h1 m b hm
      · exact h2 m b hm.symm

theorem not_waiting_nil (n : UInt64) (i : Nat) : ¬ Waiting ([] : List (Event ε)) n i := by
  rintro ⟨l1, l2, h, _⟩
  simp at h

/-- Events that say nothing about requests. -/
def Event.neutral : Event ε → Bool
  | .registered _ _ | .processed _ _ | .returned _ _ => false
  | _ => true

structure ReqsInv (ent : UInt64 → Option Nat) (calls : List Call) (log : List (Event ε)) : Prop where
  ent0 : ent 0 = none
  entIff : ∀ n i, ent n = some i ↔ Waiting log n i
  entCall : ∀ n i, ent n = some i → ∃ c, calls[i]? = some c ∧ c.nonce = n ∧ c.chan = none
  nz : ∀ (i : Nat) c, calls[i]? = some c → c.nonce ≠ 0
  reg : ∀ (i : Nat) n, .registered i n ∈ log ↔ ∃ c, calls[i]? = some c ∧ c.nonce = n
  chan : ∀ (i : Nat) c m p, calls[i]? = some c → c.chan = some (m, p) →
    log[p]? = some (.processed m true) ∧ m.nonce = c.nonce ∧ ∃ q : Nat, q < p ∧ log[q]? = some (.registered i c.nonce)
  inj : ∀ (i j : Nat) c d m m' p, calls[i]? = some c → calls[j]? = some d → c.chan = some (m, p) → d.chan = some (m', p) → i = j
  ret : ∀ (i : Nat) m, .returned i m ∈ log ↔ ∃ c, calls[i]? = some c ∧ c.st = .returned m
  retChan : ∀ (i : Nat) c m, calls[i]? = some c → c.st = .returned m → ∃ p, c.chan = some (m, p)
  noEof : ∀ (i : Nat) c, calls[i]? = some c → c.st ≠ .eof

theorem ReqsInv.new : ReqsInv RequestMap.new.entries [] ([] : List (Event ε)) := by
  constructor <;> simp [RequestMap.new, not_waiting_nil]

theorem getElem?_append_some {α : Type} {l : List α} {p : Nat} {x : α} (h : l[p]? = some x) (l' : List α) : (l ++ l')[p]? = some x := by
  rw [List.getElem?_append_left (List.getElem?_eq_some_iff.1 h).1]; exact h

theorem ReqsInv.neutral {ent : UInt64 → Option Nat} {calls : List Call} {log : List (Event ε)} (h : ReqsInv ent calls log) (e : Event ε)
    (he : e.neutral = true) : ReqsInv ent calls (log ++ [e]) := by
  have h1 : ∀ i n, e ≠ .registered i n := by rintro i n rfl; cases he
  have h2 : ∀ m b, e ≠ .processed m b := by rintro i n rfl; cases he
  have h3 : ∀ i m, e ≠ .returned i m := by rintro i n rfl; cases he
  constructor
  · exact h.ent0
  · intro n i
    rw [waiting_snoc, h.entIff]
    simp [h1, h2]
  · exact h.entCall
  · exact h.nz
  · intro i n
    rw [← h.reg]
    simp [(h1 i n).symm]
  · intro i c m p hc hch
    obtain ⟨a, b, q, hq, d⟩ := h.chan i c m p hc hch
    exact ⟨getElem?_append_some a _, b, q, hq, getElem?_append_some d _⟩
  · exact h.inj
  · intro i m
    rw [← h.ret]
    simp [(h3 i m).symm]
  · exact h.retChan
  · exact h.noEof

/-- Changing the state of a call to something other than `returned`/`eof`. -/
theorem ReqsInv.setSt {ent : UInt64 → Option Nat} {calls : List Call} {log : List (Event ε)} (h : ReqsInv ent calls log) (i : Nat) (c : Call)
    (hc : calls[i]? = some c) (st : CallSt) (h1 : ∀ m, c.st ≠ .returned m) (h2 : ∀ m, st ≠ .returned m) (h3 : st ≠ .eof) :
    ReqsInv ent (calls.set i { c with st := st }) log := by
  have hlt : i < calls.length := (List.getElem?_eq_some_iff.1 hc).1
  have key : ∀ (j : Nat) d, (calls.set i { c with st := st })[j]? = some d → ∃ d', calls[j]? = some d' ∧ d.nonce = d'.nonce ∧ d.chan = d'.chan ∧
      ((∀ m, d.st ≠ .returned m) ∧ d.st ≠ .eof ∨ d = d') := by
    intro j d hd
    by_cases hij : i = j
    · subst hij
      rw [List.getElem?_set_self hlt] at hd
      injection hd with hd
      subst hd
      exact ⟨c, hc, rfl, rfl, Or.inl ⟨h2, h3⟩⟩
    · rw [List.getElem?_set_ne hij] at hd
      exact ⟨d, hd, rfl, rfl, Or.inr rfl⟩
  have yek : ∀ (j : Nat) d', calls[j]? = some d' → ∃ d, (calls.set i { c with st := st })[j]? = some d ∧ d.nonce = d'.nonce ∧ d.chan = d'.chan ∧
      (i ≠ j → d = d') := by
    intro j d' hd
    by_cases hij : i = j
    · subst hij
      rw [hc] at hd
      injection hd with hd
      subst hd
      exact ⟨_, List.getElem?_set_self hlt, rfl, rfl, fun h => absurd rfl h⟩
    · exact ⟨d', by rw [List.getElem?_set_ne hij]; exact hd, rfl, rfl, fun _ => rfl⟩
  constructor
  · exact h.ent0
  · exact h.entIff
  · intro n j hj
    obtain ⟨d', k1, k2, k3⟩ := h.entCall n j hj
    obtain ⟨d, e1, e2, e3, _⟩ := yek j d' k1
    exact ⟨d, e1, e2.trans k2, e3.trans k3⟩
  · intro j d hd
    obtain ⟨d', k1, k2, _⟩ := key j d hd
    rw [k2]; exact h.nz j d' k1
  · intro j n
    rw [h.reg]
    constructor
    · rintro ⟨d', k1, k2⟩
      obtain ⟨d, e1, e2, _⟩ := yek j d' k1
      exact ⟨d, e1, e2.trans k2⟩
    · rintro ⟨d, k1, k2⟩
      obtain ⟨d', e1, e2, _⟩ := key j d k1
      exact ⟨d', e1, e2.symm.trans k2⟩
  · intro j d m p hd hch
    obtain ⟨d', k1, k2, k3, _⟩ := key j d hd
    rw [k2]
    exact h.chan j d' m p k1 (k3 ▸ hch)
  · intro j k d e m m' p hd he hch hch'
    obtain ⟨d', k1, k2, k3, _⟩ := key j d hd
    obtain ⟨e', l1, l2, l3, _⟩ := key k e he
    exact h.inj j k d' e' m m' p k1 l1 (k3 ▸ hch) (l3 ▸ hch')
  · intro j m
    rw [h.ret]
    constructor
    · rintro ⟨d', k1, k2⟩
      obtain ⟨d, e1, _, _, e4⟩ := yek j d' k1
      have : i ≠ j := by
        rintro rfl
        rw [hc] at k1
        injection k1 with k1
        subst k1
        exact h1 m k2
      rw [e4 this] at e1
      exact ⟨d', e1, k2⟩
    · rintro ⟨d, k1, k2⟩
      obtain ⟨d', e1, _, _, e4⟩ := key j d k1
      rcases e4 with e4 | rfl
      · exact absurd k2 (e4.1 m)
      · exact ⟨d, e1, k2⟩
  · intro j d m hd hst
    obtain ⟨d', e1, _, e3, e4⟩ := key j d hd
    rcases e4 with e4 | rfl
    · exact absurd hst (e4.1 m)
    · exact h.retChan j d m e1 hst
  · intro j d hd
    obtain ⟨d', e1, _, e3, e4⟩ := key j d hd
    rcases e4 with e4 | rfl
    · exact e4.2
    · exact h.noEof j d e1

/-- A call returns the message in its channel. -/
theorem ReqsInv.take {ent : UInt64 → Option Nat} {calls : List Call} {log : List (Event ε)} (h : ReqsInv ent calls log) (i : Nat) (c : Call)
    (hc : calls[i]? = some c) (m : Message) (p : Nat) (hch : c.chan = some (m, p)) (h1 : ∀ m, c.st ≠ .returned m) :
    ReqsInv ent (calls.set i { c with st := .returned m }) (log ++ [.returned i m]) := by
  have hlt : i < calls.length := (List.getElem?_eq_some_iff.1 hc).1
  have key : ∀ (j : Nat) d, (calls.set i { c with st := .returned m })[j]? = some d → ∃ d', calls[j]? = some d' ∧ d.nonce = d'.nonce ∧ d.chan = d'.chan ∧
      (j = i ∧ d.st = .returned m ∨ d = d' ∧ j ≠ i) := by
    intro j d hd
    by_cases hij : i = j
    · subst hij
      rw [List.getElem?_set_self hlt] at hd
      injection hd with hd
      subst hd
      exact ⟨c, hc, rfl, rfl, Or.inl ⟨rfl, rfl⟩⟩
    · rw [List.getElem?_set_ne hij] at hd
      exact ⟨d, hd, rfl, rfl, Or.inr ⟨rfl, Ne.symm hij⟩⟩
  have yek : ∀ (j : Nat) d', calls[j]? = some d' → ∃ d, (calls.set i { c with st := .returned m })[j]? = some d ∧ d.nonce = d'.nonce ∧ d.chan = d'.chan ∧
      (i ≠ j → d = d') := by
    intro j d' hd
    by_cases hij : i = j
    · subst hij
      rw [hc] at hd
      injection hd with hd
      subst hd
      exact ⟨_, List.getElem?_set_self hlt, rfl, rfl, fun h => absurd rfl h⟩
    · exact ⟨d', by rw [List.getElem?_set_ne hij]; exact hd, rfl, rfl, fun _ => rfl⟩
  constructor
  · exact h.ent0
  · intro n j
    rw [waiting_snoc, h.entIff]
    simp
  · intro n j hj
    obtain ⟨d', k1, k2, k3⟩ := h.entCall n j hj
    obtain ⟨d, e1, e2, e3, _⟩ := yek j d' k1
    exact ⟨d, e1, e2.trans k2, e3.trans k3⟩
  · intro j d hd
    obtain ⟨d', k1, k2, _⟩ := key j d hd
    rw [k2]; exact h.nz j d' k1
  · intro j n
    have : (.registered j n ∈ log ++ [.returned i m]) ↔ (Event.registered j n : Event ε) ∈ log := by simp
    rw [this, h.reg]
    constructor
    · rintro ⟨d', k1, k2⟩
      obtain ⟨d, e1, e2, _⟩ := yek j d' k1
      exact ⟨d, e1, e2.trans k2⟩
    · rintro ⟨d, k1, k2⟩
      obtain ⟨d', e1, e2, _⟩ := key j d k1
      exact ⟨d', e1, e2.symm.trans k2⟩
  · intro j d m p hd hch
    obtain ⟨d', k1, k2, k3, _⟩ := key j d hd
    rw [k2]
    obtain ⟨a, b, q, hq, e⟩ := h.chan j d' m p k1 (k3 ▸ hch)
    exact ⟨getElem?_append_some a _, b, q, hq, getElem?_append_some e _⟩
  · intro j k d e m m' p hd he hch hch'
    obtain ⟨d', k1, k2, k3, _⟩ := key j d hd
    obtain ⟨e', l1, l2, l3, _⟩ := key k e he
    exact h.inj j k d' e' m m' p k1 l1 (k3 ▸ hch) (l3 ▸ hch')
  · intro j m'
    have : (.returned j m' ∈ log ++ [.returned i m]) ↔ (Event.returned j m' : Event ε) ∈ log ∨ (j = i ∧ m' = m) := by simp
    rw [this, h.ret]
    constructor
    · rintro (⟨d', k1, k2⟩ | ⟨rfl, rfl⟩)
      · obtain ⟨d, e1, _, _, e4⟩ := yek j d' k1
        have : i ≠ j := by
          rintro rfl
          rw [hc] at k1
          injection k1 with k1
          subst k1
          exact h1 m' k2
        rw [e4 this] at e1
        exact ⟨d', e1, k2⟩
      · exact ⟨_, List.getElem?_set_self hlt, rfl⟩
    · rintro ⟨d, k1, k2⟩
      obtain ⟨d', e1, _, _, e4⟩ := key j d k1
      rcases e4 with ⟨rfl, e5⟩ | ⟨rfl, _⟩
      · rw [e5] at k2
        injection k2 with k2
        exact Or.inr ⟨rfl, k2.symm⟩
      · exact Or.inl ⟨d, e1, k2⟩
  · intro j d m' hd hst
    obtain ⟨d', e1, _, e3, e4⟩ := key j d hd
    rcases e4 with ⟨rfl, e5⟩ | ⟨rfl, _⟩
    · rw [e5] at hst
      injection hst with hst
      subst hst
      rw [hc] at e1
      injection e1 with e1
      subst e1
      exact ⟨p, e3.trans hch⟩
    · exact h.retChan j d m' e1 hst
  · intro j d hd
    obtain ⟨d', e1, _, e3, e4⟩ := key j d hd
    rcases e4 with ⟨rfl, e5⟩ | ⟨rfl, _⟩
    · rw [e5]; simp
    · exact h.noEof j d e1

/-- A new call is registered. -/
theorem ReqsInv.start {ent : UInt64 → Option Nat} {calls : List Call} {log : List (Event ε)} (h : ReqsInv ent calls log) (n : UInt64)
    (hn : ent n = none) (h0 : n ≠ 0) (data : Bytes) :
    ReqsInv (fun k => if k = n then some calls.length else ent k) (calls ++ [⟨n, data, .registered, none⟩]) (log ++ [.registered calls.length n]) := by
  have key : ∀ (j : Nat) d, (calls ++ [⟨n, data, .registered, none⟩])[j]? = some d → calls[j]? = some d ∨ (j = calls.length ∧ d = ⟨n, data, .registered, none⟩) := by
    intro j d hd
    rw [List.getElem?_append] at hd
    split at hd
    · exact Or.inl hd
    · right
      have : j - calls.length = 0 := by
        have := (List.getElem?_eq_some_iff.1 hd).1
        simpa using this
      refine ⟨by omega, ?_⟩
      rw [this] at hd
      simpa using hd.symm
  have last : (calls ++ [⟨n, data, .registered, none⟩])[calls.length]? = some ⟨n, data, .registered, none⟩ := by simp
  have lt : ∀ (j : Nat) d, calls[j]? = some d → j < calls.length := fun j d hd => (List.getElem?_eq_some_iff.1 hd).1
  constructor
  · simp [Ne.symm h0, h.ent0]
  · intro k i
    rw [waiting_snoc, ← h.entIff]
    by_cases hk : k = n
    · subst hk
      simp [hn]
    · simp [hk, Ne.symm hk]
  · intro k i hi
    by_cases hk : k = n
    · subst hk
      simp at hi
      subst hi
      exact ⟨_, last, rfl, rfl⟩
    · simp only [hk, if_false] at hi
      obtain ⟨c, k1, k2⟩ := h.entCall k i hi
      exact ⟨c, getElem?_append_some k1 _, k2⟩
  · intro i c hc
    rcases key i c hc with hc | ⟨rfl, rfl⟩
    · exact h.nz i c hc
    · exact h0
  · intro i k
    have : (.registered i k ∈ log ++ [.registered calls.length n]) ↔ (Event.registered i k : Event ε) ∈ log ∨ (i = calls.length ∧ k = n) := by simp
    rw [this, h.reg]
    constructor
    · rintro (⟨c, k1, k2⟩ | ⟨rfl, rfl⟩)
      · exact ⟨c, getElem?_append_some k1 _, k2⟩
      · exact ⟨_, last, rfl⟩
    · rintro ⟨c, k1, k2⟩
      rcases key i c k1 with hc | ⟨rfl, rfl⟩
      · exact Or.inl ⟨c, hc, k2⟩
      · exact Or.inr ⟨rfl, k2.symm⟩
  · intro i c m p hc hch
    rcases key i c hc with hc | ⟨rfl, rfl⟩
    · obtain ⟨a, b, q, hq, e⟩ := h.chan i c m p hc hch
      exact ⟨getElem?_append_some a _, b, q, hq, getElem?_append_some e _⟩
    · cases hch
  · intro i j c d m m' p hc hd hch hch'
    rcases key i c hc with hc | ⟨rfl, rfl⟩
    · rcases key j d hd with hd | ⟨rfl, rfl⟩
      · exact h.inj i j c d m m' p hc hd hch hch'
      · cases hch'
    · cases hch
  · intro i m
    have : (.returned i m ∈ log ++ [.registered calls.length n]) ↔ (Event.returned i m : Event ε) ∈ log := by simp
    rw [this, h.ret]
    constructor
    · rintro ⟨c, k1, k2⟩
      exact ⟨c, getElem?_append_some k1 _, k2⟩
    · rintro ⟨c, k1, k2⟩
      rcases key i c k1 with hc | ⟨rfl, rfl⟩
      · exact ⟨c, hc, k2⟩
      · cases k2
  · intro i c m hc hst
    rcases key i c hc with hc | ⟨rfl, rfl⟩
    · exact h.retChan i c m hc hst
    · cases hst
  · intro i c hc
    rcases key i c hc with hc | ⟨rfl, rfl⟩
    · exact h.noEof i c hc
    · simp

/-- A received message is not claimed by a request. -/
theorem ReqsInv.miss {ent : UInt64 → Option Nat} {calls : List Call} {log : List (Event ε)} (h : ReqsInv ent calls log) (m : Message)
    (hn : ent m.nonce = none) : ReqsInv ent calls (log ++ [.processed m false]) := by
  constructor
  · exact h.ent0
  · intro n i
    rw [waiting_snoc, ← h.entIff]
    constructor
    · intro hi
      refine Or.inr ⟨hi, ?_⟩
      rintro m' b ⟨⟩ rfl
      rw [hn] at hi; cases hi
    · rintro (h | h)
      · cases h
      · exact h.1
  · exact h.entCall
  · exact h.nz
  · intro i n
    rw [← h.reg]
    simp
  · intro i c m p hc hch
    obtain ⟨a, b, q, hq, d⟩ := h.chan i c m p hc hch
    exact ⟨getElem?_append_some a _, b, q, hq, getElem?_append_some d _⟩
  · exact h.inj
  · intro i m
    rw [← h.ret]
    simp
  · exact h.retChan
  · exact h.noEof

/-- A received message is handed to a request. -/
theorem ReqsInv.hit {ent : UInt64 → Option Nat} {calls : List Call} {log : List (Event ε)} (h : ReqsInv ent calls log) (m : Message) (i : Nat)
    (hn : ent m.nonce = some i) : ReqsInv (fun n => if n = m.nonce then none else ent n)
      (calls.modify i (fun c => { c with chan := some (m, log.length) })) (log ++ [.processed m true]) := by
  obtain ⟨c, hc, hcn, hcc⟩ := h.entCall _ _ hn
  have self : (calls.modify i (fun c => { c with chan := some (m, log.length) }))[i]? = some { c with chan := some (m, log.length) } := by
    rw [List.getElem?_modify]; simp [hc]
  have other : ∀ j : Nat, j ≠ i → (calls.modify i (fun c => { c with chan := some (m, log.length) }))[j]? = calls[j]? := by
    intro j hj
    rw [List.getElem?_modify]; simp [Ne.symm hj]
  have key : ∀ (j : Nat) d, (calls.modify i (fun c => { c with chan := some (m, log.length) }))[j]? = some d →
      (j = i ∧ d = { c with chan := some (m, log.length) }) ∨ (j ≠ i ∧ calls[j]? = some d) := by
    intro j d hd
    by_cases hj : j = i
    · subst hj
      rw [self] at hd
      injection hd with hd
      exact Or.inl ⟨rfl, hd.symm⟩
    · rw [other j hj] at hd
      exact Or.inr ⟨hj, hd⟩
  obtain ⟨l1, l2, hlog, _⟩ := (h.entIff _ _).1 hn
  have hreg : log[l1.length]? = some (.registered i m.nonce) ∧ l1.length < log.length := by
    rw [hlog]; simp
  constructor
  · simp [h.ent0]
  · intro n j
    rw [waiting_snoc, ← h.entIff]
    by_cases hnn : n = m.nonce
    · subst hnn
      simp
    · simp only [hnn, if_false]
      constructor
      · intro hj
        refine Or.inr ⟨hj, ?_⟩
        rintro m' b ⟨⟩ rfl
        exact hnn rfl
      · rintro (hx | hx)
        · cases hx
        · exact hx.1
  · intro n j hj
    by_cases hnn : n = m.nonce
    · simp [hnn] at hj
    · simp only [hnn, if_false] at hj
      obtain ⟨d, k1, k2, k3⟩ := h.entCall n j hj
      have : j ≠ i := by
        rintro rfl
        rw [hc] at k1
        injection k1 with k1
        subst k1
        exact hnn (k2.symm.trans hcn)
      exact ⟨d, by rw [other j this]; exact k1, k2, k3⟩
  · intro j d hd
    rcases key j d hd with ⟨rfl, rfl⟩ | ⟨_, hd⟩
    · exact h.nz _ c hc
    · exact h.nz j d hd
  · intro j n
    have : (.registered j n ∈ log ++ [.processed m true]) ↔ (Event.registered j n : Event ε) ∈ log := by simp
    rw [this, h.reg]
    constructor
    · rintro ⟨d, k1, k2⟩
      by_cases hj : j = i
      · subst hj
        rw [hc] at k1
        injection k1 with k1
        subst k1
        exact ⟨_, self, k2⟩
      · exact ⟨d, by rw [other j hj]; exact k1, k2⟩
    · rintro ⟨d, k1, k2⟩
      rcases key j d k1 with ⟨rfl, rfl⟩ | ⟨_, hd⟩
      · exact ⟨c, hc, k2⟩
      · exact ⟨d, hd, k2⟩
  · intro j d m' p hd hch
    rcases key j d hd with ⟨rfl, rfl⟩ | ⟨_, hd⟩
    · simp only [Option.some.injEq, Prod.mk.injEq] at hch
      obtain ⟨rfl, rfl⟩ := hch
      exact ⟨by simp, hcn.symm, l1.length, hreg.2, by rw [show (Call.nonce _) = m.nonce from hcn]; exact getElem?_append_some hreg.1 _⟩
    · obtain ⟨a, b, q, hq, e⟩ := h.chan j d m' p hd hch
      exact ⟨getElem?_append_some a _, b, q, hq, getElem?_append_some e _⟩
  · have far : ∀ (j : Nat) d m' p, calls[j]? = some d → d.chan = some (m', p) → p < log.length := by
      intro j d m' p hd hch
      exact (List.getElem?_eq_some_iff.1 (h.chan j d m' p hd hch).1).1
    intro j k d e m1 m2 p hd he hch hch'
    rcases key j d hd with ⟨rfl, rfl⟩ | ⟨hj, hd2⟩
    · rcases key k e he with ⟨rfl, rfl⟩ | ⟨hk, he2⟩
      · rfl
      · have := far k e m2 p he2 hch'
        simp only [Option.some.injEq, Prod.mk.injEq] at hch
        omega
    · rcases key k e he with ⟨rfl, rfl⟩ | ⟨hk, he2⟩
      · have := far j d m1 p hd2 hch
        simp only [Option.some.injEq, Prod.mk.injEq] at hch'
        omega
      · exact h.inj j k d e m1 m2 p hd2 he2 hch hch'
  · intro j m'
    have : (.returned j m' ∈ log ++ [.processed m true]) ↔ (Event.returned j m' : Event ε) ∈ log := by simp
    rw [this, h.ret]
    constructor
    · rintro ⟨d, k1, k2⟩
      by_cases hj : j = i
      · subst hj
        rw [hc] at k1
        injection k1 with k1
        subst k1
        exact ⟨_, self, k2⟩
      · exact ⟨d, by rw [other j hj]; exact k1, k2⟩
    · rintro ⟨d, k1, k2⟩
      rcases key j d k1 with ⟨rfl, rfl⟩ | ⟨_, hd⟩
      · exact ⟨c, hc, k2⟩
      · exact ⟨d, hd, k2⟩
  · intro j d m' hd hst
    rcases key j d hd with ⟨rfl, rfl⟩ | ⟨_, hd⟩
    · obtain ⟨p, hp⟩ := h.retChan _ c m' hc hst
      rw [hcc] at hp; cases hp
    · exact h.retChan j d m' hd hst
  · intro j d hd
    rcases key j d hd with ⟨rfl, rfl⟩ | ⟨_, hd⟩
    · exact h.noEof _ c hc
    · exact h.noEof j d hd

theorem findRequest_some {r r' : RequestMap} {n : UInt64} {i : Nat} (h : r.findRequest n = (r', some i)) :
    r.entries n = some i ∧ r'.entries = fun k => if k = n then none else r.entries k := by
  unfold RequestMap.findRequest at h
  split at h
  · injection h with h1 h2
    injection h2 with h2
    subst h1 h2
    exact ⟨by assumption, rfl⟩
  · cases h

theorem findRequest_none {r r' : RequestMap} {n : UInt64} (h : r.findRequest n = (r', none)) : r.entries n = none ∧ r' = r := by
  unfold RequestMap.findRequest at h
  split at h
  · cases h
  · injection h with h1 h2
    exact ⟨by assumption, h1.symm⟩

theorem nextNonce_some {r r' : RequestMap} {n : UInt64} {i : Nat} (h : r.nextNonce i = (r', some n)) :
    r.entries n = none ∧ n ≠ 0 ∧ r'.entries = fun k => if k = n then some i else r.entries k := by
  unfold RequestMap.nextNonce at h
  simp only at h
  split at h
  · cases h
  · injection h with h1 h2
    injection h2 with h2
    subst h1 h2
    exact ⟨by assumption, candidate_ne_zero r, rfl⟩

theorem nextNonce_none {r r' : RequestMap} {i : Nat} (h : r.nextNonce i = (r', none)) : r'.entries = r.entries := by
  unfold RequestMap.nextNonce at h
  simp only at h
  split at h
  · injection h with h1 h2
    subst h1
    rfl
  · cases h

abbrev ReqsOK (s : State ε) : Prop := ReqsInv s.reqs.entries s.calls s.log

theorem ReqsOK.step {s s' : State ε} {a : Action ε} (h : ReqsOK s) (hs : step s a = some s') : ReqsOK s' := by
  unfold ReqsOK at h ⊢
  cl_cases a hs
  all_goals try exact h
  all_goals try exact h.neutral _ rfl
  · rename_i hf
    obtain ⟨h1, h2⟩ := findRequest_some hf
    simp only [h2]
    exact h.hit _ _ h1
  · rename_i hf
    obtain ⟨h1, h2⟩ := findRequest_none hf
    simp only [h2]
    exact h.miss _ h1
  · rename_i hf
    obtain ⟨h1, h2, h3⟩ := nextNonce_some hf
    simp only [h3]
    exact h.start _ h1 h2 _
  · rename_i hf
    simp only [nextNonce_none hf]
    exact h
  · rename_i hc hst
    exact (h.neutral (.submitted _) rfl).setSt _ _ hc _ (by simp [hst]) (by simp) (by simp)
  · rename_i hc hst _ _ _ hch h0
    have := h.chan _ _ _ _ hc hch
    exact absurd (this.2.1.symm.trans h0) (h.nz _ _ hc)
  · rename_i hc hst _ _ _ hch h0
    exact h.take _ _ hc _ _ hch (by simp [hst])
  · rename_i hc hst
    exact h.setSt _ _ hc _ (by simp [hst]) (by simp) (by simp)

theorem ReqsOK.reach {side : Side} {s : State ε} (h : Reachable side s) : ReqsOK s :=
  reach_inv (P := ReqsOK) ReqsInv.new (fun _ _ _ => ReqsOK.step) h

end Noise.Cl
