import Verif.Proofs.Symbolic
/-! # C68, C69, C76, C77: authentication, agreement, secrecy and data origin against a network attacker -/
namespace Noise
open Sym

/-- What `recv2` says about the session that takes it. -/
theorem Sym.recv2_inv {s s' : State} {i : Nat} {x : Sec} {a r : Nat} (hs : Step s (.recv2 i x a r) s') :
    ∃ (e : Session) (p : Sec), s.sessions[i]? = some e ∧ e.peer = some p ∧ e.done = none ∧ Derive s (.enc (key i p) r (msg2 x a (key i p))) ∧
      s'.leaked = s.leaked ∧ s'.sessions = s.sessions.set i { e with done := some (x, a) } := by
  cases hs with
  | recv2 he hp hn hd => exact ⟨_, _, he, hp, hn, hd, rfl, rfl⟩

/-- C68: whenever end `i` of a connection accepts the ID with key `n` and address `a`, and the private key `n` has not leaked by then, some end
`j` belongs to the owner of `n`, advertises exactly this ID, and has the same session key. -/
theorem C68_peer_authentication {s s' : State} (h : Reachable s) {i n a r : Nat} (hs : Step s (.recv2 i (.overlay n) a r) s')
    (hl : .overlay n ∉ s.leaked) :
    ∃ (j : Nat) (e f : Session) (p q : Sec), s.sessions[i]? = some e ∧ e.peer = some p ∧
      s.sessions[j]? = some f ∧ f.owner = n ∧ f.addr = a ∧ f.peer = some q ∧ share (.eph j) q = share (.eph i) p := by
  obtain ⟨e, p, he, hp, _, hd, _⟩ := recv2_inv hs
  obtain ⟨j, f, q, hj, ho, ha, hq, hk⟩ := msg2_origin h hd hl
  exact ⟨j, e, f, p, q, he, hp, hj, ho, ha, hq, hk.symm⟩

/-- C69, strongest part that holds: if the accepted ID is not the ID that end `i` itself advertises, then there is another end `j`, of the owner of
that ID. -/
theorem C69_somebody_else_partial {s s' : State} (h : Reachable s) {i n a r : Nat} (hs : Step s (.recv2 i (.overlay n) a r) s')
    (hl : .overlay n ∉ s.leaked) {e : Session} (he : s.sessions[i]? = some e) (hx : (e.owner, e.addr) ≠ (n, a)) :
    ∃ (j : Nat) (f : Session), j ≠ i ∧ s.sessions[j]? = some f ∧ f.owner = n ∧ f.addr = a ∧
      e.peer = some (.eph j) ∧ f.peer = some (.eph i) := by
  obtain ⟨j, e', f, p, q, he', hp, hj, ho, ha, hq, hk⟩ := C68_peer_authentication h hs hl
  rw [he] at he'; injection he' with he'; subst he'
  rcases key_inj hk with ⟨h1, h2⟩ | ⟨h1, h2⟩
  · subst h1
    rw [he] at hj; injection hj with hj; subst hj
    exact absurd (by rw [ho, ha]) hx
  · subst h1; subst h2
    refine ⟨j, f, ?_, hj, ho, ha, hp, hq⟩
    rintro rfl
    rw [he] at hj; injection hj with hj; subst hj
    exact absurd (by rw [ho, ha]) hx

/-- C69 is false, by reflection: an attacker who has no private key at all (not even one of its own is used) sends every message back to where it came from. The
only end of the whole system completes its handshake, with its own ID as the ID of the peer. -/
theorem C69_reflection_refuted (o a : Nat) :
    ∃ s, Reachable s ∧ s.leaked = [] ∧ s.sessions = [{ owner := o, addr := a, peer := some (.eph 0), done := some (.overlay o, a) }] := by
  refine ⟨_, .step (.step (.step .refl (.start o a)) (.recv1 (i := 0) (p := .eph 0) (r := 0) rfl rfl (.seen (by simp))))
    (.recv2 (i := 0) (r := 0) rfl rfl rfl (.seen (by simp))), rfl, rfl⟩

/-- C69 is false in a worse way: with an ephemeral key of its own the attacker sends the node's second message back to it, completes the handshake,
and has the session key; the node believes to be connected to itself. -/
theorem C69_impersonation_refuted (o a : Nat) :
    ∃ s, Reachable s ∧ s.leaked = [] ∧ s.sessions = [{ owner := o, addr := a, peer := some (.att 0), done := some (.overlay o, a) }] ∧
      Derive s (key 0 (.att 0)) := by
  refine ⟨_, .step (.step (.step .refl (.start o a)) (.recv1 (i := 0) (p := .att 0) (r := 0) rfl rfl
      (.pair .pub (.sign (.sec trivial) .data))))
    (.recv2 (i := 0) (r := 0) rfl rfl rfl (.seen (by simp))), rfl, rfl, ?_⟩
  unfold key
  rw [share_comm]
  exact .share (.sec trivial)

/-- An attacker cannot compute a session key of two ends whose ephemeral keys have not leaked. -/
theorem Sym.key_secret {s : State} (h : Reachable s) {i j : Nat} (hi : .eph i ∉ s.leaked) (hj : .eph j ∉ s.leaked) :
    ¬ Derive s (key i (.eph j)) := by
  intro hd
  rcases ok_share.1 (derive_ok (net_ok h) hd) with hk | hk
  · exact hi hk
  · exact hj hk

/-- C76: if end `i` accepts an ID that is not its own and whose private key has not leaked by then, there is exactly one other end with this session
key; it belongs to the owner of that ID and advertises it, each of the two has the ephemeral key of the other, and at no later time can the
attacker compute the session key unless one of the two ephemeral keys leaks, even if every long-term key leaks. -/
theorem C76_agreement_and_forward_secrecy {s s' : State} (h : Reachable s) {i n a r : Nat} (hs : Step s (.recv2 i (.overlay n) a r) s')
    (hl : .overlay n ∉ s.leaked) {e : Session} (he : s.sessions[i]? = some e) (hx : (e.owner, e.addr) ≠ (n, a)) :
    ∃ (j : Nat) (f : Session), j ≠ i ∧ s.sessions[j]? = some f ∧ f.owner = n ∧ f.addr = a ∧
      e.peer = some (.eph j) ∧ f.peer = some (.eph i) ∧
      (∀ t, Reach s' t → ∀ (l : Nat) (g : Session) (q : Sec), t.sessions[l]? = some g → g.peer = some q →
        share (.eph l) q = share (.eph i) (.eph j) → l = i ∨ l = j) ∧
      (∀ t, Reach s' t → .eph i ∉ t.leaked → .eph j ∉ t.leaked → ¬ Derive t (share (.eph i) (.eph j))) := by
  obtain ⟨j, f, hji, hj, ho, ha, hp, hq⟩ := C69_somebody_else_partial h hs hl he hx
  refine ⟨j, f, hji, hj, ho, ha, hp, hq, ?_, ?_⟩
  · intro t _ l g q _ _ hk
    rcases key_inj (i := l) (j := i) hk with ⟨h1, _⟩ | ⟨_, h1⟩
    · exact Or.inl h1
    · injection h1 with h1; exact Or.inr h1.symm
  · intro t ht hi' hj'
    exact key_secret (h.trans ((Reach.step .refl hs).trans ht)) hi' hj'

/-- Whatever an end has received was within reach of the attacker, in an envelope under its session key. -/
theorem Sym.rcvd_ok {s : State} (h : Reachable s) : ∀ (i : Nat) (e : Session) (p : Sec) (u : Term), s.sessions[i]? = some e →
    e.peer = some p → u ∈ e.rcvd → Ok s (.enc (key i p) 0 u) := by
  induction h with
  | refl => intro i e p u he; simp at he
  | @step t t' act hr hs ih =>
    have hle := hs.le
    have ok := net_ok hr
    intro i e p u he hp hu
    cases hs with
    | start o a =>
      by_cases hi : i < t.sessions.length
      · rw [List.getElem?_append_left hi] at he
        exact ok_mono hle (ih i e p u he hp hu)
      · rw [List.getElem?_append_right (by omega)] at he
        cases hk : i - t.sessions.length with
        | zero => rw [hk] at he; simp at he; subst he; cases hp
        | succ k => rw [hk] at he; simp at he
    | leak x => exact ok_mono hle (ih i e p u he hp hu)
    | @recv1 i' e' p' r' he' hp' _ =>
      by_cases hii : i' = i
      · subst hii
        simp [(List.getElem?_eq_some_iff.1 he').1] at he
        subst he
        have hno : e'.rcvd = [] := by
          apply Classical.byContradiction
          intro hne
          exact absurd hp' (rcvd_peer hr i' e' he' hne)
        simp [hno] at hu
      · simp [hii] at he
        exact ok_mono hle (ih i e p u he hp hu)
    | @recv2 i' e' p' x' a' r' he' hp' _ _ =>
      by_cases hii : i' = i
      · subst hii
        simp [(List.getElem?_eq_some_iff.1 he').1] at he
        subst he
        exact ok_mono hle (ih i' e' p u he' hp hu)
      · simp [hii] at he
        exact ok_mono hle (ih i e p u he hp hu)
    | @send i' e' p' m' r' he' hp' _ =>
      by_cases hii : i' = i
      · subst hii
        simp [(List.getElem?_eq_some_iff.1 he').1] at he
        subst he
        exact ok_mono hle (ih i' e' p u he' hp hu)
      · simp [hii] at he
        exact ok_mono hle (ih i e p u he hp hu)
    | @recv i' e' p' t' r' he' hp' _ hd =>
      by_cases hii : i' = i
      · subst hii
        simp [(List.getElem?_eq_some_iff.1 he').1] at he
        subst he
        rcases List.mem_append.1 hu with hu | hu
        · exact ok_mono hle (ih i' e' p u he' hp hu)
        · rw [List.mem_singleton] at hu; subst hu
          have : p' = p := by rw [hp'] at hp; injection hp
          subst this
          have hk := derive_ok ok hd
          have hk' : Ok t (.enc (key i' p') 0 u) := hk
          exact ok_mono hle hk'
      · simp [hii] at he
        exact ok_mono hle (ih i e p u he hp hu)

/-- C77, strongest part that holds: if end `i` accepts an ID that is not its own and whose private key has not leaked by then, then whatever it
accepts on this connection, as long as the two ephemeral keys do not leak, was encrypted by end `i` itself or by the one end `j` it is connected to:
it is data that one of the two has sent, or the second handshake message of one of the two. -/
theorem C77_data_origin_partial {s s' : State} (h : Reachable s) {i n a r : Nat} (hs : Step s (.recv2 i (.overlay n) a r) s')
    (hl : .overlay n ∉ s.leaked) {e : Session} (he : s.sessions[i]? = some e) (hx : (e.owner, e.addr) ≠ (n, a)) :
    ∃ j, j ≠ i ∧ ∀ t, Reach s' t → .eph i ∉ t.leaked → .eph j ∉ t.leaked →
      ∃ (ei ej : Session), t.sessions[i]? = some ei ∧ t.sessions[j]? = some ej ∧ ej.owner = n ∧ ej.addr = a ∧
        ∀ u ∈ ei.rcvd, (∃ m, u = .data m ∧ (m ∈ ei.sent ∨ m ∈ ej.sent)) ∨
          u = msg2 (.overlay ei.owner) ei.addr (share (.eph i) (.eph j)) ∨ u = msg2 (.overlay n) a (share (.eph i) (.eph j)) := by
  obtain ⟨j, f, hji, hj, ho, ha, hp, hq⟩ := C69_somebody_else_partial h hs hl he hx
  refine ⟨j, hji, fun t ht hi' hj' => ?_⟩
  have hr : Reachable t := h.trans ((Reach.step .refl hs).trans ht)
  have hle : Le s t := ((Reach.step .refl hs).trans ht).le
  obtain ⟨ei, gi, _, _, pi, _, _⟩ := hle.get i e he
  obtain ⟨ej, gj, oj, aj, pj, _, _⟩ := hle.get j f hj
  refine ⟨ei, ej, gi, gj, oj.trans ho, aj.trans ha, fun u hu => ?_⟩
  rcases rcvd_ok hr i ei (.eph j) u gi (pi _ hp) hu with hsl | ⟨hk, _⟩
  · obtain ⟨l, g, q, hg, hgq, hk, hm⟩ := hsl
    have hlij : l = i ∨ l = j := by
      rcases key_inj hk with ⟨h1, _⟩ | ⟨h1, _⟩
      · exact Or.inl h1.symm
      · injection h1 with h1; exact Or.inr h1.symm
    have hkk : key l q = share (.eph i) (.eph j) := hk.symm
    rcases hm with hm | ⟨m, hm, hu'⟩
    · rw [hkk] at hm
      rcases hlij with h1 | h1
      · subst h1; rw [gi] at hg; injection hg with hg; subst hg
        exact Or.inr (Or.inl hm)
      · subst h1; rw [gj] at hg; injection hg with hg; subst hg
        rw [oj, aj, ho, ha] at hm
        exact Or.inr (Or.inr hm)
    · refine Or.inl ⟨m, hu', ?_⟩
      rcases hlij with h1 | h1
      · subst h1; rw [gi] at hg; injection hg with hg; subst hg; exact Or.inl hm
      · subst h1; rw [gj] at hg; injection hg with hg; subst hg; exact Or.inr hm
  · rcases ok_share.1 hk with hk | hk
    · exact absurd hk hi'
    · exact absurd hk hj'

/-- The sessions of two nodes `0` and `1` (both with address 5) during an honest run, before the second messages arrive. -/
def Sym.honest : State where
  sessions := [{ owner := 0, addr := 5, peer := some (.eph 1) }, { owner := 1, addr := 5, peer := some (.eph 0) }]
  net := [msg1 (.eph 0), msg1 (.eph 1), .enc (key 0 (.eph 1)) 0 (msg2 (.overlay 0) 5 (key 0 (.eph 1))),
    .enc (key 1 (.eph 0)) 1 (msg2 (.overlay 1) 5 (key 1 (.eph 0)))]

theorem Sym.honest_reachable : Reachable honest := by
  have s2 : Reachable ⟨[{ owner := 0, addr := 5 }, { owner := 1, addr := 5 }], [msg1 (.eph 0), msg1 (.eph 1)], []⟩ :=
    .step (.step .refl (.start 0 5)) (.start 1 5)
  have s3 := Reach.step s2 (.recv1 (i := 0) (p := .eph 1) (r := 0) rfl rfl (.seen (by simp)))
  have s4 := Reach.step s3 (.recv1 (i := 1) (p := .eph 0) (r := 1) rfl rfl (.seen (by simp)))
  exact s4

/-- Both nodes accept each other. -/
def Sym.connected : State :=
  { honest with sessions := [{ owner := 0, addr := 5, peer := some (.eph 1), done := some (.overlay 1, 5) },
      { owner := 1, addr := 5, peer := some (.eph 0), done := some (.overlay 0, 5) }] }

/-- The state after node 0 has accepted node 1. -/
def Sym.half : State :=
  { honest with sessions := [{ owner := 0, addr := 5, peer := some (.eph 1), done := some (.overlay 1, 5) },
      { owner := 1, addr := 5, peer := some (.eph 0) }] }

theorem Sym.honest_recv2 : Step honest (.recv2 0 (.overlay 1) 5 1) half := by
  have hd : Derive honest (.enc (key 0 (.eph 1)) 1 (msg2 (.overlay 1) 5 (key 0 (.eph 1)))) :=
    .seen (by simp [honest, key, share_comm (.eph 1) (.eph 0)])
  exact Step.recv2 (s := honest) (i := 0) (e := { owner := 0, addr := 5, peer := some (.eph 1) }) rfl rfl rfl hd

theorem Sym.connected_reach : Reach half connected := by
  have hd : Derive half (.enc (key 1 (.eph 0)) 0 (msg2 (.overlay 0) 5 (key 1 (.eph 0)))) :=
    .seen (by simp [half, honest, key, share_comm (.eph 1) (.eph 0)])
  exact .step .refl (Step.recv2 (s := half) (i := 1) (e := { owner := 1, addr := 5, peer := some (.eph 0) }) rfl rfl rfl hd)

theorem Sym.connected_reachable : Reachable connected :=
  (Reach.step honest_reachable honest_recv2).trans connected_reach

/-- The hypotheses of C68, of the partial theorems for C69 and C77, and of C76 are met by an honest run. -/
example : ∃ s s' e, Reachable s ∧ Step s (.recv2 0 (.overlay 1) 5 1) s' ∧ .overlay 1 ∉ s.leaked ∧ s.sessions[0]? = some e ∧
    (e.owner, e.addr) ≠ (1, 5) :=
  ⟨_, _, _, honest_reachable, honest_recv2, by simp [honest], rfl, by simp⟩

/-- … and C76's guarantee outlives the leak of both long-term keys. -/
example : ∃ t, Reach connected t ∧ .overlay 0 ∈ t.leaked ∧ .overlay 1 ∈ t.leaked ∧ .eph 0 ∉ t.leaked ∧ .eph 1 ∉ t.leaked :=
  ⟨_, .step (.step .refl (.leak (.overlay 0))) (.leak (.overlay 1)), by simp, by simp, by simp [connected, honest], by simp [connected, honest]⟩

/-- C77 is false: data that node 0 sends to node 1 is sent back to node 0 by the network, and node 0 accepts it as data from node 1, which has not sent
anything. No key has leaked. -/
theorem C77_reflected_data_refuted (m : Nat) :
    ∃ (t : State) (e0 e1 : Session), Reachable t ∧ t.leaked = [] ∧ t.sessions = [e0, e1] ∧ e0.done = some (.overlay 1, 5) ∧
      e1.owner = 1 ∧ e1.sent = [] ∧ .data m ∈ e0.rcvd := by
  have h1 := Reach.step connected_reachable (Step.send (s := connected) (i := 0) (p := .eph 1) (m := m) (r := 9) rfl rfl (by simp))
  have h2 := Reach.step h1 (Step.recv (i := 0) (p := .eph 1) (t := .data m) (r := 9) rfl rfl (by simp) (.seen (by simp)))
  exact ⟨_, _, _, h2, rfl, rfl, rfl, rfl, rfl, by simp⟩

/-- C77 is false in another way: the second handshake message, sent again by the network, is accepted as data. -/
theorem C77_handshake_as_data_refuted :
    ∃ (t : State) (e0 e1 : Session), Reachable t ∧ t.leaked = [] ∧ t.sessions = [e0, e1] ∧ e0.done = some (.overlay 1, 5) ∧
      e0.sent = [] ∧ e1.sent = [] ∧ e0.rcvd ≠ [] := by
  have hd : Derive connected (.enc (key 0 (.eph 1)) 1 (msg2 (.overlay 1) 5 (key 1 (.eph 0)))) :=
    .seen (by simp [connected, honest, key, share_comm (.eph 1) (.eph 0)])
  have h1 := Reach.step connected_reachable (Step.recv (s := connected) (i := 0) (p := .eph 1) rfl rfl (by simp) hd)
  exact ⟨_, _, _, h1, rfl, rfl, rfl, rfl, rfl, by simp⟩

end Noise
