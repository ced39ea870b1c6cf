import Verif.Proofs.KadPing
import Verif.Props.KadSearch
/-! # Property C149: the pings that decide who stays in the routing table -/
namespace Noise
open Spec
variable {ε : Type}

/-- **C149 (peers are removed for a cause).** In every execution of a network of nodes with kademlia: if an identity disappears from the routing table of a node, then the application has called `Delete` with its key or `DeleteByAddress` with its address; or a call of `Ping`, `Send` or
`Request` for its address could not connect; or an identity with its key (itself, if their addresses are the same) was in the table before, and since then a ping to the address of that identity has returned something else than a pong. -/
theorem C149_removed_for_cause (S : Sorter) (c : KWire.Cfg ε) (N : Nat) (σ : Nat → KPing.State ε) (α : Nat → Option (KPing.Action ε)) (hx : Execution (KPing.step S c) σ α) (h0 : KPing.Start c N (σ 0)) (n t : Nat) (e : ID)
    (he : InTable σ n t e) (he' : ¬ InTable σ n (t + 1) e) :
    α t = some (.kw (.kad n (.table (.delete e.id)))) ∨ α t = some (.kw (.kad n (.table (.deleteByAddress e.address)))) ∨ DialFailed (σ t).kw n e.address ∨
      ∃ u e', u ≤ t ∧ InTable σ n u e' ∧ e'.id = e.id ∧ PingedInVain c σ n u t e'.address := by
  obtain ⟨p, hp, he⟩ := he
  rcases hx t with ⟨-, h⟩ | ⟨a, ha, hs⟩
  · exact absurd ⟨p, by rw [h]; exact hp, he⟩ he'
  have key : ∀ {b : KWire.Action ε}, KWire.step S c (σ t).kw b = some (σ (t + 1)).kw → ∃ (p' : KWire.Part) (act : Kad.Action), b = .kad n act ∧ Kad.step p.kad act = some p'.kad ∧ e ∉ p'.kad.table.all := by
    intro b hb
    obtain ⟨p', h1, ⟨l, h2⟩ | ⟨act, h2, h3⟩⟩ := KWire.step_kad hb hp
    · exact absurd ⟨p', h1, by rw [h2]; exact he⟩ he'
    · exact ⟨p', act, h2, h3, fun h => he' ⟨p', h1, h⟩⟩
  have thread : ∀ th ∈ p.kad.threads, ((∃ x, th.pc = .delete x ∧ x.id = e.id) ∨ th.pc = .deleteAddress e.address) → DialFailed (σ t).kw n e.address ∨ ∃ u e', u ≤ t ∧ InTable σ n u e' ∧ e'.id = e.id ∧ PingedInVain c σ n u t e'.address := by
    rintro th hth (⟨x, h1, h2⟩ | h1)
    · obtain ⟨u, g1, g2, g3⟩ := (KPing.hist hx h0 t).deletes n p th x hp hth h1
      exact .inr ⟨u, x, g1, g2, h2, g3⟩
    · have := (KPing.Inv.reach (KPing.exec_reach hx h0 t)).why n p th hp hth
      rw [h1] at this
      exact .inl this
  rcases KPing.step_kw hs with ⟨b, rfl, -, hb, -⟩ | ⟨m, i, x, q, id, e1, rfl, -, -, -, -, hb, -⟩ | ⟨m, i, w, x, d, r, rfl, -, -, -, -, -, -, hb, -⟩ | ⟨m, k, x, d, rfl, -, -, -, hb, -⟩
  · obtain ⟨p', act, rfl, h1, h2⟩ := key hb
    rcases KPing.kad_removes h1 he h2 with rfl | rfl | ⟨th, h3, h4⟩
    · exact .inl ha
    · exact .inr (.inl ha)
    · exact .inr (.inr (thread th h3 h4))
  · obtain ⟨p', act, h, h1, h2⟩ := key hb
    cases h
  · obtain ⟨p', act, h, h1, h2⟩ := key hb
    cases h
    rcases KPing.kad_removes h1 he h2 with h | h | ⟨th, h3, h4⟩
    · cases h
    · cases h
    · exact .inr (.inr (thread th h3 h4))
  · obtain ⟨p', act, h, h1, h2⟩ := key hb
    cases h
    rcases KPing.kad_removes h1 he h2 with h | h | ⟨th, h3, h4⟩
    · cases h
    · cases h
    · exact .inr (.inr (thread th h3 h4))

open Net in
/-- **C149 (peers that answer stay).** In every fair execution of a network of nodes with kademlia: suppose a call of `Ack` for a new peer finds its bucket full and pings the least recently seen peer there; that one's address belongs to a node that answers pings; the context of the ping does not
end; and the node makes its calls to no more addresses than its pool may hold. Then the ping returns a pong; `Ack` waits for that, and then it turns the new peer away, and returns: it does not remove the other one. -/
theorem C149_answering_peers_stay [Nonempty ε] (S : Sorter) (c : KWire.Cfg ε) (N : Nat) (σ : Nat → KPing.State ε) (α : Nat → Option (KPing.Action ε)) (hx : Execution (KPing.step S c) σ α)
    (r : KWire.FairRun S c N (fun t => (σ t).kw) (KPing.kwActs c σ α)) (n i t0 : Nat) (hfair : WeaklyFair σ α (Able (KPing.step S c) (· = .pinged n i)) (· = .pinged n i)) (ha : α t0 = some (.ping n i)) (id e : ID) (hth : ThreadAt σ n i t0 ⟨id, .ping e⟩)
    (hcr : ∀ t x, (σ t).kw.net.nodes[n]? = some x → x.crashed = false) (hat : 0 < (c.node n).attempts) (hNo : 0 < (c.node n).numWorkers) (L : List Text) (hL : L.length ≤ (c.node n).max)
    (hin : ∀ t k d, CallAt (fun t => (σ t).kw.net) n k t d → d.addr ∈ L) (hrel : Responsive c (fun t => (σ t).kw) (KPing.kwActs c σ α) n e.address)
    (hend : ∀ x, (σ t0).kw.net.nodes[n]? = some x → Endless (fun t => (σ t).kw.net) n x.calls.length) :
    ∃ t, t0 < t ∧ α t = some (.pinged n i) ∧ (∀ u, t0 < u → u ≤ t → ThreadAt σ n i u ⟨id, .ping e⟩) ∧ ThreadAt σ n i (t + 1) ⟨id, .emit (.evicted id) false⟩ := by
  -- the ping starts
  obtain ⟨x, x', d, hX, hX', hd, hdpc, hdl, hdk, hda, hwait⟩ := KPing.ping_waits hx ha hth
  -- it is answered
  obtain ⟨t', msg, c', i', k1, k2, k3, k5, k6, k7⟩ := r.toNet.asks hcr hL hin hNo (t := t0 + 1) ⟨x', hX', hd⟩ hdpc (hdl ▸ hat) (data := Query.bytes c.ops .ping) hdk (hend x hX)
    (fun i => OnlyKademlia c (fun t => (σ t).kw) i.node (Query.bytes c.ops .ping)) (by
      intro t j x hj hs hadr
      obtain ⟨i, e1, e2, e3, e4, e5, e6⟩ := hrel t j x hj hs (hadr.trans hda)
      exact ⟨i, c.handler, e5, e2, e3, e4, KWire.answers_query r.init r.exec r.toNet i .ping, e6⟩)
  obtain ⟨u, p, -, -, -, hmsg⟩ := KWire.answered_reply (Q := .ping) r.init r.exec r.toNet k5 k6
  have hpong : KPing.isPong c.ops (.response msg) = true := KPing.isPong_of ⟨msg, rfl, by
    have : msg.data = put16 c.ops.pong := hmsg
    rw [this]
    exact List.take_of_length_le (by rw [put16_length])⟩
  have hret : ∀ t c1 res, CallAt (fun t => (σ t).kw.net) n x.calls.length t c1 → c1.pc = .returned res → res = .response msg := by
    intro t c1 res h1 h2
    obtain ⟨c2, g1, -, -, g2⟩ := r.toNet.call_next (k7 t c1 res h1 h2) k2
    rw [callAt_eq g1 h1] at g2
    have := g2 _ k3
    rw [h2] at this; cases this; rfl
  -- and goes on
  have hex : ∃ t, t0 < t ∧ α t = some (.pinged n i) := by
    by_contra hno
    push Not at hno
    obtain ⟨t, h1, h2⟩ := hfair t'
    rcases h2 with ⟨a, h2, rfl⟩ | h2
    · exact hno t (by omega) h2
    apply h2
    obtain ⟨⟨p1, g1, g2⟩, g3, g4⟩ := hwait t (by omega) fun u h3 _ => hno u h3
    obtain ⟨c2, ⟨y, hy, hc2⟩, -, -, f2⟩ := r.toNet.call_next h1 k2
    refine ⟨_, rfl, ?_⟩
    have hfind : ∃ w, (σ t).waits.find? (fun w => decide (w.node = n ∧ w.thread = i)) = some w ∧ w.call = x.calls.length := by
      cases hf : (σ t).waits.find? (fun w => decide (w.node = n ∧ w.thread = i)) with
      | none => exact absurd (List.find?_eq_none.1 hf _ g3) (by simp)
      | some w => exact ⟨w, rfl, g4 w (List.mem_of_find?_eq_some hf) (by simpa using List.find?_some hf)⟩
    obtain ⟨w, hf, hwc⟩ := hfind
    simp only at hy
    have halive := r.alive t p1 (List.mem_of_getElem? g1)
    simp only [KPing.step, hf, hy, hwc, hc2, f2 _ k3, KWire.step, KWire.State.with, g1, hcr t y hy, Bool.or_self, Kad.step, halive, g2, Option.map_some, Option.isSome_some, Bool.false_eq_true, if_false]
  classical
  obtain ⟨h1, h2⟩ := Nat.find_spec hex
  have hmin : ∀ u, t0 < u → u < Nat.find hex → α u ≠ some (.pinged n i) := fun u h3 h4 h5 => Nat.find_min hex h4 ⟨h3, h5⟩
  refine ⟨Nat.find hex, h1, h2, fun u h3 h4 => (hwait u h3 fun v h5 h6 => hmin v h5 (by omega)).1, ?_⟩
  obtain ⟨⟨p1, g1, g2⟩, g3, g4⟩ := hwait (Nat.find hex) h1 hmin
  rcases hx (Nat.find hex) with ⟨h, -⟩ | ⟨a, h, hs⟩
  · rw [h2] at h; cases h
  rw [h2] at h; cases h
  rcases KPing.step_kw hs with ⟨b, h, -⟩ | ⟨m, j, y, q, id1, e2, h, -⟩ | ⟨m, j, w, y, d1, res, h, hw, hw1, hw2, hy, hd1, hpc1, hb, -⟩ | ⟨m, k, y, d1, h, -⟩ <;> cases h
  rw [g4 w hw ⟨hw1, hw2⟩] at hd1
  have := hret _ d1 res ⟨y, hy, hd1⟩ hpc1
  subst this
  rw [hpong] at hb
  obtain ⟨p2, f1, ⟨l, f2⟩ | ⟨b, hbe, f2⟩⟩ := KWire.step_kad hb g1
  · exfalso
    obtain ⟨y1, q0, q1, -, hq0, hf, he⟩ := KWire.with_some hb
    rw [g1] at hq0; cases hq0
    obtain ⟨k, hk, rfl⟩ := Option.map_eq_some_iff.1 hf
    rw [he] at f1
    simp only at f1
    rw [List.getElem?_set_self (List.getElem?_eq_some_iff.1 g1).1] at f1
    cases f1
    simp only at f2
    rw [f2] at hk
    simp only [Kad.step, r.alive _ p1 (List.mem_of_getElem? g1), g2, Bool.false_eq_true, if_false, Option.some.injEq] at hk
    have := congrArg (fun k => k.threads[i]?) hk
    simp only [Kad.State.set] at this
    rw [List.getElem?_set_self (List.getElem?_eq_some_iff.1 g2).1, List.getElem?_append_left (List.getElem?_eq_some_iff.1 g2).1, g2] at this
    simp at this
  · cases hbe
    simp only [Kad.step, r.alive _ p1 (List.mem_of_getElem? g1), g2, Bool.false_eq_true, if_false, Option.some.injEq, if_true] at f2
    refine ⟨p2, f1, ?_⟩
    rw [← f2]
    simp only [Kad.State.set]
    exact List.getElem?_set_self (List.getElem?_eq_some_iff.1 g2).1

/-- **C149 (peers that do not answer go).** In every execution of a network of nodes with kademlia: suppose a call of `Ack` pings a peer, and goes on when this request has returned, with something else than a pong. Then the next thing that it does is to remove the peer: right after that
there is nobody with the key of the peer in the routing table. Until then it does nothing else. -/
theorem C149_silent_peers_go (S : Sorter) (c : KWire.Cfg ε) (N : Nat) (σ : Nat → KPing.State ε) (α : Nat → Option (KPing.Action ε)) (hx : Execution (KPing.step S c) σ α) (h0 : KPing.Start c N (σ 0)) (n i t0 t : Nat) (ha : α t0 = some (.ping n i))
    (id e : ID) (hth : ThreadAt σ n i t0 ⟨id, .ping e⟩) (hlt : t0 < t) (hb : α t = some (.pinged n i)) (hfirst : ∀ u, t0 < u → u < t → α u ≠ some (.pinged n i)) (x x' : Node.State ε) (d : Node.Call ε) (r : Node.Result)
    (hX : (σ t0).kw.net.nodes[n]? = some x) (hX' : (σ t).kw.net.nodes[n]? = some x') (hd : x'.calls[x.calls.length]? = some d) (hr : d.pc = .returned r) (hno : ¬ Pong c.ops r) :
    (∀ u, t < u → (∀ v, t < v → v < u → α v ≠ some (.kw (.kad n (.step i)))) → ThreadAt σ n i u ⟨id, .delete e⟩) ∧
    ∀ u, t < u → α u = some (.kw (.kad n (.step i))) → (∀ v, t < v → v < u → α v ≠ some (.kw (.kad n (.step i)))) → ∀ e', InTable σ n (u + 1) e' → e'.id ≠ e.id := by
  obtain ⟨y, -, -, hY, -, -, -, -, -, -, hwait⟩ := KPing.ping_waits hx ha hth
  rw [hX] at hY; cases hY
  obtain ⟨⟨p1, g1, g2⟩, g3, g4⟩ := hwait t hlt hfirst
  have done : ThreadAt σ n i (t + 1) ⟨id, .delete e⟩ := by
    rcases hx t with ⟨h, -⟩ | ⟨a, h, hs⟩
    · rw [hb] at h; cases h
    rw [hb] at h; cases h
    rcases KPing.step_kw hs with ⟨b, h, -⟩ | ⟨m, j, y, q, id1, e2, h, -⟩ | ⟨m, j, w, y, d1, res, h, hw, hw1, hw2, hy, hd1, hpc1, hb, -⟩ | ⟨m, k, y, d1, h, -⟩ <;> cases h
    rw [g4 w hw ⟨hw1, hw2⟩] at hd1
    rw [hX'] at hy; cases hy
    rw [hd] at hd1; cases hd1
    rw [hr] at hpc1; cases hpc1
    have hf : KPing.isPong c.ops r = false := by
      cases h : KPing.isPong c.ops r with
      | false => rfl
      | true => exact absurd (KPing.pong_iff.1 h) hno
    rw [hf] at hb
    obtain ⟨y1, q0, q1, -, hq0, hf, he⟩ := KWire.with_some hb
    rw [g1] at hq0; cases hq0
    obtain ⟨k, hk, rfl⟩ := Option.map_eq_some_iff.1 hf
    refine ⟨{ p1 with kad := k, user := p1.user ++ KWire.given (.pinged i false) }, by rw [he]; exact List.getElem?_set_self (List.getElem?_eq_some_iff.1 g1).1, ?_⟩
    unfold Kad.step at hk
    split at hk
    · cases hk
    simp only [g2] at hk
    cases hk
    exact List.getElem?_set_self (List.getElem?_eq_some_iff.1 g2).1
  have stays : ∀ u, t + 1 ≤ u → (∀ v, t < v → v < u → α v ≠ some (.kw (.kad n (.step i)))) → ThreadAt σ n i u ⟨id, .delete e⟩ := by
    intro u hle
    induction u, hle using Nat.le_induction with
    | base => exact fun _ => done
    | succ u hle ih =>
      intro hns
      obtain ⟨p, hp, hth1⟩ := ih fun v h1 h2 => hns v h1 (by omega)
      have hnu := hns u (by omega) (by omega)
      rcases hx u with ⟨-, h⟩ | ⟨a, h, hs⟩
      · exact ⟨p, by rw [h]; exact hp, hth1⟩
      have key : ∀ {b : KWire.Action ε}, KWire.step S c (σ u).kw b = some (σ (u + 1)).kw → (∀ g, b ≠ .kad n (.pinged i g)) → b ≠ .kad n (.step i) → ThreadAt σ n i (u + 1) ⟨id, .delete e⟩ := by
        intro b hb h1 h2
        obtain ⟨p', f1, ⟨l, f2⟩ | ⟨act, rfl, f2⟩⟩ := KWire.step_kad hb hp
        · refine ⟨p', f1, ?_⟩
          rw [f2]
          simp only
          rw [List.getElem?_append_left (List.getElem?_eq_some_iff.1 hth1).1]; exact hth1
        · exact ⟨p', f1, KPing.kad_other f2 hth1 (fun g hg => h1 g (by rw [hg])) (fun hg => h2 (by rw [hg]))⟩
      rcases KPing.step_kw hs with ⟨b, rfl, hdec, hb, -⟩ | ⟨m, j, y, q, id1, e2, rfl, -, -, -, -, hb, -⟩ | ⟨m, j, w, y, d1, res, rfl, hw, rfl, rfl, -, -, -, hb, -⟩ | ⟨m, k, y, d1, rfl, -, -, -, hb, -⟩
      · exact key hb (by rintro g rfl; cases hdec) (by rintro rfl; exact hnu h)
      · exact key hb (by simp) (by simp)
      · refine key hb (fun g hg => ?_) (by simp)
        simp only [KWire.Action.kad.injEq, Kad.Action.pinged.injEq] at hg
        obtain ⟨rfl, rfl, -⟩ := hg
        obtain ⟨x1, q, id1, e1, d1, k1, k2, k3, -⟩ := (KPing.Inv.reach (KPing.exec_reach hx h0 u)).waits w hw
        rw [hp] at k2; cases k2
        rw [hth1] at k3; cases k3
      · exact key hb (by simp) (by simp)
  refine ⟨stays, fun u hu hau hns => ?_⟩
  obtain ⟨p, hp, hth1⟩ := stays u hu hns
  rcases hx u with ⟨h, -⟩ | ⟨a, h, hs⟩
  · rw [hau] at h; cases h
  rw [hau] at h; cases h
  rcases KPing.step_kw hs with ⟨b, h, -, hb, -⟩ | ⟨m, j, y, q, id1, e2, h, -⟩ | ⟨m, j, w, y, d1, res, h, -⟩ | ⟨m, k, y, d1, h, -⟩ <;> cases h
  obtain ⟨y1, q0, q1, -, hq0, hf, he⟩ := KWire.with_some hb
  rw [hp] at hq0; cases hq0
  obtain ⟨k, hk, rfl⟩ := Option.map_eq_some_iff.1 hf
  rintro e' ⟨p', hp', he'⟩
  rw [he] at hp'
  have hp' : (((σ u).kw.parts).set n { p with kad := k, user := p.user ++ KWire.given (.step i) })[n]? = some p' := hp'
  rw [List.getElem?_set_self (List.getElem?_eq_some_iff.1 hp).1] at hp'
  cases hp'
  have hi := KPing.table_inv (KPing.reach_kw (KPing.exec_reach hx h0 u)) n p hp
  unfold Kad.step at hk
  split at hk
  · cases hk
  simp only [hth1] at hk
  have key := KPing.delete_absent hi e.id e'
  simp only [Kad.threadStep] at hk
  split at hk <;> (rename_i hdel; cases hk; rw [hdel] at key; exact key he')

end Noise
